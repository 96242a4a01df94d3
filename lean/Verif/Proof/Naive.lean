import Verif.Core.Mat
import Verif.Model.Naive
/-
Helper lemmas about the model of naive.hpp.
-/
namespace Verif.Naive
variable {α : Type} [Arith α]

theorem component_ok {N : Nat} {A B : Array α} {i : Nat} {bi : Nat → Nat} {f g : Nat → α}
    (hA : ∀ k, k < N → A[i * N + k]? = some (f k)) (hB : ∀ k, k < N → B[bi k]? = some (g k)) :
    component N A B i bi = .ok (dot N f g) := by
  refine dot_loop fun k hk acc => ?_
  simp [rdAt_ok (hA k hk), rdAt_ok (hB k hk)]

theorem rowTask_does {N : Nat} {A B : Array α} {a b : Nat → Nat → α} (hA : Holds A N N a)
    (hB : Holds B N N b) {i : Nat} (hi : i < N) :
    Act.Does false (rowTask N A B i) ()
      ((List.range N).flatMap fun j => [(i * N + j, fun _ => mulSpec N a b i j)]) := by
  rw [← steps_one]
  refine Act.Does.forStep (by decide) fun j hj => ?_
  rw [steps_one, List.mem_range] at hj
  refine Act.Does.ofM_bind (component_ok (f := fun k => a i k) (g := fun k => b k j)
    (fun k hk => hA i hi k hk) (fun k hk => hB k hk j hj)) ?_
  exact Act.Does.writeAt (idx_lt hi hj) _

theorem rowTaskT_does {N : Nat} {A B : Array α} {a b : Nat → Nat → α} (hA : Holds A N N a)
    (hB : Holds B N N b) {i : Nat} (hi : i < N) :
    Act.Does false (rowTaskT N A B i) ()
      ((List.range N).flatMap fun j => [(i * N + j, fun _ => mulSpec N a (tr b) i j)]) := by
  rw [← steps_one]
  refine Act.Does.forStep (by decide) fun j hj => ?_
  rw [steps_one, List.mem_range] at hj
  refine Act.Does.ofM_bind (component_ok (f := fun k => a i k) (g := fun k => b j k)
    (fun k hk => hA i hi k hk) (fun k hk => hB j hj k hk)) ?_
  exact Act.Does.writeAt (idx_lt hi hj) _

theorem tree_does {N : Nat} {A B : Array α} {a b : Nat → Nat → α} (hA : Holds A N N a)
    (hB : Holds B N N b) :
    Tree.Does false (tree N A B) ((List.range N).flatMap fun i =>
      (List.range N).flatMap fun j => [(i * N + j, fun _ => mulSpec N a b i j)]) :=
  Tree.Does.par (fun _ hi => .act (rowTask_does hA hB (List.mem_range.1 hi)))
    (rows_pairwise N N _)

theorem treeT_does {N : Nat} {A B : Array α} {a b : Nat → Nat → α} (hA : Holds A N N a)
    (hB : Holds B N N b) :
    Tree.Does false (treeT N A B) ((List.range N).flatMap fun i =>
      (List.range N).flatMap fun j => [(i * N + j, fun _ => mulSpec N a (tr b) i j)]) :=
  Tree.Does.par (fun _ hi => .act (rowTaskT_does hA hB (List.mem_range.1 hi)))
    (rows_pairwise N N _)

theorem rows_result (N : Nat) (g : Nat → Nat → α) :
    applyA ((List.range N).flatMap fun i => (List.range N).flatMap fun j =>
      [((i * N + j, fun _ => g i j) : Upd α)]) (zeros (N * N)) = rowMajor N g :=
  applyA_rect (by simp) (zeros_holds N N) fun _ hi _ hj => rows_cell g hi hj _

theorem component_errs (N : Nat) (A B : Array α) (i : Nat) (bi : Nat → Nat) (e : Err)
    (h : component N A B i bi = .error e) : e = .outOfRange := by
  unfold component at h
  rw [forStep_eq (by decide)] at h
  generalize steps 0 N 1 = l at h
  generalize (Arith.zero : α) = z at h
  induction l generalizing z with
  | nil => cases h
  | cons k l ih =>
    rw [List.foldlM_cons] at h
    cases hx : A[i * N + k]? with
    | none => simp [rdAt, hx] at h; exact h.symm
    | some x =>
      cases hy : B[bi k]? with
      | none => simp [rdAt, hx, hy] at h; exact h.symm
      | some y =>
        simp only [rdAt, hx, hy, M_bind_ok, M_pure] at h
        exact ih _ h

theorem rowTask_errs (N : Nat) (A B : Array α) (i : Nat) :
    (rowTask N A B i).All (fun _ => True) (fun e => e = .outOfRange) := by
  unfold rowTask
  rw [forStep_eq (by decide)]
  refine Act.All.foldlM (fun j _ s _ => ?_) trivial
  refine Act.All.bind (P' := fun _ => True) (Act.All.ofM (fun _ _ => trivial)
    (fun e he => component_errs _ _ _ _ _ e he)) fun r _ => ?_
  unfold Act.writeAt
  split
  · trivial
  · exact rfl

theorem tree_errs (N : Nat) (A B : Array α) :
    (tree N A B).Errs (fun e => e = .outOfRange) := by
  refine .par fun t ht => ?_
  obtain ⟨i, _, rfl⟩ := List.mem_map.1 ht
  exact .act (rowTask_errs N A B i)

theorem component_not_ok {N : Nat} {A B : Array α} {i : Nat} {bi : Nat → Nat} {k : Nat}
    (hk : k < N) (h : A.size ≤ i * N + k ∨ B.size ≤ bi k) (r : α) :
    component N A B i bi ≠ .ok r := by
  unfold component
  rw [forStep_eq (by decide)]
  refine foldlM_not_ok (i0 := k) (by rw [steps_one]; exact List.mem_range.2 hk) (fun s s' => ?_) _ _
  rcases h with h | h
  · simp [rdAt_err h]
  · rw [rdAt_err h]
    cases rdAt A (i * N + k) <;> simp

theorem rowTask_noRet {N : Nat} {A B : Array α} {i j k : Nat} (hj : j < N) (hk : k < N)
    (h : A.size ≤ i * N + k ∨ B.size ≤ k * N + j) : (rowTask N A B i).NoRet := by
  unfold rowTask
  rw [forStep_eq (by decide)]
  refine Act.NoRet.foldlM (i0 := j) (by rw [steps_one]; exact List.mem_range.2 hj) (fun _ => ?_) _
  refine Act.NoRet.bind_left ?_
  exact Act.All.ofM (fun r hr => component_not_ok hk h r hr) fun _ _ => trivial

theorem rowTaskT_errs (N : Nat) (A B : Array α) (i : Nat) :
    (rowTaskT N A B i).All (fun _ => True) (fun e => e = .outOfRange) := by
  unfold rowTaskT
  rw [forStep_eq (by decide)]
  refine Act.All.foldlM (fun j _ s _ => ?_) trivial
  refine Act.All.bind (P' := fun _ => True) (Act.All.ofM (fun _ _ => trivial)
    (fun e he => component_errs _ _ _ _ _ e he)) fun r _ => ?_
  unfold Act.writeAt
  split
  · trivial
  · exact rfl

theorem treeT_errs (N : Nat) (A B : Array α) :
    (treeT N A B).Errs (fun e => e = .outOfRange) := by
  refine .par fun t ht => ?_
  obtain ⟨i, _, rfl⟩ := List.mem_map.1 ht
  exact .act (rowTaskT_errs N A B i)

theorem rowTaskT_noRet {N : Nat} {A B : Array α} {i j k : Nat} (hj : j < N) (hk : k < N)
    (h : A.size ≤ i * N + k ∨ B.size ≤ j * N + k) : (rowTaskT N A B i).NoRet := by
  unfold rowTaskT
  rw [forStep_eq (by decide)]
  refine Act.NoRet.foldlM (i0 := j) (by rw [steps_one]; exact List.mem_range.2 hj) (fun _ => ?_) _
  refine Act.NoRet.bind_left ?_
  exact Act.All.ofM (fun r hr => component_not_ok hk h r hr) fun _ _ => trivial

end Verif.Naive
