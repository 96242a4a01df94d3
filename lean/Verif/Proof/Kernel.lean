import Verif.Core.Exec
import Verif.Model.Kernel
/-
Helper lemmas about the model of kernel.hpp and multiplier.cpp.
-/
set_option linter.unusedSectionVars false
namespace Verif.Kernel
variable {α : Type} [Arith α]

theorem component_ok {A B : Array α} {N x y i j : Nat} {f g : Nat → α}
    (hA : ∀ k, k < N → A[(x + i) * N + k]? = some (f k))
    (hB : ∀ k, k < N → B[k * N + (y + j)]? = some (g k)) :
    component A B N x y i j = .ok (dot N f g) := by
  refine dot_loop fun k hk acc => ?_
  simp [rdAt_ok (hA k hk), rdAt_ok (hB k hk)]

theorem componentT_ok {A B : Array α} {N x y i j : Nat} {f g : Nat → α}
    (hA : ∀ k, k < N → A[(x + i) * N + k]? = some (f k))
    (hB : ∀ k, k < N → B[(y + j) * N + k]? = some (g k)) :
    componentT A B N x y i j = .ok (dot N f g) := by
  refine dot_loop fun k hk acc => ?_
  simp [rd_ok (hA k hk), rd_ok (hB k hk)]

theorem kernelBody_does {A B : Array α} {N x y bs : Nat} {a b : Nat → Nat → α}
    (hA : Holds A N N a) (hB : Holds B N N b) (hx : x + bs ≤ N) (hy : y + bs ≤ N) :
    Act.Does false (kernelBody A B (bs * bs) N x y bs) ()
      ((List.range bs).flatMap fun i => (List.range bs).flatMap fun j =>
        [(i * bs + j, fun _ => dot N (a (x + i)) (fun k => b k (y + j)))]) := by
  rw [← steps_one]
  refine Act.Does.forStep (by decide) fun i hi => Act.Does.forStep (by decide) fun j hj => ?_
  rw [steps_one, List.mem_range] at hi hj
  refine Act.Does.ofM_bind (component_ok (f := a (x + i)) (g := fun k => b k (y + j))
    (fun k hk => hA _ (by omega) k hk) (fun k hk => hB k hk _ (by omega))) ?_
  exact Act.Does.writeAt (idx_lt hi hj) _

theorem kernel_does {A B : Array α} {N x y bs : Nat} {a b : Nat → Nat → α}
    (hA : Holds A N N a) (hB : Holds B N N b) (hx : x + bs ≤ N) (hy : y + bs ≤ N) :
    Act.Does false (kernel A B (bs * bs) N x y bs) ()
      ((List.range bs).flatMap fun i => (List.range bs).flatMap fun j =>
        [(i * bs + j, fun _ => dot N (a (x + i)) (fun k => b k (y + j)))]) :=
  (kernelBody_does hA hB hx hy).tryCatch _

theorem kernel_transposed_does {A B : Array α} {N x y bs : Nat} {a b : Nat → Nat → α}
    (hA : Holds A N N a) (hB : Holds B N N b) (hx : x + bs ≤ N) (hy : y + bs ≤ N) :
    Act.Does false (kernel_transposed A B (bs * bs) N x y bs) ()
      ((List.range bs).flatMap fun i => (List.range bs).flatMap fun j =>
        [(i * bs + j, fun _ => dot N (a (x + i)) (b (y + j)))]) := by
  rw [← steps_one]
  refine Act.Does.forStep (by decide) fun i hi => Act.Does.forStep (by decide) fun j hj => ?_
  rw [steps_one, List.mem_range] at hi hj
  refine Act.Does.ofM_bind (componentT_ok (f := a (x + i)) (g := b (y + j))
    (fun k hk => hA _ (by omega) k hk) (fun k hk => hB _ (by omega) k hk)) ?_
  exact Act.Does.write (idx_lt hi hj) _

/-- Result of overwriting a whole block. -/
theorem block_result' {bs : Nat} (g : Nat → Nat → α) {C : Array α} (hC : C.size = bs * bs) :
    applyA ((List.range bs).flatMap fun i => (List.range bs).flatMap fun j =>
      [((i * bs + j, fun _ => g i j) : Upd α)]) C = rect bs bs g := by
  refine eq_rect (by simp [hC]) fun i hi j hj => ?_
  have hp := idx_lt hi hj
  rw [applyA_get, Array.getElem?_eq_getElem (by omega)]
  simp only [Option.map_some]
  rw [rows_cell g hi hj]

/-! ### swallowed exceptions (C05) -/

theorem component_inv {A B : Array α} {N x y i j : Nat} {r : α}
    (h : component A B N x y i j = .ok r) :
    ∃ f g : Nat → α, (∀ k, k < N → A[(x + i) * N + k]? = some (f k)) ∧
      (∀ k, k < N → B[k * N + (y + j)]? = some (g k)) ∧ r = dot N f g := by
  have key : ∀ k, k < N → (∃ u, A[(x + i) * N + k]? = some u) ∧
      (∃ u, B[k * N + (y + j)]? = some u) := by
    intro k hk
    apply Classical.byContradiction
    intro hn
    refine absurd h ?_
    unfold component
    rw [forStep_eq (by decide)]
    refine foldlM_not_ok (i0 := k) (by rw [steps_one]; exact List.mem_range.2 hk)
      (fun s s' => ?_) _ _
    cases hu : A[(x + i) * N + k]? with
    | none => simp [rdAt, hu]
    | some u =>
      cases hv : B[k * N + (y + j)]? with
      | none => simp [rdAt, hu, hv]
      | some v => exact absurd ⟨⟨u, hu⟩, ⟨v, hv⟩⟩ hn
  refine ⟨fun k => (A[(x + i) * N + k]?).getD Arith.zero,
    fun k => (B[k * N + (y + j)]?).getD Arith.zero, fun k hk => ?_, fun k hk => ?_, ?_⟩
  · obtain ⟨u, hu⟩ := (key k hk).1; simp [hu]
  · obtain ⟨u, hu⟩ := (key k hk).2; simp [hu]
  · have := component_ok (A := A) (B := B) (x := x) (y := y) (i := i) (j := j)
      (f := fun k => (A[(x + i) * N + k]?).getD Arith.zero)
      (g := fun k => (B[k * N + (y + j)]?).getD Arith.zero)
      (fun k hk => by obtain ⟨u, hu⟩ := (key k hk).1; simp [hu])
      (fun k hk => by obtain ⟨u, hu⟩ := (key k hk).2; simp [hu])
    rw [this] at h
    cases h; rfl

theorem component_errs {A B : Array α} {N x y i j : Nat} {e : Err}
    (h : component A B N x y i j = .error e) : e = .outOfRange := by
  unfold component at h
  rw [forStep_eq (by decide)] at h
  refine (foldlM_err (P := fun _ => True) (E := fun e => e = .outOfRange) (fun k _ s _ => ?_)
    trivial).2 e h
  refine ⟨fun _ _ => trivial, fun e he => ?_⟩
  cases hu : A[(x + i) * N + k]? with
  | none => simp [rdAt, hu] at he; exact he.symm
  | some u =>
    cases hv : B[k * N + (y + j)]? with
    | none => simp [rdAt, hu, hv] at he; exact he.symm
    | some v => simp [rdAt, hu, hv] at he

/-! ### the blocked kernel -/

theorem foldl_proj {σ τ ι : Type} (π : σ → τ) {g : σ → ι → σ} {g' : τ → ι → τ}
    (h : ∀ s i, π (g s i) = g' (π s) i) (l : List ι) (s : σ) :
    π (l.foldl g s) = l.foldl g' (π s) := by
  induction l generalizing s with
  | nil => rfl
  | cons i l ih => rw [List.foldl_cons, List.foldl_cons, ih, h]

/-- Loading a small block whose elements all exist, wherever they lie in the rows. -/
theorem loadSmall_vals {src : Array α} {N x kb br bi : Nat} {v : Nat → Nat → α}
    (hA : ∀ i, i < br → ∀ k, k < bi → src[(x + i) * N + kb + k]? = some (v i k))
    {small : Array α} (hs : small.size = br * bi) :
    loadSmall src N x kb br bi small = .ok (rect br bi v) := by
  have h1 : MDoes (loadSmall src N x kb br bi)
      ((steps 0 br 1).flatMap fun i => (steps 0 bi 1).flatMap fun k =>
        [(i * bi + k, fun _ => v i k)]) := by
    refine MDoes.forStep (by decide) fun i hi => MDoes.forStep (by decide) fun k hk' => ?_
    rw [steps_one, List.mem_range] at hi hk'
    intro c hc
    have : rd src ((x + i) * N + kb + k) = .ok (v i k) := by simp [rd, hA i hi k hk']
    simp only [this, M_bind_ok]
    exact MDoes.wr c hc
  rw [h1 small]
  · congr 1
    refine eq_rect (by simp [hs]) fun i hi j hj => ?_
    have hp := idx_lt hi hj
    rw [applyA_get, Array.getElem?_eq_getElem (by omega)]
    simp only [Option.map_some, steps_one]
    rw [rows_cell v hi hj]
  · intro u hu
    simp only [steps_one, List.mem_flatMap, List.mem_range, List.mem_singleton] at hu
    obtain ⟨i, hi, k, hk, rfl⟩ := hu
    rw [hs]
    exact idx_lt hi hk

theorem loadSmall_ok {src : Array α} {N x kb br bi : Nat} {a : Nat → Nat → α}
    (hA : Holds src N N a) (hx : x + br ≤ N) (hk : kb + bi ≤ N) {small : Array α}
    (hs : small.size = br * bi) :
    loadSmall src N x kb br bi small = .ok (rect br bi fun i k => a (x + i) (kb + k)) :=
  loadSmall_vals (fun i hi k hk' => by
    have := hA (x + i) (by omega) (kb + k) (by omega)
    rwa [← Nat.add_assoc] at this) hs

/-- The eight dot products computed by the inner loop. -/
def dots8 (bi : Nat) (f g : Nat → Nat → α) (i j : Nat) : Acc8 α :=
  ⟨dot bi (f i) (g j), dot bi (f i) (g (j + 1)),
   dot bi (f (i + 1)) (g j), dot bi (f (i + 1)) (g (j + 1)),
   dot bi (f (i + 2)) (g j), dot bi (f (i + 2)) (g (j + 1)),
   dot bi (f (i + 3)) (g j), dot bi (f (i + 3)) (g (j + 1))⟩

theorem macAt_ok {As Bs : Array α} {m n : Nat} {f g : Nat → Nat → α} (hA : Holds As m n f)
    (hB : Holds Bs m n g) {i j k : Nat} (hi : i < m) (hj : j < m) (hk : k < n) (r : α) :
    macAt As Bs (i * n + k) (j * n + k) r = .ok (Arith.mac r (f i k) (g j k)) := by
  simp [macAt, hA.rd hi hk, hB.rd hj hk]

theorem inner8_ok {As Bs : Array α} {br bi : Nat} {f g : Nat → Nat → α} (hA : Holds As br bi f)
    (hB : Holds Bs br bi g) {i j : Nat} (hi : i + 3 < br) (hj : j + 1 < br) :
    inner8 As Bs bi i j = .ok (dots8 bi f g i j) := by
  unfold inner8
  rw [forStep_ok (g := fun s k => (⟨
      Arith.mac s.r00 (f i k) (g j k), Arith.mac s.r01 (f i k) (g (j + 1) k),
      Arith.mac s.r10 (f (i + 1) k) (g j k), Arith.mac s.r11 (f (i + 1) k) (g (j + 1) k),
      Arith.mac s.r20 (f (i + 2) k) (g j k), Arith.mac s.r21 (f (i + 2) k) (g (j + 1) k),
      Arith.mac s.r30 (f (i + 3) k) (g j k), Arith.mac s.r31 (f (i + 3) k) (g (j + 1) k)⟩ : Acc8 α))
    (by decide)]
  · congr 1
    rw [steps_one]
    generalize hF : List.foldl _ _ _ = F
    have hF' : F = ⟨F.r00, F.r01, F.r10, F.r11, F.r20, F.r21, F.r30, F.r31⟩ := rfl
    rw [hF', dots8]
    congr
    · rw [← hF]; exact foldl_proj Acc8.r00 (fun _ _ => rfl) _ _
    · rw [← hF]; exact foldl_proj Acc8.r01 (fun _ _ => rfl) _ _
    · rw [← hF]; exact foldl_proj Acc8.r10 (fun _ _ => rfl) _ _
    · rw [← hF]; exact foldl_proj Acc8.r11 (fun _ _ => rfl) _ _
    · rw [← hF]; exact foldl_proj Acc8.r20 (fun _ _ => rfl) _ _
    · rw [← hF]; exact foldl_proj Acc8.r21 (fun _ _ => rfl) _ _
    · rw [← hF]; exact foldl_proj Acc8.r30 (fun _ _ => rfl) _ _
    · rw [← hF]; exact foldl_proj Acc8.r31 (fun _ _ => rfl) _ _
  · intro k hk s
    rw [steps_one, List.mem_range] at hk
    simp only [Nat.add_zero,
      macAt_ok hA hB (show i < br by omega) (show j < br by omega) hk,
      macAt_ok hA hB (show i < br by omega) (show j + 1 < br by omega) hk,
      macAt_ok hA hB (show i + 1 < br by omega) (show j < br by omega) hk,
      macAt_ok hA hB (show i + 1 < br by omega) (show j + 1 < br by omega) hk,
      macAt_ok hA hB (show i + 2 < br by omega) (show j < br by omega) hk,
      macAt_ok hA hB (show i + 2 < br by omega) (show j + 1 < br by omega) hk,
      macAt_ok hA hB (show i + 3 < br by omega) (show j < br by omega) hk,
      macAt_ok hA hB (show i + 3 < br by omega) (show j + 1 < br by omega) hk,
      M_bind_ok, M_pure]

/-- The eight updates of `C` made for the register block at `(i,j)`. -/
def upd8 (br : Nat) (d : Nat → Nat → α) (i j : Nat) : List (Upd α) :=
  [(i * br + j, fun x => Arith.add x (d i j)),
   (i * br + (j + 1), fun x => Arith.add x (d i (j + 1))),
   ((i + 1) * br + j, fun x => Arith.add x (d (i + 1) j)),
   ((i + 1) * br + (j + 1), fun x => Arith.add x (d (i + 1) (j + 1))),
   ((i + 2) * br + j, fun x => Arith.add x (d (i + 2) j)),
   ((i + 2) * br + (j + 1), fun x => Arith.add x (d (i + 2) (j + 1))),
   ((i + 3) * br + j, fun x => Arith.add x (d (i + 3) j)),
   ((i + 3) * br + (j + 1), fun x => Arith.add x (d (i + 3) (j + 1)))]

theorem store8_does {br bi i j : Nat} {f g : Nat → Nat → α} (hi : i + 3 < br) (hj : j + 1 < br) :
    Act.Does false (store8 (br * br) br i j (dots8 bi f g i j)) ()
      (upd8 br (fun r c => dot bi (f r) (g c)) i j) := by
  unfold store8 dots8 upd8
  simp only [Nat.add_zero]
  refine Act.Does.bind (us := [_]) (Act.Does.addTo (idx_lt (by omega) (by omega)) _) ?_
  refine Act.Does.bind (us := [_]) (Act.Does.addTo (idx_lt (by omega) (by omega)) _) ?_
  refine Act.Does.bind (us := [_]) (Act.Does.addTo (idx_lt (by omega) (by omega)) _) ?_
  refine Act.Does.bind (us := [_]) (Act.Does.addTo (idx_lt (by omega) (by omega)) _) ?_
  refine Act.Does.bind (us := [_]) (Act.Does.addTo (idx_lt (by omega) (by omega)) _) ?_
  refine Act.Does.bind (us := [_]) (Act.Does.addTo (idx_lt (by omega) (by omega)) _) ?_
  refine Act.Does.bind (us := [_]) (Act.Does.addTo (idx_lt (by omega) (by omega)) _) ?_
  exact Act.Does.addTo (idx_lt (by omega) (by omega)) _

theorem multSmall_does {As Bs : Array α} {br bi : Nat} {f g : Nat → Nat → α}
    (hA : Holds As br bi f) (hB : Holds Bs br bi g) (h4 : br % 4 = 0) :
    Act.Does false (multSmall As Bs (br * br) br bi) ()
      ((steps 0 br 4).flatMap fun i => (steps 0 br 2).flatMap fun j =>
        upd8 br (fun r c => dot bi (f r) (g c)) i j) := by
  refine Act.Does.forStep (by decide) fun i hi => Act.Does.forStep (by decide) fun j hj => ?_
  obtain ⟨t, ht, hi⟩ := (mem_steps (by decide)).1 hi
  obtain ⟨u, hu, hj⟩ := (mem_steps (by decide)).1 hj
  exact Act.Does.ofM_bind (inner8_ok hA hB (by omega) (by omega))
    (store8_does (by omega) (by omega))

/-- Positions touched by the register block `(i,j)`. -/
theorem upd8_pos {br : Nat} {d : Nat → Nat → α} {i j : Nat} {u : Upd α}
    (hu : u ∈ upd8 br d i j) : ∃ r c, i ≤ r ∧ r < i + 4 ∧ j ≤ c ∧ c < j + 2 ∧ u.1 = r * br + c := by
  simp only [upd8, List.mem_cons, List.not_mem_nil, or_false] at hu
  rcases hu with rfl | rfl | rfl | rfl | rfl | rfl | rfl | rfl
  · exact ⟨i, j, by omega, by omega, by omega, by omega, rfl⟩
  · exact ⟨i, j + 1, by omega, by omega, by omega, by omega, rfl⟩
  · exact ⟨i + 1, j, by omega, by omega, by omega, by omega, rfl⟩
  · exact ⟨i + 1, j + 1, by omega, by omega, by omega, by omega, rfl⟩
  · exact ⟨i + 2, j, by omega, by omega, by omega, by omega, rfl⟩
  · exact ⟨i + 2, j + 1, by omega, by omega, by omega, by omega, rfl⟩
  · exact ⟨i + 3, j, by omega, by omega, by omega, by omega, rfl⟩
  · exact ⟨i + 3, j + 1, by omega, by omega, by omega, by omega, rfl⟩

theorem upd8_cell {br : Nat} {d : Nat → Nat → α} {i j r c : Nat} (hi : i ≤ r) (hi' : r < i + 4)
    (hj : j ≤ c) (hj' : c < j + 2) (hj2 : j + 1 < br) (x : α) :
    cellFold (upd8 br d i j) (r * br + c) x = Arith.add x (d r c) := by
  have inj : ∀ r' c', c' < br → (r' * br + c' = r * br + c ↔ r' = r ∧ c' = c) := by
    intro r' c' hc'
    constructor
    · exact fun h => idx_inj hc' (by omega) h
    · rintro ⟨rfl, rfl⟩; rfl
  simp only [upd8, cellFold_cons, cellFold_nil, inj _ j (by omega), inj _ (j + 1) (by omega)]
  have hr : r = i ∨ r = i + 1 ∨ r = i + 2 ∨ r = i + 3 := by omega
  have hc : c = j ∨ c = j + 1 := by omega
  rcases hr with rfl | rfl | rfl | rfl <;> rcases hc with rfl | rfl <;> simp

theorem multSmall_cell {br : Nat} {d : Nat → Nat → α} (h4 : br % 4 = 0) {r c : Nat} (hr : r < br)
    (hc : c < br) (x : α) :
    cellFold ((steps 0 br 4).flatMap fun i => (steps 0 br 2).flatMap fun j => upd8 br d i j)
      (r * br + c) x = Arith.add x (d r c) := by
  have hi0 : r / 4 * 4 ∈ steps 0 br 4 := (mem_steps (by decide)).2 ⟨r / 4, by omega, by omega⟩
  have hj0 : c / 2 * 2 ∈ steps 0 br 2 := (mem_steps (by decide)).2 ⟨c / 2, by omega, by omega⟩
  rw [cellFold_flatMap_unique (steps_nodup (by decide)) hi0]
  · rw [cellFold_flatMap_unique (steps_nodup (by decide)) hj0]
    · exact upd8_cell (by omega) (by omega) (by omega) (by omega) (by omega) x
    · intro j hj hne u hu he
      obtain ⟨t, ht, hj⟩ := (mem_steps (by decide)).1 hj
      obtain ⟨r', c', h1, h2, h3, h4', h5⟩ := upd8_pos hu
      rw [h5] at he
      have := idx_inj (show c' < br by omega) hc he
      omega
  · intro i hi hne u hu he
    obtain ⟨t, ht, hi⟩ := (mem_steps (by decide)).1 hi
    obtain ⟨j, hj, hu⟩ := List.mem_flatMap.1 hu
    obtain ⟨t', ht', hj⟩ := (mem_steps (by decide)).1 hj
    obtain ⟨r', c', h1, h2, h3, h4', h5⟩ := upd8_pos hu
    rw [h5] at he
    have := idx_inj (show c' < br by omega) hc he
    omega

/-- The blocked kernel, if all elements of the input blocks exist. -/
theorem blocked_does {A B : Array α} {N x y br bi : Nat} {u v : Nat → Nat → α} (h4 : br % 4 = 0)
    (hbi : 0 < bi)
    (hA : ∀ kb ∈ steps 0 N bi, ∀ i, i < br → ∀ k, k < bi →
      A[(x + i) * N + kb + k]? = some (u i (kb + k)))
    (hB : ∀ kb ∈ steps 0 N bi, ∀ i, i < br → ∀ k, k < bi →
      B[(y + i) * N + kb + k]? = some (v i (kb + k))) :
    Act.Does false (kernel_transposed_blocked A B (br * br) N x y br bi) ()
      ((steps 0 N bi).flatMap fun kb =>
        (steps 0 br 4).flatMap fun i => (steps 0 br 2).flatMap fun j =>
          upd8 br (fun r c => dot bi (fun k => u r (kb + k)) (fun k => v c (kb + k))) i j) := by
  unfold kernel_transposed_blocked
  obtain ⟨s', _, h⟩ := Act.Does.forStep_inv (A := false) (lo := 0) (hi := N) hbi
    (body := fun k_block (s : Array α × Array α) => do
      let As ← Act.ofM (loadSmall A N x k_block br bi s.1)
      let Bs ← Act.ofM (loadSmall B N y k_block br bi s.2)
      multSmall As Bs (br * br) br bi
      pure (As, Bs))
    (us := fun kb => (steps 0 br 4).flatMap fun i => (steps 0 br 2).flatMap fun j =>
      upd8 br (fun r c => dot bi (fun k => u r (kb + k)) (fun k => v c (kb + k))) i j)
    (fun s => s.1.size = br * bi ∧ s.2.size = br * bi) (fun kb hkb s hs => by
      refine ⟨(rect br bi fun i k => u i (kb + k), rect br bi fun i k => v i (kb + k)),
        by simp, ?_⟩
      refine Act.Does.ofM_bind (loadSmall_vals (hA kb hkb) hs.1) ?_
      refine Act.Does.ofM_bind (loadSmall_vals (hB kb hkb) hs.2) ?_
      have := (multSmall_does (holds_rect br bi fun i k => u i (kb + k))
        (holds_rect br bi fun i k => v i (kb + k)) h4).bind
        (f := fun _ => pure (rect br bi fun i k => u i (kb + k),
          rect br bi fun i k => v i (kb + k))) Act.Does.pure
      rw [List.append_nil] at this
      exact this)
    (s := (zeros (bi * br), zeros (bi * br))) (by simp [Nat.mul_comm])
  have := h.bind (f := fun _ => pure ()) Act.Does.pure
  rw [List.append_nil] at this
  exact this

theorem kernel_transposed_blocked_does {A B : Array α} {N x y br bi nb : Nat}
    {a b : Nat → Nat → α} (hA : Holds A N N a) (hB : Holds B N N b) (hx : x + br ≤ N)
    (hy : y + br ≤ N) (h4 : br % 4 = 0) (hbi : 0 < bi) (hN : N = nb * bi) :
    Act.Does false (kernel_transposed_blocked A B (br * br) N x y br bi) ()
      ((steps 0 N bi).flatMap fun kb =>
        (steps 0 br 4).flatMap fun i => (steps 0 br 2).flatMap fun j =>
          upd8 br (fun r c => dot bi (fun k => a (x + r) (kb + k)) (fun k => b (y + c) (kb + k))) i j) := by
  have hle : ∀ kb ∈ steps 0 N bi, kb + bi ≤ N := by
    intro kb hkb
    obtain ⟨t, ht, hkb⟩ := (mem_steps hbi).1 hkb
    have : t < nb := by
      apply Classical.byContradiction; intro hn
      have := Nat.mul_le_mul_right bi (show nb ≤ t by omega)
      omega
    have := Nat.mul_le_mul_right bi (show t + 1 ≤ nb by omega)
    rw [Nat.add_mul] at this; omega
  refine blocked_does (u := fun r k => a (x + r) k) (v := fun r k => b (y + r) k) h4 hbi
    (fun kb hkb i hi k hk => ?_) (fun kb hkb i hi k hk => ?_)
  · have := hle kb hkb
    have := hA (x + i) (by omega) (kb + k) (by omega)
    rwa [← Nat.add_assoc] at this
  · have := hle kb hkb
    have := hB (y + i) (by omega) (kb + k) (by omega)
    rwa [← Nat.add_assoc] at this

theorem blocked_cell {N br bi nb : Nat} {F G : Nat → Nat → α} (h4 : br % 4 = 0) (hbi : 0 < bi)
    (hN : N = nb * bi) {r c : Nat} (hr : r < br) (hc : c < br) (x : α) :
    cellFold ((steps 0 N bi).flatMap fun kb =>
        (steps 0 br 4).flatMap fun i => (steps 0 br 2).flatMap fun j =>
          upd8 br (fun r c => dot bi (fun k => F r (kb + k)) (fun k => G c (kb + k))) i j)
      (r * br + c) x = bdotFrom x bi nb (F r) (G c) := by
  rw [cellFold_flatMap, hN, steps_mul nb bi hbi, List.foldl_map]
  unfold bdotFrom
  refine foldl_congr' (fun t _ s => ?_) _
  exact multSmall_cell h4 hr hc s

/-! ### necessity of the divisibility conditions -/

theorem loadSmall_size {src : Array α} {N x kb br bi : Nat} {small : Array α} :
    (∀ s', loadSmall src N x kb br bi small = .ok s' → s'.size = small.size) ∧
    (∀ e, loadSmall src N x kb br bi small = .error e → e = .oob) := by
  unfold loadSmall
  rw [forStep_eq (by decide)]
  refine foldlM_err (P := fun (s : Array α) => s.size = small.size) (E := fun e => e = .oob)
    (fun i _ s hs => ?_) rfl
  rw [forStep_eq (by decide)]
  refine foldlM_err (P := fun (s : Array α) => s.size = small.size) (fun k _ s hs => ?_) hs
  cases hv : src[(x + i) * N + kb + k]? with
  | none => simp [rd, hv]
  | some v =>
    simp only [rd, hv, M_bind_ok, wr]
    split
    · exact ⟨fun s' h => by cases h; simpa using hs, fun _ h => by cases h⟩
    · exact ⟨fun _ h => by (cases h), fun _ h => by cases h; rfl⟩

theorem loadSmall_not_ok {src : Array α} {N x kb br bi : Nat} {small : Array α} {i k : Nat}
    (hi : i < br) (hk : k < bi) (h : src.size ≤ (x + i) * N + kb + k) (s' : Array α) :
    loadSmall src N x kb br bi small ≠ .ok s' := by
  unfold loadSmall
  rw [forStep_eq (by decide)]
  refine foldlM_not_ok (i0 := i) (by rw [steps_one]; exact List.mem_range.2 hi) (fun s s' => ?_) _ _
  rw [forStep_eq (by decide)]
  refine foldlM_not_ok (i0 := k) (by rw [steps_one]; exact List.mem_range.2 hk) (fun s s' => ?_) _ _
  simp [rd_oob h]

theorem macAt_errs {As Bs : Array α} {p q : Nat} {r : α} {e : Err}
    (h : macAt As Bs p q r = .error e) : e = .oob := by
  unfold macAt rd at h
  cases hu : As[p]? with
  | none => simp [hu] at h; exact h.symm
  | some u =>
    cases hv : Bs[q]? with
    | none => simp [hu, hv] at h; exact h.symm
    | some v => simp [hu, hv] at h

theorem bind_error {σ τ : Type} {x : M σ} {f : σ → M τ} {e : Err} (h : (x >>= f) = .error e) :
    x = .error e ∨ ∃ v, x = .ok v ∧ f v = .error e := by
  cases x with
  | ok v => exact .inr ⟨v, rfl, h⟩
  | error e' => cases h; exact .inl rfl

theorem inner8_errs {As Bs : Array α} {bi i j : Nat} {e : Err}
    (h : inner8 As Bs bi i j = .error e) : e = .oob := by
  unfold inner8 at h
  rw [forStep_eq (by decide)] at h
  refine (foldlM_err (P := fun _ => True) (E := fun e => e = .oob) (fun k _ s _ => ?_)
    trivial).2 e h
  refine ⟨fun _ _ => trivial, fun e he => ?_⟩
  rcases bind_error he with h | ⟨v, _, he⟩; · exact macAt_errs h
  rcases bind_error he with h | ⟨v, _, he⟩; · exact macAt_errs h
  rcases bind_error he with h | ⟨v, _, he⟩; · exact macAt_errs h
  rcases bind_error he with h | ⟨v, _, he⟩; · exact macAt_errs h
  rcases bind_error he with h | ⟨v, _, he⟩; · exact macAt_errs h
  rcases bind_error he with h | ⟨v, _, he⟩; · exact macAt_errs h
  rcases bind_error he with h | ⟨v, _, he⟩; · exact macAt_errs h
  rcases bind_error he with h | ⟨v, _, he⟩; · exact macAt_errs h
  cases he

theorem addTo_errs (n i : Nat) (v : α) :
    (Act.addTo n i v).All (fun _ => True) (fun e => e = .oob) := by
  unfold Act.addTo Act.read Act.write
  by_cases h : i < n
  · simp only [if_pos h]; exact fun _ => trivial
  · simp only [if_neg h]; exact rfl

theorem multSmall_errs (As Bs : Array α) (nC br bi : Nat) :
    (multSmall As Bs nC br bi).All (fun _ => True) (fun e => e = .oob) := by
  unfold multSmall
  rw [forStep_eq (by decide)]
  refine Act.All.foldlM (fun i _ _ _ => ?_) trivial
  rw [forStep_eq (by decide)]
  refine Act.All.foldlM (fun j _ _ _ => ?_) trivial
  refine Act.All.bind (P' := fun _ => True)
    (Act.All.ofM (fun _ _ => trivial) fun e he => inner8_errs he) fun s _ => ?_
  unfold store8
  repeat' (refine Act.All.bind (addTo_errs _ _ _) fun _ _ => ?_)
  exact addTo_errs _ _ _

/-- All errors of the blocked kernel are out-of-bounds accesses. -/
theorem blockedBody_all (A B : Array α) (nC N x y br bi kb : Nat) (s : Array α × Array α)
    (hs : s.1.size = br * bi ∧ s.2.size = br * bi) :
    (do
      let As ← Act.ofM (loadSmall A N x kb br bi s.1)
      let Bs ← Act.ofM (loadSmall B N y kb br bi s.2)
      multSmall As Bs nC br bi
      pure (As, Bs) : Act α (Array α × Array α)).All
      (fun s => s.1.size = br * bi ∧ s.2.size = br * bi) (fun e => e = .oob) := by
  refine Act.All.bind (P' := fun As => As.size = br * bi)
    (Act.All.ofM (fun r hr => (loadSmall_size.1 r hr).trans hs.1) fun e he => loadSmall_size.2 e he)
    fun As hAs => ?_
  refine Act.All.bind (P' := fun Bs => Bs.size = br * bi)
    (Act.All.ofM (fun r hr => (loadSmall_size.1 r hr).trans hs.2) fun e he => loadSmall_size.2 e he)
    fun Bs hBs => ?_
  refine Act.All.bind (multSmall_errs _ _ _ _ _) fun _ _ => ?_
  exact ⟨hAs, hBs⟩

theorem multSmall_stuck {As Bs : Array α} {nC br bi : Nat} (hs : As.size = br * bi)
    (hbi : 0 < bi) (h4 : br % 4 ≠ 0) :
    (multSmall As Bs nC br bi).All (fun _ => False) (fun e => e = .oob) := by
  have herr := multSmall_errs As Bs nC br bi
  have hno : (multSmall As Bs nC br bi).NoRet := by
    unfold multSmall
    rw [forStep_eq (by decide)]
    refine Act.NoRet.foldlM (i0 := br / 4 * 4)
      ((mem_steps (by decide)).2 ⟨br / 4, by omega, by omega⟩) (fun _ => ?_) _
    rw [forStep_eq (by decide)]
    refine Act.NoRet.foldlM (i0 := 0) ((mem_steps (by decide)).2 ⟨0, by omega, by omega⟩)
      (fun _ => ?_) _
    refine Act.NoRet.bind_left (Act.All.ofM (fun r hr => ?_) fun _ _ => trivial)
    refine absurd hr ?_
    unfold inner8
    rw [forStep_eq (by decide)]
    refine foldlM_not_ok (i0 := 0) (by rw [steps_one]; exact List.mem_range.2 hbi)
      (fun s s' hk => ?_) _ _
    have hoob : As.size ≤ (br / 4 * 4 + 3) * bi + 0 := by
      rw [hs]
      exact Nat.le_add_right_of_le (Nat.mul_le_mul_right bi (by omega))
    have hmac : ∀ q r, macAt As Bs ((br / 4 * 4 + 3) * bi + 0) q r = .error .oob := by
      intro q r; rw [macAt, rd_oob hoob]; rfl
    simp only [hmac, M_bind_error] at hk
    have key : ∀ {σ τ : Type} {x : M σ} {f : σ → M τ} {v : τ}, (x >>= f) = .ok v →
        ∃ u, x = .ok u ∧ f u = .ok v := by
      intro σ τ x f v h
      cases x with
      | ok u => exact ⟨u, rfl, h⟩
      | error e => cases h
    obtain ⟨_, _, hk⟩ := key hk
    obtain ⟨_, _, hk⟩ := key hk
    obtain ⟨_, _, hk⟩ := key hk
    obtain ⟨_, _, hk⟩ := key hk
    obtain ⟨_, _, hk⟩ := key hk
    obtain ⟨_, _, hk⟩ := key hk
    cases hk
  exact (herr.and hno).mono (fun _ h => h.2) (fun _ h => h.1)

/-- If the iteration `kb` of the outer loop gets stuck, so does the kernel. -/
theorem blocked_stuck {A B : Array α} {nC N x y br bi kb : Nat} (hbi : 0 < bi)
    (hkb : kb ∈ steps 0 N bi)
    (h : ∀ s : Array α × Array α, s.1.size = br * bi ∧ s.2.size = br * bi →
      (do
        let As ← Act.ofM (loadSmall A N x kb br bi s.1)
        let Bs ← Act.ofM (loadSmall B N y kb br bi s.2)
        multSmall As Bs nC br bi
        pure (As, Bs) : Act α (Array α × Array α)).All (fun _ => False) (fun e => e = .oob)) :
    (kernel_transposed_blocked A B nC N x y br bi).All (fun _ => False) (fun e => e = .oob) := by
  unfold kernel_transposed_blocked
  refine Act.All.bind (P' := fun _ => False) ?_ fun _ h => h.elim
  rw [forStep_eq hbi]
  exact Act.All.foldlM_stuck (P := fun s => s.1.size = br * bi ∧ s.2.size = br * bi) hkb
    (fun kb' _ s hs => blockedBody_all A B nC N x y br bi kb' s hs) h (by simp [Nat.mul_comm])

end Verif.Kernel
