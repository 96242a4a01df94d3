import Verif.Core.Param
import Verif.Model.Naive
import Verif.Model.Async
import Verif.Model.Algorithms
import Verif.Model.Looped
import Verif.Model.Semi
import Verif.Model.Combined
import Verif.Model.KernelTiled
import Verif.Model.KernelTest
/-
The multiplications take every relation between numbers that the operations respect to a relation
between their results.
-/
namespace Verif
open IndexIterator
variable {α β : Type} {R : α → β → Prop}

theorem RTree.calls {ι : Type} {f : ι → Act α Unit} {g : ι → Act β Unit}
    (h : ∀ i, RAct R RAct.U (f i) (g i)) : ∀ c : Calls ι, RTree R (c.toTree f) (c.toTree g)
  | .call i => by
    simp only [Calls.toTree]
    exact .act (h i)
  | .fail e => by
    simp only [Calls.toTree]
    exact .act (.fail e)
  | .seq ts => by
    simp only [Calls.toTree]
    refine .seq (by simp) fun n t u ht hu => ?_
    rw [List.getElem?_map] at ht hu
    cases hl : ts[n]? with
    | none => rw [hl] at ht; exact absurd ht (by simp)
    | some c =>
      rw [hl] at ht hu
      cases ht
      cases hu
      have : sizeOf c < sizeOf ts := List.sizeOf_lt_of_mem (List.mem_of_getElem? hl)
      exact RTree.calls h c
  | .par ts => by
    simp only [Calls.toTree]
    refine .par (by simp) fun n t u ht hu => ?_
    rw [List.getElem?_map] at ht hu
    cases hl : ts[n]? with
    | none => rw [hl] at ht; exact absurd ht (by simp)
    | some c =>
      rw [hl] at ht hu
      cases ht
      cases hu
      have : sizeOf c < sizeOf ts := List.sizeOf_lt_of_mem (List.mem_of_getElem? hl)
      exact RTree.calls h c
termination_by c => sizeOf c
decreasing_by
  all_goals simp_wf
  all_goals omega

variable [Arith α] [Arith β] {A B : Array α} {A' B' : Array β}

theorem Respects.mac2 (hR : Respects R) {x : M α} {x' : M β} {y : M α} {y' : M β} {c : α} {c' : β}
    (hx : RM R x x') (hy : RM R y y') (hc : R c c') :
    RM R (do let a ← x; let b ← y; pure (Arith.mac c a b))
      (do let a ← x'; let b ← y'; pure (Arith.mac c' a b)) :=
  hx.bind fun _ _ h1 => hy.bind fun _ _ h2 => .ok (hR.mac hc h1 h2)

omit [Arith α] [Arith β] in
theorem RArr.copy {x : M α} {x' : M β} (hx : RM R x x') {v : Array α} {v' : Array β}
    (hv : RArr R v v') (i : Nat) :
    RM (RArr R) (do let a ← x; Verif.wr v i a) (do let a ← x'; Verif.wr v' i a) :=
  hx.bind fun _ _ h => hv.wr i h

omit [Arith α] [Arith β] in
theorem RArr.copyAt {x : M α} {x' : M β} (hx : RM R x x') {v : Array α} {v' : Array β}
    (hv : RArr R v v') (i : Nat) :
    RM (RArr R) (do let a ← x; Verif.wrAt v i a) (do let a ← x'; Verif.wrAt v' i a) :=
  hx.bind fun _ _ h => hv.wrAt i h

namespace Naive

theorem component_param (hR : Respects R) (hA : RArr R A A') (hB : RArr R B B') (N i : Nat)
    (bi : Nat → Nat) : RM R (component N A B i bi) (component N A' B' i bi) :=
  RM.forStep hR.zero fun _ _ _ h => hR.mac2 (hA.rdAt _) (hB.rdAt _) h

theorem tree_param (hR : Respects R) (hA : RArr R A A') (hB : RArr R B B') (N : Nat) :
    RTree R (tree N A B) (tree N A' B') :=
  RTree.map_par _ fun _ => .act <| RAct.forStep trivial fun _ _ _ _ =>
    (RAct.ofM (component_param hR hA hB _ _ _)).bind fun _ _ h => RAct.writeAt _ _ h

theorem treeT_param (hR : Respects R) (hA : RArr R A A') (hB : RArr R B B') (N : Nat) :
    RTree R (treeT N A B) (treeT N A' B') :=
  RTree.map_par _ fun _ => .act <| RAct.forStep trivial fun _ _ _ _ =>
    (RAct.ofM (component_param hR hA hB _ _ _)).bind fun _ _ h => RAct.writeAt _ _ h

theorem param (hR : Respects R) (hA : RArr R A A') (hB : RArr R B B') (N : Nat) :
    RND (RArr R) (naive_matrix_multiply N A B) (naive_matrix_multiply N A' B') :=
  RND.runOn hR (RArr.zeros hR _) (tree_param hR hA hB N)

theorem paramT (hR : Respects R) (hA : RArr R A A') (hB : RArr R B B') (N : Nat) :
    RND (RArr R) (naive_matrix_multiply_transposed N A B)
      (naive_matrix_multiply_transposed N A' B') :=
  RND.runOn hR (RArr.zeros hR _) (treeT_param hR hA hB N)

end Naive

namespace Kernel

theorem component_param (hR : Respects R) (hA : RArr R A A') (hB : RArr R B B') (N x y i j : Nat) :
    RM R (component A B N x y i j) (component A' B' N x y i j) :=
  RM.forStep hR.zero fun _ _ _ h => hR.mac2 (hA.rdAt _) (hB.rdAt _) h

theorem componentT_param (hR : Respects R) (hA : RArr R A A') (hB : RArr R B B') (N x y i j : Nat) :
    RM R (componentT A B N x y i j) (componentT A' B' N x y i j) :=
  RM.forStep hR.zero fun _ _ _ h => hR.mac2 (hA.rd _) (hB.rd _) h

theorem kernel_param (hR : Respects R) (hA : RArr R A A') (hB : RArr R B B') (nC N x y bs : Nat) :
    RAct R RAct.U (kernel A B nC N x y bs) (kernel A' B' nC N x y bs) :=
  RAct.catchOutOfRange <| RAct.forStep trivial fun _ _ _ _ => RAct.forStep trivial fun _ _ _ _ =>
    (RAct.ofM (component_param hR hA hB _ _ _ _ _)).bind fun _ _ h => RAct.writeAt _ _ h

theorem kernel_transposed_param (hR : Respects R) (hA : RArr R A A') (hB : RArr R B B')
    (nC N x y bs : Nat) :
    RAct R RAct.U (kernel_transposed A B nC N x y bs) (kernel_transposed A' B' nC N x y bs) :=
  RAct.forStep trivial fun _ _ _ _ => RAct.forStep trivial fun _ _ _ _ =>
    (RAct.ofM (componentT_param hR hA hB _ _ _ _ _)).bind fun _ _ h => RAct.write _ _ h

omit [Arith α] [Arith β] in
theorem loadSmall_param (hA : RArr R A A') {v : Array α} {v' : Array β}
    (hv : RArr R v v') (N x k br bi : Nat) :
    RM (RArr R) (loadSmall A N x k br bi v) (loadSmall A' N x k br bi v') :=
  RM.forStep hv fun _ _ _ h => RM.forStep h fun _ _ _ h => RArr.copy (hA.rd _) h _

def RAcc8 (R : α → β → Prop) (s : Acc8 α) (t : Acc8 β) : Prop :=
  R s.r00 t.r00 ∧ R s.r01 t.r01 ∧ R s.r10 t.r10 ∧ R s.r11 t.r11 ∧ R s.r20 t.r20 ∧ R s.r21 t.r21 ∧
    R s.r30 t.r30 ∧ R s.r31 t.r31

theorem macAt_param (hR : Respects R) (hA : RArr R A A') (hB : RArr R B B') (p q : Nat) {r : α}
    {r' : β} (h : R r r') : RM R (macAt A B p q r) (macAt A' B' p q r') :=
  hR.mac2 (hA.rd _) (hB.rd _) h

theorem init_param (hR : Respects R) : RAcc8 R Acc8.init Acc8.init :=
  ⟨hR.zero, hR.zero, hR.zero, hR.zero, hR.zero, hR.zero, hR.zero, hR.zero⟩

theorem inner8_param (hR : Respects R) (hA : RArr R A A') (hB : RArr R B B') (bi i j : Nat) :
    RM (RAcc8 R) (inner8 A B bi i j) (inner8 A' B' bi i j) := by
  refine RM.forStep (init_param hR) fun _ _ _ h => ?_
  obtain ⟨h1, h2, h3, h4, h5, h6, h7, h8⟩ := h
  exact (macAt_param hR hA hB _ _ h1).bind fun _ _ g1 =>
    (macAt_param hR hA hB _ _ h2).bind fun _ _ g2 =>
    (macAt_param hR hA hB _ _ h3).bind fun _ _ g3 =>
    (macAt_param hR hA hB _ _ h4).bind fun _ _ g4 =>
    (macAt_param hR hA hB _ _ h5).bind fun _ _ g5 =>
    (macAt_param hR hA hB _ _ h6).bind fun _ _ g6 =>
    (macAt_param hR hA hB _ _ h7).bind fun _ _ g7 =>
    (macAt_param hR hA hB _ _ h8).bind fun _ _ g8 => .ok ⟨g1, g2, g3, g4, g5, g6, g7, g8⟩

theorem store8_param (hR : Respects R) (nC br i j : Nat) {s : Acc8 α} {t : Acc8 β} (h : RAcc8 R s t) :
    RAct R RAct.U (store8 nC br i j s) (store8 nC br i j t) := by
  obtain ⟨h1, h2, h3, h4, h5, h6, h7, h8⟩ := h
  exact (RAct.addTo hR _ _ h1).bind fun _ _ _ => (RAct.addTo hR _ _ h2).bind fun _ _ _ =>
    (RAct.addTo hR _ _ h3).bind fun _ _ _ => (RAct.addTo hR _ _ h4).bind fun _ _ _ =>
    (RAct.addTo hR _ _ h5).bind fun _ _ _ => (RAct.addTo hR _ _ h6).bind fun _ _ _ =>
    (RAct.addTo hR _ _ h7).bind fun _ _ _ => RAct.addTo hR _ _ h8

theorem multSmall_param (hR : Respects R) (hA : RArr R A A') (hB : RArr R B B') (nC br bi : Nat) :
    RAct R RAct.U (multSmall A B nC br bi) (multSmall A' B' nC br bi) :=
  RAct.forStep trivial fun _ _ _ _ => RAct.forStep trivial fun _ _ _ _ =>
    (RAct.ofM (inner8_param hR hA hB _ _ _)).bind fun _ _ h => store8_param hR _ _ _ _ h

theorem kernel_transposed_blocked_param (hR : Respects R) (hA : RArr R A A') (hB : RArr R B B')
    (nC N x y br bi : Nat) :
    RAct R RAct.U (kernel_transposed_blocked A B nC N x y br bi)
      (kernel_transposed_blocked A' B' nC N x y br bi) := by
  unfold kernel_transposed_blocked
  refine RAct.bind (S := fun p q => RArr R p.1 q.1 ∧ RArr R p.2 q.2) ?_ fun _ _ _ => .ret trivial
  refine RAct.forStep ⟨RArr.zeros hR _, RArr.zeros hR _⟩ ?_
  rintro k ⟨As, Bs⟩ ⟨As', Bs'⟩ ⟨h1, h2⟩
  exact (RAct.ofM (loadSmall_param hA h1 _ _ _ _ _)).bind fun _ _ g1 =>
    (RAct.ofM (loadSmall_param hB h2 _ _ _ _ _)).bind fun _ _ g2 =>
    (multSmall_param hR g1 g2 _ _ _).bind fun _ _ _ => .ret ⟨g1, g2⟩

theorem calculate_submatrix_param (hR : Respects R) (hA : RArr R A A') (hB : RArr R B B') (N : Nat)
    (transposed : Bool) (bi x y br : Nat) :
    RM (RArr R) (calculate_submatrix ⟨N, A, B, transposed, bi⟩ x y br)
      (calculate_submatrix ⟨N, A', B', transposed, bi⟩ x y br) := by
  have hz := RArr.zeros (R := R) hR (br * br)
  unfold calculate_submatrix
  simp only
  rw [hz.1]
  split
  · exact (kernel_param hR hA hB _ _ _ _ _).execOn hR hz
  · split
    · exact (kernel_transposed_param hR hA hB _ _ _ _ _).execOn hR hz
    · exact (kernel_transposed_blocked_param hR hA hB _ _ _ _ _ _).execOn hR hz

end Kernel

namespace Recursive
open Kernel

omit [Arith α] [Arith β] in
theorem extract_param {s : Array α} {t : Array β} (h : RArr R s t) (nC x y bs : Nat) :
    RAct R RAct.U (extract_submatrix nC s x y bs) (extract_submatrix nC t x y bs) :=
  RAct.catchOutOfRange <| RAct.forStep trivial fun _ _ _ _ => RAct.forStep trivial fun _ _ _ _ =>
    (RAct.ofM (h.rdAt _)).bind fun _ _ h => RAct.writeAt _ _ h

theorem distribute_param (hR : Respects R) {mult : Nat → Nat → Nat → M (Array α)}
    {mult' : Nat → Nat → Nat → M (Array β)} (hm : ∀ x y b, RM (RArr R) (mult x y b) (mult' x y b))
    (br : Nat) : ∀ bs x y : Nat, RND (RArr R) (distribute_recursively mult br x y bs)
      (distribute_recursively mult' br x y bs) := by
  intro bs
  induction bs using Nat.strongRecOn with
  | _ bs ih =>
    intro x y
    rw [distribute_recursively, distribute_recursively]
    split
    · exact RND.ofM (hm _ _ _)
    · rename_i hlt
      have hn : bs / 2 < bs := by omega
      refine (ih _ hn _ _).bind fun _ _ h0 => (ih _ hn _ _).bind fun _ _ h1 =>
        (ih _ hn _ _).bind fun _ _ h2 => (ih _ hn _ _).bind fun _ _ h3 =>
        RND.runOn hR (RArr.zeros hR _) ?_
      refine .par rfl fun n t u ht hu => ?_
      match n with
      | 0 => cases ht; cases hu; exact .act (extract_param h0 _ _ _ _)
      | 1 => cases ht; cases hu; exact .act (extract_param h1 _ _ _ _)
      | 2 => cases ht; cases hu; exact .act (extract_param h2 _ _ _ _)
      | 3 => cases ht; cases hu; exact .act (extract_param h3 _ _ _ _)
      | n + 4 => exact absurd ht (by simp)

theorem single_param (hR : Respects R) (hA : RArr R A A') (hB : RArr R B B') (N : Nat)
    (transposed : Bool) (br bi reps : Nat) :
    RND (RArr R) (single_matrix_multiply N A B transposed br bi reps)
      (single_matrix_multiply N A' B' transposed br bi reps) :=
  RND.forStep (RArr.zeros hR _) fun _ _ _ _ =>
    distribute_param hR (fun _ _ _ => calculate_submatrix_param hR hA hB _ _ _ _ _ _) _ _ _ _

end Recursive

namespace StaticImproved
open Kernel Recursive

/-- The same packages with related results. -/
inductive RSubs (R : α → β → Prop) : List (Work × Array α) → List (Work × Array β) → Prop
  | nil : RSubs R [] []
  | cons {w a b l k} : RArr R a b → RSubs R l k → RSubs R ((w, a) :: l) ((w, b) :: k)

theorem packages_param (hR : Respects R) {mult : Nat → Nat → Nat → M (Array α)}
    {mult' : Nat → Nat → Nat → M (Array β)} (hm : ∀ x y b, RM (RArr R) (mult x y b) (mult' x y b))
    (br : Nat) : ∀ ws : List Work, RND (RSubs R) (computePackages mult br ws)
      (computePackages mult' br ws)
  | [] => RND.pure .nil
  | _ :: ws => (distribute_param hR hm _ _ _ _).bind fun _ _ h =>
      (packages_param hR hm br ws).bind fun _ _ hs => RND.pure (.cons h hs)

omit [Arith α] [Arith β] in
theorem insert_param (N : Nat) {s : Array α} {t : Array β} (h : RArr R s t) (w : Work) :
    RAct R RAct.U (insert_submatrix N s w) (insert_submatrix N t w) :=
  RAct.forStep trivial fun _ _ _ _ => RAct.forStep trivial fun _ _ _ _ =>
    (RAct.ofM (h.rd _)).bind fun _ _ h => RAct.write _ _ h

omit [Arith α] [Arith β] in
theorem insertAll_param (N : Nat) {l : List (Work × Array α)} {k : List (Work × Array β)}
    (h : RSubs R l k) :
    RTree R (.par (l.map fun ws => .act (insert_submatrix N ws.2 ws.1)))
      (.par (k.map fun ws => .act (insert_submatrix N ws.2 ws.1))) := by
  have hl : l.length = k.length := by
    induction h with
    | nil => rfl
    | cons _ _ ih => simp [ih]
  refine .par (by simp [hl]) fun n t u ht hu => ?_
  rw [List.getElem?_map] at ht hu
  clear hl
  induction h generalizing n with
  | nil => exact absurd ht (by simp)
  | cons hr _ ih =>
    cases n with
    | zero =>
      cases ht
      cases hu
      exact .act (insert_param N hr _)
    | succ n => exact ih n ht hu

theorem improved_param (hR : Respects R) (hA : RArr R A A') (hB : RArr R B B') (p : Params) (N : Nat)
    (transposed : Bool) (bi br reps L : Nat) :
    RND (RArr R) (matrix_multiply p N A B transposed bi br reps L)
      (matrix_multiply p N A' B' transposed bi br reps L) := by
  refine (RND.ofM (RM.self _)).bind ?_
  rintro ws _ rfl
  exact RND.forStep (RArr.zeros hR _) fun _ _ _ hC =>
    (packages_param hR (fun _ _ _ => calculate_submatrix_param hR hA hB _ _ _ _ _ _) _ _).bind
      fun _ _ hs => RND.runOn hR hC (insertAll_param N hs)

end StaticImproved

namespace Async
open Kernel StaticImproved

omit [Arith α] [Arith β] in
theorem at_param {X Y : Type} {S : X → Y → Prop} {p : Act α X} {q : Act β Y} (h : RAct R S p q)
    (off : Nat) : RAct R S (p.at off) (q.at off) := by
  induction h with
  | ret h => exact .ret h
  | fail e => exact .fail e
  | rd i _ ih => exact .rd _ ih
  | wr i hv _ ih => exact .wr _ hv ih
  | rdFlag j _ ih => exact .rdFlag j ih
  | wrFlag j b _ ih => exact .wrFlag j b ih

theorem allocate_param (hR : Respects R) (off n : Nat) :
    RAct R RAct.U (allocate off n) (allocate off n) :=
  RAct.forStep trivial fun _ _ _ _ => .wr _ hR.zero (.ret trivial)

theorem leaf_param (hR : Respects R) (hA : RArr R A A') (hB : RArr R B B') (N : Nat)
    (transposed : Bool) (bi off x y br : Nat) :
    RAct R RAct.U (leaf ⟨N, A, B, transposed, bi⟩ off x y br)
      (leaf ⟨N, A', B', transposed, bi⟩ off x y br) := by
  refine (allocate_param hR _ _).bind fun _ _ _ => at_param ?_ _
  unfold submatrix_kernel
  simp only
  split
  · exact kernel_param hR hA hB _ _ _ _ _
  · split
    · exact kernel_transposed_param hR hA hB _ _ _ _ _
    · exact kernel_transposed_blocked_param hR hA hB _ _ _ _ _ _

omit [Arith α] [Arith β] in
theorem extract_param (src nS dst nC x y bs : Nat) :
    RAct R RAct.U (extract_submatrix src nS dst nC x y bs) (extract_submatrix src nS dst nC x y bs) := by
  refine RAct.catchOutOfRange <| RAct.forStep trivial fun _ _ _ _ =>
    RAct.forStep trivial fun _ _ _ _ => RAct.bind (S := R) ?_ fun _ _ h =>
    at_param (RAct.writeAt _ _ h) _
  unfold readAtFrom
  split
  · exact .rd _ fun _ _ h => .ret h
  · exact .fail _

omit [Arith α] [Arith β] in
theorem two {t₁ t₂ : Tree α} {u₁ u₂ : Tree β} (h₁ : RTree R t₁ u₁) (h₂ : RTree R t₂ u₂) :
    RTree R (.seq [t₁, t₂]) (.seq [u₁, u₂]) := by
  refine .seq rfl fun n t u ht hu => ?_
  match n with
  | 0 => cases ht; cases hu; exact h₁
  | 1 => cases ht; cases hu; exact h₂
  | n + 2 => exact absurd ht (by simp)

omit [Arith α] [Arith β] in
theorem repeated {t : Tree α} {u : Tree β} (h : RTree R t u) (n : Nat) :
    RTree R (.seq (List.replicate n t)) (.seq (List.replicate n u)) := by
  refine .seq (by simp) fun i t u ht hu => ?_
  rw [List.getElem?_replicate] at ht hu
  split at ht
  · rename_i hi
    rw [if_pos hi] at hu
    cases ht
    cases hu
    exact h
  · exact absurd ht (by simp)

theorem distribute_param (hR : Respects R) (hA : RArr R A A') (hB : RArr R B B') (N : Nat)
    (transposed : Bool) (bi br : Nat) : ∀ bs off x y : Nat,
    RTree R (distribute_recursively ⟨N, A, B, transposed, bi⟩ br off x y bs)
      (distribute_recursively ⟨N, A', B', transposed, bi⟩ br off x y bs) := by
  intro bs
  induction bs using Nat.strongRecOn with
  | _ bs ih =>
    intro off x y
    rw [distribute_recursively, distribute_recursively]
    split
    · exact .act (leaf_param hR hA hB _ _ _ _ _ _ _)
    · rename_i hlt
      exact two (.act (allocate_param hR _ _)) <| RTree.map_par _ fun _ =>
        two (ih _ (by omega) _ _ _) (.act (extract_param _ _ _ _ _ _ _))

theorem single_param (hR : Respects R) (hA : RArr R A A') (hB : RArr R B B') (N : Nat)
    (transposed : Bool) (br bi reps : Nat) :
    RTree R (single_tasks N A B transposed br bi reps) (single_tasks N A' B' transposed br bi reps) :=
  repeated (distribute_param hR hA hB _ _ _ _ _ _ _ _) _

omit [Arith α] [Arith β] in
theorem insert_param (N src : Nat) (w : Work) :
    RAct R RAct.U (insert_submatrix N src w) (insert_submatrix N src w) :=
  RAct.forStep trivial fun _ _ _ _ => RAct.forStep trivial fun _ _ _ _ =>
    (at_param (RAct.read _ _) _).bind fun _ _ h => RAct.write _ _ h

theorem packages_param (hR : Respects R) (hA : RArr R A A') (hB : RArr R B B') (N M : Nat)
    (transposed : Bool) (bi br : Nat) : ∀ (ws : List Work) (off : Nat),
    (package_tasks ⟨N, A, B, transposed, bi⟩ M br off ws).length =
      (package_tasks ⟨N, A', B', transposed, bi⟩ M br off ws).length ∧
    ∀ (n : Nat) t u, (package_tasks ⟨N, A, B, transposed, bi⟩ M br off ws)[n]? = some t →
      (package_tasks ⟨N, A', B', transposed, bi⟩ M br off ws)[n]? = some u → RTree R t u
  | [], off => ⟨rfl, fun n t u ht => absurd ht (by simp [package_tasks])⟩
  | w :: ws, off => by
    obtain ⟨h1, h2⟩ := packages_param hR hA hB N M transposed bi br ws (off + cells br w.N)
    refine ⟨by simp only [package_tasks, List.length_cons, h1], fun n t u ht hu => ?_⟩
    simp only [package_tasks] at ht hu
    cases n with
    | zero =>
      cases ht
      cases hu
      exact two (distribute_param hR hA hB _ _ _ _ _ _ _ _) (.act (insert_param _ _ _))
    | succ n => exact h2 n t u ht hu

theorem improved_param (hR : Respects R) (hA : RArr R A A') (hB : RArr R B B') (N M : Nat)
    (transposed : Bool) (bi br reps : Nat) (ws : List Work) :
    RTree R (improved_tasks ⟨N, A, B, transposed, bi⟩ M br reps ws)
      (improved_tasks ⟨N, A', B', transposed, bi⟩ M br reps ws) := by
  obtain ⟨h1, h2⟩ := packages_param hR hA hB N M transposed bi br ws (M * M)
  exact repeated (.par h1 h2) _

end Async

namespace Algorithms

omit [Arith α] [Arith β] in
theorem loadSmall_param (hA : RArr R A A') {v : Array α} {v' : Array β}
    (hv : RArr R v v') (N x k br bi : Nat) :
    RM (RArr R) (loadSmall A N x k br bi v) (loadSmall A' N x k br bi v') :=
  RM.forStep hv fun _ _ _ h => RM.forStep h fun _ _ _ h => RArr.copy (hA.rd _) h _

theorem inner_product_param (hR : Respects R) (hA : RArr R A A') (hB : RArr R B B') (bi x y : Nat) :
    RM R (inner_product A B bi x y) (inner_product A' B' bi x y) :=
  RM.forStep hR.zero fun _ _ _ h => hR.mac2 (hA.rd _) (hB.rd _) h

theorem multSmall_param (hR : Respects R) (hA : RArr R A A') (hB : RArr R B B') {v : Array α}
    {v' : Array β} (hv : RArr R v v') (br bi : Nat) :
    RM (RArr R) (multSmall A B br bi v) (multSmall A' B' br bi v') :=
  RM.foldlM (fun _ _ _ h => (h.rd _).bind fun _ _ hv =>
    (inner_product_param hR hA hB _ _ _).bind fun _ _ hp => h.wr _ (hR.add hv hp)) _ _ _ hv

theorem block_param (hR : Respects R) (hA : RArr R A A') (hB : RArr R B B') (N bi br x y : Nat) :
    RM (RArr R) (block N A B bi br x y) (block N A' B' bi br x y) := by
  unfold block
  refine RM.bind (S := fun p q => RArr R p.1 q.1 ∧ RArr R p.2.1 q.2.1 ∧ RArr R p.2.2 q.2.2) ?_
    fun _ _ h => .ok h.1
  refine RM.forStep ⟨RArr.zeros hR _, RArr.zeros hR _, RArr.zeros hR _⟩ ?_
  rintro k ⟨C, a, b⟩ ⟨C', a', b'⟩ ⟨hC, ha, hb⟩
  exact (loadSmall_param hA ha _ _ _ _ _).bind fun _ _ ha =>
    (loadSmall_param hB hb _ _ _ _ _).bind fun _ _ hb =>
    (multSmall_param hR ha hb hC _ _).bind fun _ _ hC => .ok ⟨hC, ha, hb⟩

theorem tree_param (hR : Respects R) (hA : RArr R A A') (hB : RArr R B B') (N bi br : Nat) :
    RTree R (tree N A B bi br) (tree N A' B' bi br) :=
  RTree.map_par _ fun _ => .act <| (RAct.ofM (block_param hR hA hB _ _ _ _ _)).bind fun _ _ hC =>
    RAct.forStep trivial fun _ _ _ _ => RAct.forStep trivial fun _ _ _ _ =>
      (RAct.ofM (hC.rd _)).bind fun _ _ h => RAct.write _ _ h

theorem param (hR : Respects R) (hA : RArr R A A') (hB : RArr R B B') (N bi br : Nat) :
    RND (RArr R) (matrix_multiply N A B bi br) (matrix_multiply N A' B' bi br) := by
  unfold matrix_multiply
  split
  · exact RND.fail _
  · exact RND.runOn hR (RArr.zeros hR _) (tree_param hR hA hB N bi br)

end Algorithms

namespace Looped

theorem iterateRev_param {σ τ : Type} {S : σ → τ → Prop} {f : List Nat → σ → M σ}
    {g : List Nat → τ → M τ} (hf : ∀ i x y, S x y → RM S (f i x) (g i y)) :
    ∀ (cfg : List (List Nat)) (mn mx : List Nat) (x : σ) (y : τ), S x y →
      RM S (iterateRev f cfg mn mx x) (iterateRev g cfg mn mx y)
  | [], mn, mx, x, y, _ => by
    simp only [iterateRev]
    split <;> exact .error _
  | block :: rest, mn, mx, x, y, h => by
    unfold iterateRev
    split
    · exact .error _
    · refine RM.bind (RM.self _) ?_
      rintro count _ rfl
      split
      · exact .error _
      · refine RM.foldlM (fun n x y h => ?_) _ _ _ h
        cases rest with
        | nil => exact hf _ _ _ h
        | cons c rest => exact iterateRev_param hf (c :: rest) _ _ _ _ h

theorem param (hR : Respects R) (hA : RArr R A A') (hB : RArr R B B') (N br bi : Nat) :
    RM (RArr R) (matrix_multiply N A B br bi) (matrix_multiply N A' B' br bi) := by
  unfold matrix_multiply
  refine RM.bind (RM.self _) ?_
  rintro p _ rfl
  refine RM.bind (RM.self _) ?_
  rintro p _ rfl
  refine iterateRev_param (fun i x y h => ?_) _ _ _ _ _ (RArr.zeros hR _)
  exact (hA.rd _).bind fun _ _ h1 => (hB.rd _).bind fun _ _ h2 => (h.rd _).bind fun _ _ h3 =>
    h.wr _ (hR.mac h3 h1 h2)

end Looped

namespace Semi
open Kernel

theorem copy_param (hR : Respects R) (hA : RArr R A A') (N : Nat) (pol : Policy) :
    RND (RArr R) (copy N pol A) (copy N pol A') := by
  refine RND.runOn hR (RArr.zeros hR _) (RTree.calls (fun p => ?_) _)
  exact (RAct.ofM (hA.rd _)).bind fun _ _ h => RAct.write _ _ h

theorem inner8_param (hR : Respects R) (hA : RArr R A A') (hB : RArr R B B') (N bi x y k : Nat) :
    RM (RAcc8 R) (inner8 N A B bi x y k) (inner8 N A' B' bi x y k) := by
  refine RM.forStep (init_param hR) fun _ _ _ h => ?_
  obtain ⟨h1, h2, h3, h4, h5, h6, h7, h8⟩ := h
  exact (macAt_param hR hA hB _ _ h1).bind fun _ _ g1 =>
    (macAt_param hR hA hB _ _ h2).bind fun _ _ g2 =>
    (macAt_param hR hA hB _ _ h3).bind fun _ _ g3 =>
    (macAt_param hR hA hB _ _ h4).bind fun _ _ g4 =>
    (macAt_param hR hA hB _ _ h5).bind fun _ _ g5 =>
    (macAt_param hR hA hB _ _ h6).bind fun _ _ g6 =>
    (macAt_param hR hA hB _ _ h7).bind fun _ _ g7 =>
    (macAt_param hR hA hB _ _ h8).bind fun _ _ g8 => .ok ⟨g1, g2, g3, g4, g5, g6, g7, g8⟩

theorem tree_param (hR : Respects R) (hA : RArr R A A') (hB : RArr R B B') (N bi : Nat)
    (pol : Policy) : RTree R (tree N A B bi pol) (tree N A' B' bi pol) := by
  refine RTree.calls (fun _ => ?_) _
  refine (RAct.ofM (inner8_param hR hA hB _ _ _ _ _)).bind fun _ _ h => ?_
  obtain ⟨h1, h2, h3, h4, h5, h6, h7, h8⟩ := h
  exact (RAct.addTo hR _ _ h1).bind fun _ _ _ => (RAct.addTo hR _ _ h2).bind fun _ _ _ =>
    (RAct.addTo hR _ _ h3).bind fun _ _ _ => (RAct.addTo hR _ _ h4).bind fun _ _ _ =>
    (RAct.addTo hR _ _ h5).bind fun _ _ _ => (RAct.addTo hR _ _ h6).bind fun _ _ _ =>
    (RAct.addTo hR _ _ h7).bind fun _ _ _ => RAct.addTo hR _ _ h8

theorem rest_param (hR : Respects R) (hA : RArr R A A') (hB : RArr R B B') (N bi : Nat)
    (mpol : M Policy) :
    RND (RArr R)
      (do
        let pol_copy ← ND.ofM (Policy.new 2)
        let A_conflict ← copy N pol_copy A
        let B_conflict ← copy N pol_copy B
        let policy ← ND.ofM mpol
        let C_conflict ← ND.runOn (zeros (N * N)) (tree N A_conflict B_conflict bi policy)
        copy N pol_copy C_conflict)
      (do
        let pol_copy ← ND.ofM (Policy.new 2)
        let A_conflict ← copy N pol_copy A'
        let B_conflict ← copy N pol_copy B'
        let policy ← ND.ofM mpol
        let C_conflict ← ND.runOn (zeros (N * N)) (tree N A_conflict B_conflict bi policy)
        copy N pol_copy C_conflict) := by
  refine (RND.ofM (RM.self _)).bind ?_
  rintro pc _ rfl
  refine (copy_param hR hA _ _).bind fun _ _ hA => (copy_param hR hB _ _).bind fun _ _ hB => ?_
  refine (RND.ofM (RM.self _)).bind ?_
  rintro p _ rfl
  exact (RND.runOn hR (RArr.zeros hR _) (tree_param hR hA hB _ _ _)).bind fun _ _ hC =>
    copy_param hR hC _ _

theorem param (hR : Respects R) (hA : RArr R A A') (hB : RArr R B B') (N bi : Nat) :
    RND (RArr R) (matrix_multiply N A B bi) (matrix_multiply N A' B' bi) :=
  rest_param hR hA hB N bi _

theorem blocked_param (hR : Respects R) (hA : RArr R A A') (hB : RArr R B B') (par : List Bool)
    (N bi : Nat) :
    RND (RArr R) (blocked_matrix_multiply par N A B bi) (blocked_matrix_multiply par N A' B' bi) :=
  rest_param hR hA hB N bi _

end Semi

namespace Tiled

def RV4 (R : α → β → Prop) (s : V4 α) (t : V4 β) : Prop :=
  R s.l0 t.l0 ∧ R s.l1 t.l1 ∧ R s.l2 t.l2 ∧ R s.l3 t.l3

structure RAcc (R : α → β → Prop) (s : Acc α) (t : Acc β) : Prop where
  h11 : RV4 R s.acc_11 t.acc_11
  h21 : RV4 R s.acc_21 t.acc_21
  h31 : RV4 R s.acc_31 t.acc_31
  h41 : RV4 R s.acc_41 t.acc_41
  h51 : RV4 R s.acc_51 t.acc_51
  h12 : RV4 R s.acc_12 t.acc_12
  h22 : RV4 R s.acc_22 t.acc_22
  h32 : RV4 R s.acc_32 t.acc_32
  h42 : RV4 R s.acc_42 t.acc_42
  h52 : RV4 R s.acc_52 t.acc_52

omit [Arith α] [Arith β] in
theorem RV4.splat {x : α} {y : β} (h : R x y) : RV4 R (V4.splat x) (V4.splat y) := ⟨h, h, h, h⟩

theorem RV4.mac (hR : Respects R) {s a b : V4 α} {s' a' b' : V4 β} (h : RV4 R s s') (ha : RV4 R a a')
    (hb : RV4 R b b') : RV4 R (s.mac a b) (s'.mac a' b') :=
  ⟨hR.mac h.1 ha.1 hb.1, hR.mac h.2.1 ha.2.1 hb.2.1, hR.mac h.2.2.1 ha.2.2.1 hb.2.2.1,
    hR.mac h.2.2.2 ha.2.2.2 hb.2.2.2⟩

theorem init_param (hR : Respects R) : RAcc R Acc.init Acc.init := by
  have h := RV4.splat (R := R) hR.zero
  exact ⟨h, h, h, h, h, h, h, h, h, h⟩

omit [Arith α] [Arith β] in
theorem loadAligned_param (hA : RArr R A A') (i : Nat) :
    RM (RV4 R) (loadAligned A i) (loadAligned A' i) := by
  unfold loadAligned
  split
  · exact .error _
  exact (hA.rd _).bind fun _ _ h0 => (hA.rd _).bind fun _ _ h1 => (hA.rd _).bind fun _ _ h2 =>
    (hA.rd _).bind fun _ _ h3 => .ok ⟨h0, h1, h2, h3⟩

theorem addV_param (hR : Respects R) (n i : Nat) {s : V4 α} {t : V4 β} (h : RV4 R s t) :
    RAct R RAct.U (addV n i s) (addV n i t) :=
  (RAct.read _ _).bind fun _ _ h0 => (RAct.read _ _).bind fun _ _ h1 =>
  (RAct.read _ _).bind fun _ _ h2 => (RAct.read _ _).bind fun _ _ h3 =>
  (RAct.write _ _ (hR.add h0 h.1)).bind fun _ _ _ =>
  (RAct.write _ _ (hR.add h1 h.2.1)).bind fun _ _ _ =>
  (RAct.write _ _ (hR.add h2 h.2.2.1)).bind fun _ _ _ => RAct.write _ _ (hR.add h3 h.2.2.2)

theorem inner_param (hR : Respects R) (hA : RArr R A A') (hB : RArr R B B') (b : Blocking)
    (p q x y : Nat) : RM (RAcc R) (inner b A B p q x y) (inner b A' B' p q x y) :=
  RM.forStep (init_param hR) fun _ _ _ h =>
    (loadAligned_param hB _).bind fun _ _ b1 => (loadAligned_param hB _).bind fun _ _ b2 =>
    (hA.rd _).bind fun _ _ a1 => (hA.rd _).bind fun _ _ a2 => (hA.rd _).bind fun _ _ a3 =>
    (hA.rd _).bind fun _ _ a4 => (hA.rd _).bind fun _ _ a5 =>
    .ok ⟨h.h11.mac hR (.splat a1) b1, h.h21.mac hR (.splat a2) b1, h.h31.mac hR (.splat a3) b1,
      h.h41.mac hR (.splat a4) b1, h.h51.mac hR (.splat a5) b1, h.h12.mac hR (.splat a1) b2,
      h.h22.mac hR (.splat a2) b2, h.h32.mac hR (.splat a3) b2, h.h42.mac hR (.splat a4) b2,
      h.h52.mac hR (.splat a5) b2⟩

theorem block_param (hR : Respects R) (hA : RArr R A A') (hB : RArr R B B') (b : Blocking)
    (X Y x y k : Nat) : RAct R RAct.U (block b X Y A B x y k) (block b X Y A' B' x y k) :=
  RAct.forStep trivial fun _ _ _ _ => RAct.forStep trivial fun _ _ _ _ =>
    (RAct.ofM (inner_param hR hA hB _ _ _ _ _)).bind fun _ _ h =>
    (addV_param hR _ _ h.h11).bind fun _ _ _ => (addV_param hR _ _ h.h21).bind fun _ _ _ =>
    (addV_param hR _ _ h.h31).bind fun _ _ _ => (addV_param hR _ _ h.h41).bind fun _ _ _ =>
    (addV_param hR _ _ h.h51).bind fun _ _ _ => (addV_param hR _ _ h.h12).bind fun _ _ _ =>
    (addV_param hR _ _ h.h22).bind fun _ _ _ => (addV_param hR _ _ h.h32).bind fun _ _ _ =>
    (addV_param hR _ _ h.h42).bind fun _ _ _ => addV_param hR _ _ h.h52

theorem extract_param (hR : Respects R) (hA : RArr R A A') (b : Blocking) (N X Y : Nat) :
    RM (RArr R) (extract b N X Y A) (extract b N X Y A') := by
  refine RM.forStep (RArr.zeros hR _) fun _ _ _ h => RM.forStep h fun _ _ _ h =>
    RM.forStep h fun _ _ _ h => RM.forStep h fun _ _ _ h => ?_
  split
  · exact RArr.copyAt (hA.rdAt _) h _
  · exact .ok h

structure RPadded (R : α → β → Prop) (p : Padded α) (q : Padded β) : Prop where
  X : p.X_size = q.X_size
  Y : p.Y_size = q.Y_size
  K : p.K_size = q.K_size
  A : RArr R p.A q.A
  B : RArr R p.B q.B

theorem setup_param (hR : Respects R) (hA : RArr R A A') (hB : RArr R B B') (b : Blocking) (N : Nat) :
    RM (RPadded R) (setup b N A B) (setup b N A' B') := by
  unfold setup
  refine RM.bind (RM.self _) fun _ _ _ => ?_
  refine RM.bind (S := RArr R) (RM.forStep (RArr.zeros hR _) fun _ _ _ h =>
    RM.forStep h fun _ _ _ h => RArr.copyAt (hA.rdAt _) h _) fun _ _ ha => ?_
  refine RM.bind (S := RArr R) (RM.forStep (RArr.zeros hR _) fun _ _ _ h =>
    RM.forStep h fun _ _ _ h => RArr.copyAt (hB.rdAt _) h _) fun _ _ hb => ?_
  exact .ok ⟨rfl, rfl, rfl, ha, hb⟩

theorem tileA_param (hR : Respects R) (b : Blocking) {p : Padded α} {q : Padded β}
    (h : RPadded R p q) : RM (RArr R) (tileA b p) (tileA b q) := by
  unfold tileA
  rw [h.X, h.K]
  exact RM.forStep (RArr.zeros hR _) fun _ _ _ g => RM.forStep g fun _ _ _ g =>
    RM.forStep g fun _ _ _ g => RM.forStep g fun _ _ _ g => RArr.copy (h.A.rd _) g _

theorem tileB_param (hR : Respects R) (b : Blocking) {p : Padded α} {q : Padded β}
    (h : RPadded R p q) : RM (RArr R) (tileB b p) (tileB b q) := by
  unfold tileB
  rw [h.Y, h.K]
  exact RM.forStep (RArr.zeros hR _) fun _ _ _ g => RM.forStep g fun _ _ _ g =>
    RM.forStep g fun _ _ _ g => RM.forStep g fun _ _ _ g => RArr.copy (h.B.rd _) g _

end Tiled

namespace Combined
open Tiled

theorem untiled_param (hR : Respects R) {p : Padded α} {q : Padded β}
    (h : RPadded R p q) : RM (RArr R) (A_trans_untiled p) (A_trans_untiled q) := by
  unfold A_trans_untiled
  rw [h.X, h.K]
  exact RM.forStep (RArr.zeros hR _) fun _ _ _ g => RM.forStep g fun _ _ _ g =>
    RArr.copy (h.A.rd _) g _

omit [Arith α] [Arith β] in
theorem clearFirst_param : RAct R RAct.U clearFirst clearFirst := by
  refine .rdFlag 0 fun first => ?_
  split
  · exact .wrFlag _ _ (.ret trivial)
  · exact .ret trivial

theorem tree_param (hR : Respects R) (hA : RArr R A A') (hB : RArr R B B') (b : Blocking)
    (pol : Policy) (X Y K : Nat) : RTree R (tree b pol X Y K A B) (tree b pol X Y K A' B') :=
  RTree.calls (fun _ => (block_param hR hA hB _ _ _ _ _ _).bind fun _ _ _ => clearFirst_param) _

theorem param (hR : Respects R) (hA : RArr R A A') (hB : RArr R B B') (b : Blocking) (N reps : Nat) :
    RND (RArr R) (matrix_multiply b N A B reps) (matrix_multiply b N A' B' reps) := by
  unfold matrix_multiply
  refine (RND.ofM (setup_param hR hA hB _ _)).bind fun p q hp => ?_
  refine (RND.ofM (untiled_param hR hp)).bind fun _ _ _ => ?_
  refine (RND.ofM (tileA_param hR _ hp)).bind fun _ _ hA => ?_
  refine (RND.ofM (tileB_param hR _ hp)).bind fun _ _ hB => ?_
  rw [hp.X, hp.Y, hp.K]
  refine (RND.foldlM (fun _ _ _ hC => ?_) _ _ _ (RArr.zeros hR _)).bind fun _ _ hC =>
    RND.ofM (extract_param hR hC _ _ _ _)
  refine (RND.ofM (RM.self _)).bind ?_
  rintro pol _ rfl
  exact RND.runOn hR hC (tree_param hR hA hB _ _ _ _ _)

end Combined

namespace KernelTiled
open Tiled

theorem tree_param (hR : Respects R) (hA : RArr R A A') (hB : RArr R B B') (b : Blocking)
    (X Y K : Nat) : RTree R (tree b X Y K A B) (tree b X Y K A' B') :=
  RTree.map_par _ fun _ => .act <| RAct.forStep trivial fun _ _ _ _ =>
    RAct.forStep trivial fun _ _ _ _ => RAct.forStep trivial fun _ _ _ _ =>
    RAct.forStep trivial fun _ _ _ _ => RAct.forStep trivial fun _ _ _ _ =>
    RAct.forStep trivial fun _ _ _ _ => RAct.forStep trivial fun _ _ _ _ =>
    block_param hR hA hB _ _ _ _ _ _

theorem param (hR : Respects R) (hA : RArr R A A') (hB : RArr R B B') (b : Blocking) (N : Nat)
    (t : Bool) (reps : Nat) :
    RND (RArr R) (matrix_multiply b N A B t reps) (matrix_multiply b N A' B' t reps) := by
  unfold matrix_multiply
  refine (RND.ofM (setup_param hR hA hB _ _)).bind fun p q hp => ?_
  refine (RND.ofM (tileA_param hR _ hp)).bind fun _ _ hA => ?_
  refine (RND.ofM (tileB_param hR _ hp)).bind fun _ _ hB => ?_
  rw [hp.X, hp.Y, hp.K]
  refine (RND.foldlM (fun _ _ _ hC => ?_) _ _ _ (RArr.zeros hR _)).bind fun _ _ hC =>
    RND.ofM (extract_param hR hC _ _ _ _)
  rw [hC.1]
  exact RND.runOn hR (RArr.zeros hR _) (tree_param hR hA hB _ _ _ _)

end KernelTiled

namespace KernelTest
open Tiled

theorem padA_param (hR : Respects R) (hA : RArr R A A') (N : Nat) :
    RM (RArr R) (padA N A) (padA N A') :=
  RM.forStep (RArr.zeros hR _) fun _ _ _ h => RM.forStep h fun _ _ _ h => RArr.copy (hA.rd _) h _

theorem transA_param (hR : Respects R) (hA : RArr R A A') (N : Nat) :
    RM (RArr R) (transA N A) (transA N A') :=
  RM.forStep (RArr.zeros hR _) fun _ _ _ h => RM.forStep h fun _ _ _ h => RArr.copy (hA.rd _) h _

theorem padB_param (hR : Respects R) (hA : RArr R A A') (N : Nat) :
    RM (RArr R) (padB N A) (padB N A') :=
  RM.forStep (RArr.zeros hR _) fun _ _ _ h => RM.forStep h fun _ _ _ h => RArr.copy (hA.rd _) h _

theorem extract_param (hR : Respects R) (hA : RArr R A A') (N : Nat) :
    RM (RArr R) (extract N A) (extract N A') :=
  RM.forStep (RArr.zeros hR _) fun _ _ _ h => RM.forStep h fun _ _ _ h => RArr.copy (hA.rd _) h _

theorem step_param (hR : Respects R) (hA : RArr R A A') (hB : RArr R B B') (N x y k : Nat)
    {s : Acc α × V4 α × V4 α} {t : Acc β × V4 β × V4 β}
    (h : RAcc R s.1 t.1 ∧ RV4 R s.2.1 t.2.1 ∧ RV4 R s.2.2 t.2.2) :
    RM (fun s t => RAcc R s.1 t.1 ∧ RV4 R s.2.1 t.2.1 ∧ RV4 R s.2.2 t.2.2)
      (step N A B x y k s) (step N A' B' x y k t) := by
  obtain ⟨h, b1, b2⟩ := h
  exact (hA.rd _).bind fun _ _ a1 => (hA.rd _).bind fun _ _ a2 => (hA.rd _).bind fun _ _ a3 =>
    (hA.rd _).bind fun _ _ a4 => (hA.rd _).bind fun _ _ a5 =>
    (loadAligned_param hB _).bind fun _ _ c1 => (loadAligned_param hB _).bind fun _ _ c2 =>
    .ok ⟨⟨h.h11.mac hR (.splat a1) b1, h.h21.mac hR (.splat a2) b1, h.h31.mac hR (.splat a3) b1,
      h.h41.mac hR (.splat a4) b1, h.h51.mac hR (.splat a5) b1, h.h12.mac hR (.splat a1) b2,
      h.h22.mac hR (.splat a2) b2, h.h32.mac hR (.splat a3) b2, h.h42.mac hR (.splat a4) b2,
      h.h52.mac hR (.splat a5) b2⟩, c1, c2⟩

theorem inner_param (hR : Respects R) (hA : RArr R A A') (hB : RArr R B B') (N k x y : Nat) :
    RM (RAcc R) (inner N A B k x y) (inner N A' B' k x y) :=
  (loadAligned_param hB _).bind fun _ _ b1 => (loadAligned_param hB _).bind fun _ _ b2 =>
    RM.bind (S := fun s t => RAcc R s.1 t.1 ∧ RV4 R s.2.1 t.2.1 ∧ RV4 R s.2.2 t.2.2)
      (RM.forStep ⟨init_param hR, b1, b2⟩ fun _ _ _ h => step_param hR hA hB _ _ _ _ h)
      fun _ _ h => .ok h.1

theorem addIf_param (hR : Respects R) (c : Prop) [Decidable c] (n i : Nat) {s : V4 α} {t : V4 β}
    (h : RV4 R s t) : RAct R RAct.U (addIf c n i s) (addIf c n i t) := by
  unfold addIf
  split
  · exact addV_param hR _ _ h
  · exact .ret trivial

theorem store_param (hR : Respects R) (N l x y : Nat) {s : Acc α} {t : Acc β} (h : RAcc R s t) :
    RAct R RAct.U (store N l x y s) (store N l x y t) :=
  (addV_param hR _ _ h.h11).bind fun _ _ _ => (addIf_param hR _ _ _ h.h21).bind fun _ _ _ =>
  (addIf_param hR _ _ _ h.h31).bind fun _ _ _ => (addIf_param hR _ _ _ h.h41).bind fun _ _ _ =>
  (addIf_param hR _ _ _ h.h51).bind fun _ _ _ => (addV_param hR _ _ h.h12).bind fun _ _ _ =>
  (addIf_param hR _ _ _ h.h22).bind fun _ _ _ => (addIf_param hR _ _ _ h.h32).bind fun _ _ _ =>
  (addIf_param hR _ _ _ h.h42).bind fun _ _ _ => addIf_param hR _ _ _ h.h52

theorem tree_param (hR : Respects R) (hA : RArr R A A') (hB : RArr R B B') (N : Nat) :
    RTree R (tree N A B) (tree N A' B') :=
  RTree.map_par _ fun _ => .act <| RAct.forStep trivial fun _ _ _ _ =>
    RAct.forStep trivial fun _ _ _ _ => RAct.forStep trivial fun _ _ _ _ =>
    RAct.forStep trivial fun _ _ _ _ => RAct.forStep trivial fun _ _ _ _ =>
    RAct.forStep trivial fun _ _ _ _ => RAct.forStep trivial fun _ _ _ _ =>
    RAct.forStep trivial fun _ _ _ _ => RAct.forStep trivial fun _ _ _ _ =>
    (RAct.ofM (inner_param hR hA hB _ _ _ _)).bind fun _ _ h => store_param hR _ _ _ _ h

theorem param (hR : Respects R) (hA : RArr R A A') (hB : RArr R B B') (N : Nat)
    (t : Bool) (reps : Nat) :
    RND (RArr R) (matrix_multiply N A B t reps) (matrix_multiply N A' B' t reps) := by
  unfold matrix_multiply
  refine (RND.ofM (padA_param hR hA N)).bind fun _ _ _ => ?_
  refine (RND.ofM (transA_param hR hA N)).bind fun _ _ hA => ?_
  refine (RND.ofM (padB_param hR hB N)).bind fun _ _ hB => ?_
  refine (RND.foldlM (fun _ _ _ hC => ?_) _ _ _ (RArr.zeros hR _)).bind fun _ _ hC =>
    RND.ofM (extract_param hR hC N)
  rw [hC.1]
  exact RND.runOn hR (RArr.zeros hR _) (tree_param hR hA hB _)

end KernelTest

end Verif
