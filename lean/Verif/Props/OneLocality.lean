import Verif.Props.Schedule
import Verif.Props.Domain
import Verif.Proof.Util
/-
C72: with one computing locality the distributed algorithm is the single-node algorithm
(/repo/src/variants/static_improved.cpp, single.cpp).
-/
namespace Verif.Props
open Verif.Kernel Verif.Recursive Verif.StaticImproved
variable {α : Type} [Arith α]

/-- **C72.** One computing locality: the schedule is the whole matrix, whatever the balancing
parameters, except for `N = 1` with `min_work_size = 0`. -/
theorem C72_schedule (p : Params) (N : Nat) (hN : N * N < 2 ^ 63)
    (h1 : N ≠ 1 ∨ 1 ≤ p.min_work_size) : create_schedule p N 1 = .ok [[⟨0, 0, N⟩]] := by
  have hi : initSched N 1 = ⟨[[⟨0, 0, N⟩]], [N * N]⟩ := rfl
  have hstep : schedStep p 1 (initSched N 1) = none := by
    rw [hi]
    unfold schedStep
    split
    · rfl
    · have he : extremes 1 [N * N] = ⟨N * N, [0], N * N, 0⟩ := rfl
      have hb : balance_index p (N * N) (N * N) [⟨0, 0, N⟩] = 1 := by
        unfold balance_index
        simp only [List.length_singleton, List.range_one, List.foldl_cons, List.foldl_nil,
          List.getD_cons_zero]
        by_cases hm : N ≤ p.min_work_size
        · rw [if_pos hm]
        · rw [if_neg hm, if_neg]
          have h2 : 2 ≤ N := by omega
          have h4 : 2 * 2 ≤ N * N := Nat.mul_le_mul h2 h2
          unfold work_difference usub toInt64
          simp only [Nat.le_refl, if_true]
          rw [if_pos (by omega : N * N / 2 ≤ N * N), if_pos (by omega)]
          split <;> omega
      have hf : find_work p ⟨[[⟨0, 0, N⟩]], [N * N]⟩ (extremes 1 [N * N]) = none := by
        rw [he]
        unfold find_work
        simp only [List.findSome?_cons, List.findSome?_nil, Sched.work, List.getD_cons_zero]
        rw [hb]
        rfl
      simp only [hf]
  unfold create_schedule create_schedule_state
  rw [if_neg (by decide), schedLoop, hstep]
  rfl

theorem bind_congr_ok {R S : Type} {x : ND R} {f g : R → ND S}
    (h : ∀ r, x (.ok r) → f r = g r) : x.bind f = x.bind g := by
  funext o
  apply propext
  constructor
  · rintro (h' | ⟨r, hr, ho⟩)
    · exact .inl h'
    · exact .inr ⟨r, hr, h r hr ▸ ho⟩
  · rintro (h' | ⟨r, hr, ho⟩)
    · exact .inl h'
    · exact .inr ⟨r, hr, (h r hr).symm ▸ ho⟩

theorem bind_pure_nd {R : Type} (x : ND R) : x.bind ND.pure = x := by
  funext o
  apply propext
  constructor
  · rintro (⟨e, h, rfl⟩ | ⟨r, h, rfl⟩) <;> exact h
  · intro h
    cases o with
    | error e => exact .inl ⟨e, h, rfl⟩
    | ok r => exact .inr ⟨r, h, rfl⟩

private theorem one_repetition (N : Nat) (D : ND (Array α))
    (hD : ∀ C, D (.ok C) → C.size = N * N) (C : Array α) (hC : C.size = N * N) :
    (D.bind fun sub => ND.runOn C (.par [.act (insert_submatrix N sub ⟨0, 0, N⟩)])) = D := by
  refine Eq.trans (bind_congr_ok (g := ND.pure) fun sub hs => ?_) (bind_pure_nd D)
  have hsub : sub = rect N N fun i j => sub.getD (i * N + j) Arith.zero :=
    eq_rect (hD sub hs) (Util.vec_holds (by rw [hD sub hs]))
  have := insert_all (N := N) (ws := [⟨0, 0, N⟩])
    (G := fun i j => sub.getD (i * N + j) Arith.zero) hC (by simp) (by simp)
    (fun r c hr hc => ⟨_, List.mem_singleton.2 rfl, by simp [Covers, hr, hc]⟩)
  simp only [List.map_cons, List.map_nil, Nat.zero_add] at this
  rw [← hsub] at this
  exact this.trans (congrArg ND.pure hsub.symm)

private theorem repeat_congr {R : Type} {I : R → Prop} {D : ND R} (hD : ∀ r, D (.ok r) → I r)
    {body : Nat → R → ND R} (h : ∀ i s, I s → body i s = D) (n : Nat) (z : R) (hz : I z) :
    forStep (m := ND) 0 n 1 z body = forStep (m := ND) 0 n 1 z fun _ _ => D := by
  rw [forStep_eq (by decide), forStep_eq (by decide)]
  generalize steps 0 n 1 = l
  induction l generalizing z with
  | nil => rfl
  | cons a l ih =>
    rw [List.foldlM_cons, List.foldlM_cons, h a z hz]
    exact bind_congr_ok fun r hr => ih r (hD r hr)

/-- **C72.** On one or two localities (one of them computing) the distributed multiplication has
exactly the outcomes of the single-node multiplication: for all input vectors, block sizes and
repetitions, including the cases with undefined behaviour, and for all balancing parameters (except
`N = 1` with `min_work_size = 0`, see C23). -/
theorem C72_one_locality (p : Params) (N : Nat) (A B : Array α) (transposed : Bool)
    (br bi reps L : Nat) (hL : L = 1 ∨ L = 2) (hN : N * N < 2 ^ 63)
    (h1 : N ≠ 1 ∨ 1 ≤ p.min_work_size) :
    pseudodynamic_matrix_multiply p N A B transposed br bi reps L =
      single_matrix_multiply N A B transposed br bi reps := by
  unfold pseudodynamic_matrix_multiply matrix_multiply single_matrix_multiply
  have hc : (if 1 < L then L - 1 else L) = 1 := by rcases hL with rfl | rfl <;> rfl
  simp only
  rw [hc, C72_schedule p N hN h1, ND.ofM_ok, ND.pure_bind']
  refine repeat_congr (I := fun C => C.size = N * N)
    (fun C h => (C11_distribute_terminates _ br 0 0 N).2 C h) (fun i C hC => ?_) reps _ (by simp)
  refine Eq.trans ?_ (one_repetition N _ (fun C h => (C11_distribute_terminates _ br 0 0 N).2 C h)
    C hC)
  show (computePackages _ br [⟨0, 0, N⟩]).bind _ = _
  have hp : computePackages (calculate_submatrix ⟨N, A, B, transposed, bi⟩) br [⟨0, 0, N⟩] =
      (distribute_recursively (calculate_submatrix ⟨N, A, B, transposed, bi⟩) br 0 0 N).bind
        fun sub => ND.pure [(⟨0, 0, N⟩, sub)] := by
    unfold computePackages
    refine congrArg _ (funext fun sub => ?_)
    unfold computePackages
    exact ND.pure_bind' _ _
  rw [hp]
  funext o
  apply propext
  constructor
  · rintro (⟨e, (⟨e', h, h'⟩ | ⟨r, h, h'⟩), rfl⟩ | ⟨l, (⟨e', h, h'⟩ | ⟨r, h, h'⟩), ho⟩)
    · cases h'; exact .inl ⟨_, h, rfl⟩
    · cases h'
    · cases h'
    · cases h'; exact .inr ⟨r, h, ho⟩
  · rintro (⟨e, h, rfl⟩ | ⟨r, h, ho⟩)
    · exact .inl ⟨e, .inl ⟨e, h, rfl⟩, rfl⟩
    · exact .inr ⟨_, .inr ⟨r, h, rfl⟩, ho⟩

/-- **C72.** So the distributed multiplication on one computing locality is undefined exactly where
C59 says so for the single-node one. -/
theorem C72_ub (p : Params) (N e s : Nat) (A B : Array α) (br bi reps L : Nat)
    (hA : A.size = N * N) (hL : L = 1 ∨ L = 2) (hNb : N * N < 2 ^ 63) (hN : N = 2 ^ e * s)
    (hs : s ≤ br) (he : ∀ d, d < e → br < 2 ^ (d + 1) * s) (hbi : bi ≠ 0) (h4 : 4 ≤ s)
    (hdiv : ¬ (4 ∣ s ∧ bi ∣ N)) (hr : 0 < reps) :
    pseudodynamic_matrix_multiply p N A B true br bi reps L = ND.fail .oob := by
  have : 1 ≤ 2 ^ e := Nat.one_le_two_pow
  have h4N : 4 ≤ N := by rw [hN]; exact Nat.le_trans h4 (Nat.le_mul_of_pos_left s this)
  rw [C72_one_locality p N A B true br bi reps L hL hNb (.inl (by omega))]
  exact C59_single_ub N e s A B br bi reps hA hN hs he hbi h4 hdiv hr

section Examples

/-- default block sizes and default size on two localities -/
example (p : Params) (A B : Array Int) (h : A.size = 16) : let _ := exact Int
    pseudodynamic_matrix_multiply p 4 A B true 128 128 1 2 = ND.fail .oob := by
  intro _
  exact C72_ub p 4 0 4 A B 128 128 1 2 h (.inr rfl) (by decide) rfl (by decide)
    (fun d h => by omega) (by decide) (by decide) (by decide) Nat.one_pos

/-- the parameters of the unit tests: all balancing parameters zero -/
example (A B : Array Int) : let _ := exact Int
    pseudodynamic_matrix_multiply ⟨0, 0, fun _ _ => false⟩ 8 A B true 1 1 1 1 =
      single_matrix_multiply 8 A B true 1 1 1 := by
  intro _
  exact C72_one_locality _ 8 A B true 1 1 1 1 (.inl rfl) (by decide) (.inl (by decide))

end Examples
end Verif.Props
