import Verif.Model.Kernels64
import Verif.Proof.Size64
import Verif.Proof.Schedule
set_option linter.unusedSectionVars false
/-
Block kernels, recursion and distribution modulo 2^64: no difference while all sizes are below 2^31.
-/
namespace Verif.Size64
variable {α : Type} [Arith α]

/-! ### loops -/

section
variable {σ : Type} {m : Type → Type} [Monad m] [MonadExceptOf Err m]

theorem forGo64_eq {lo hi st : Nat} (hst : 0 < st) (h : hi + st ≤ 2 ^ 64) {f g : Nat → σ → m σ}
    (hb : ∀ i, lo ≤ i → i < hi → ∀ s, f i s = g i s) : ∀ fuel fuel' cur (s : σ), lo ≤ cur →
    hi - cur ≤ fuel → hi - cur ≤ fuel' → forGo64 hi st f fuel cur s = forGo hi st g fuel' cur s := by
  intro fuel
  induction fuel with
  | zero =>
    intro fuel' cur s _ h1 _
    have hc : ¬ cur < hi := by omega
    cases fuel' <;> simp [forGo64, forGo, hc]
  | succ fuel ih =>
    intro fuel' cur s h0 h1 h2
    by_cases hc : cur < hi
    · obtain ⟨fuel', rfl⟩ : ∃ n, fuel' = n + 1 := ⟨fuel' - 1, by omega⟩
      simp only [forGo64, forGo, hc, if_true]
      rw [hb cur h0 hc]
      congr
      funext s'
      rw [u64_eq (by omega)]
      exact ih _ _ _ (by omega) (by omega) (by omega)
    · cases fuel' <;> simp [forGo64, forGo, hc]

/-- A loop whose last step does not wrap. -/
theorem for64_eq {lo hi st : Nat} (hst : 0 < st) (h : hi + st ≤ 2 ^ 64) {f g : Nat → σ → m σ}
    (hb : ∀ i, lo ≤ i → i < hi → ∀ s, f i s = g i s) (s : σ) :
    for64 lo hi st s f = forStep lo hi st s g :=
  forGo64_eq hst h hb _ _ _ _ (Nat.le_refl _) (by omega) (Nat.le_refl _)
end

/-- A loop with step 0 whose body always succeeds. -/
theorem forGo64_diverge {σ : Type} {P : σ → Prop} {hi cur : Nat} {f : Nat → σ → M σ} (hc : cur < hi)
    (h : cur < 2 ^ 64) (hb : ∀ s, P s → ∃ s', f cur s = .ok s' ∧ P s') : ∀ fuel s, P s →
    forGo64 hi 0 f fuel cur s = .error .diverge := by
  intro fuel
  induction fuel with
  | zero => intro s _; simp only [forGo64, hc, if_true]; rfl
  | succ fuel ih =>
    intro s hs
    obtain ⟨s', e, hs'⟩ := hb s hs
    simp only [forGo64, hc, if_true]
    rw [e, Nat.add_zero, u64_eq h]
    exact ih s' hs'

/-! ### bounds -/

theorem mul_lt62 {a b : Nat} (ha : a < 2 ^ 31) (hb : b < 2 ^ 31) : a * b < 2 ^ 62 :=
  Nat.lt_of_lt_of_le (Nat.mul_lt_mul'' ha hb) (by decide)

theorem mul_lt63 {a b : Nat} (ha : a < 2 ^ 32) (hb : b < 2 ^ 31) : a * b < 2 ^ 63 :=
  Nat.lt_of_lt_of_le (Nat.mul_lt_mul'' ha hb) (by decide)

theorem mul_lt64 {a b : Nat} (ha : a ≤ 3 * 2 ^ 31) (hb : b < 2 ^ 31) : a * b ≤ 3 * 2 ^ 62 :=
  Nat.le_trans (Nat.mul_le_mul ha (Nat.le_of_lt hb)) (by decide)

theorem idx_lt64 {a b c : Nat} (ha : a ≤ 3 * 2 ^ 31) (hb : b < 2 ^ 31) (hc : c < 2 ^ 62) :
    a * b + c < 2 ^ 64 := by
  have := mul_lt64 ha hb
  omega

theorem u64_idx {a b c : Nat} (ha : a ≤ 3 * 2 ^ 31) (hb : b < 2 ^ 31) (hc : c < 2 ^ 62) :
    u64 (a * b + c) = a * b + c := u64_eq (idx_lt64 ha hb hc)

theorem u64_idx2 {a b c d : Nat} (ha : a ≤ 3 * 2 ^ 31) (hb : b < 2 ^ 31) (hc : c + d < 2 ^ 62) :
    u64 (a * b + c + d) = a * b + c + d := by
  rw [Nat.add_assoc]; exact u64_idx ha hb hc

theorem u64_mul {a b : Nat} (ha : a ≤ 3 * 2 ^ 31) (hb : b < 2 ^ 31) : u64 (a * b) = a * b :=
  u64_eq (by have := mul_lt64 ha hb; omega)

/-! ### kernel.hpp, multiplier.cpp -/

namespace Kernel
open Verif.Kernel (Acc8 macAt Multiplier)

theorem component_eq {N x y i j : Nat} (hN : N < 2 ^ 31) (hx : x + i < 2 ^ 32) (hy : y + j < 2 ^ 32)
    (A B : Array α) : component A B N x y i j = Verif.Kernel.component A B N x y i j := by
  refine forStep_congr (fun k hk s => ?_) _
  rw [u64_idx (by omega) hN (by omega), u64_idx (by omega) hN (by omega)]

theorem kernel_eq {N x y bs : Nat} (hN : N < 2 ^ 31) (hb : bs < 2 ^ 31) (hx : x < 2 ^ 31)
    (hy : y < 2 ^ 31) (A B : Array α) (nC : Nat) :
    kernel A B nC N x y bs = Verif.Kernel.kernel A B nC N x y bs := by
  unfold kernel Verif.Kernel.kernel
  congr 1
  refine forStep_congr (fun i hi s => forStep_congr (fun j hj s => ?_) _) _
  rw [component_eq hN (by omega) (by omega), u64_idx (by omega) hb (by omega)]

theorem componentT_eq {N x y i j : Nat} (hN : N < 2 ^ 31) (hx : x + i < 2 ^ 32) (hy : y + j < 2 ^ 32)
    (A B : Array α) : componentT A B N x y i j = Verif.Kernel.componentT A B N x y i j := by
  refine forStep_congr (fun k hk s => ?_) _
  rw [u64_idx (by omega) hN (by omega), u64_idx (by omega) hN (by omega)]

theorem kernel_transposed_eq {N x y bs : Nat} (hN : N < 2 ^ 31) (hb : bs < 2 ^ 31) (hx : x < 2 ^ 31)
    (hy : y < 2 ^ 31) (A B : Array α) (nC : Nat) :
    kernel_transposed A B nC N x y bs = Verif.Kernel.kernel_transposed A B nC N x y bs := by
  refine forStep_congr (fun i hi s => forStep_congr (fun j hj s => ?_) _) _
  rw [componentT_eq hN (by omega) (by omega), u64_idx (by omega) hb (by omega)]

theorem loadSmall_eq {N x kb br bi : Nat} (hN : N < 2 ^ 31) (hb : br < 2 ^ 31) (hi : bi < 2 ^ 31)
    (hx : x < 2 ^ 31) (hk : kb < 2 ^ 31) (src small : Array α) :
    loadSmall src N x kb br bi small = Verif.Kernel.loadSmall src N x kb br bi small := by
  refine forStep_congr (fun i hi s => forStep_congr (fun j hj s => ?_) _) _
  rw [u64_idx2 (by omega) hN (by omega), u64_idx (by omega) (by omega) (by omega)]

theorem inner8_eq {bi i j : Nat} (hb : bi < 2 ^ 31) (hi : i < 2 ^ 31) (hj : j < 2 ^ 31)
    (As Bs : Array α) : inner8 As Bs bi i j = Verif.Kernel.inner8 As Bs bi i j := by
  refine forStep_congr (fun k hk s => ?_) _
  have h : ∀ d, d < 4 → ∀ x, x < 2 ^ 31 → u64 ((x + d) * bi + k) = (x + d) * bi + k := fun d hd x hx =>
    u64_idx (by omega) hb (by omega)
  simp only [h 0 (by decide) _ hi, h 1 (by decide) _ hi, h 2 (by decide) _ hi, h 3 (by decide) _ hi,
    h 0 (by decide) _ hj, h 1 (by decide) _ hj]

theorem store8_eq {br i j : Nat} (hb : br < 2 ^ 31) (hi : i < 2 ^ 31) (hj : j < 2 ^ 31) (nC : Nat)
    (s : Acc8 α) : store8 nC br i j s = Verif.Kernel.store8 nC br i j s := by
  have h : ∀ d, d < 4 → ∀ d', d' < 4 → u64 ((i + d) * br + (j + d')) = (i + d) * br + (j + d') :=
    fun d hd d' hd' => u64_idx (by omega) hb (by omega)
  unfold store8 Verif.Kernel.store8
  simp only [h 0 (by decide) 0 (by decide), h 0 (by decide) 1 (by decide), h 1 (by decide) 0 (by decide),
    h 1 (by decide) 1 (by decide), h 2 (by decide) 0 (by decide), h 2 (by decide) 1 (by decide),
    h 3 (by decide) 0 (by decide), h 3 (by decide) 1 (by decide)]

theorem multSmall_eq {br bi : Nat} (hb : br < 2 ^ 31) (hi : bi < 2 ^ 31) (As Bs : Array α) (nC : Nat) :
    multSmall As Bs nC br bi = Verif.Kernel.multSmall As Bs nC br bi := by
  refine for64_eq (by decide) (by omega) (fun i _ hi' s => for64_eq (by decide) (by omega)
    (fun j _ hj s => ?_) _) _
  rw [inner8_eq hi (by omega) (by omega)]
  congr
  funext s
  exact store8_eq hb (by omega) (by omega) nC s

theorem blocked_eq {N x y br bi : Nat} (hN : N < 2 ^ 31) (hb : br < 2 ^ 31) (hi : bi < 2 ^ 31)
    (h0 : 0 < bi) (hx : x < 2 ^ 31) (hy : y < 2 ^ 31) (A B : Array α) (nC : Nat) :
    kernel_transposed_blocked A B nC N x y br bi =
      Verif.Kernel.kernel_transposed_blocked A B nC N x y br bi := by
  unfold kernel_transposed_blocked Verif.Kernel.kernel_transposed_blocked
  rw [u64_mul (by omega) hb]
  congr 1
  refine for64_eq h0 (by omega) (fun k _ hk s => ?_) _
  simp only [loadSmall_eq hN hb hi hx (Nat.lt_trans hk hN), loadSmall_eq hN hb hi hy (Nat.lt_trans hk hN),
    multSmall_eq hb hi]

theorem calculate_submatrix_eq {s : Multiplier α} (hN : s.N < 2 ^ 31) (hi : s.block_input < 2 ^ 31)
    {x y br : Nat} (hx : x < 2 ^ 31) (hy : y < 2 ^ 31) (hb : br < 2 ^ 31) :
    calculate_submatrix s x y br = Verif.Kernel.calculate_submatrix s x y br := by
  unfold calculate_submatrix Verif.Kernel.calculate_submatrix
  simp only [u64_mul (Nat.le_of_lt (Nat.lt_trans hb (by decide : 2 ^ 31 < 3 * 2 ^ 31))) hb,
    kernel_eq hN hb hx hy, kernel_transposed_eq hN hb hx hy]
  split
  · rfl
  split
  · rfl
  · rw [blocked_eq hN hb hi (by omega) hx hy]

end Kernel

/-! ### recursive.cpp -/

namespace Recursive
open Verif.Kernel (Multiplier)

theorem extract_eq {x y n : Nat} (hx : x ≤ n) (hy : y ≤ n) (hn : n < 2 ^ 30) (nC : Nat) (C : Array α) :
    extract_submatrix nC C x y n = Verif.Recursive.extract_submatrix nC C x y n := by
  unfold extract_submatrix Verif.Recursive.extract_submatrix
  dsimp only
  rw [u64_eq (by omega : 2 * n < 2 ^ 64)]
  refine congrArg Act.catchOutOfRange ?_
  refine forStep_congr (fun i hi s => forStep_congr (fun j hj s => ?_) _) _
  rw [u64_idx (by omega) (by omega) (by omega), u64_idx (by omega) (by omega) (by omega)]

theorem distribute_eq {N br : Nat} {mult mult' : Nat → Nat → Nat → M (Array α)} (hN : N < 2 ^ 31)
    (hm : ∀ x y n, x + n ≤ N → y + n ≤ N → mult x y n = mult' x y n) : ∀ n x y, x + n ≤ N → y + n ≤ N →
    distribute_recursively mult br x y n = Verif.Recursive.distribute_recursively mult' br x y n := by
  intro n
  induction n using Nat.strongRecOn with
  | ind n ih =>
    intro x y hx hy
    rw [distribute_recursively, Verif.Recursive.distribute_recursively]
    split
    · rw [hm x y n hx hy]
    · have e : ∀ a, a ≤ N → u64 a = a := fun a ha => u64_eq (by omega)
      dsimp only
      rw [e (x + 0) (by omega), e (y + 0) (by omega), e (x + (0 + n / 2)) (by omega),
        e (y + (0 + n / 2)) (by omega), ih (n / 2) (by omega) _ _ (by omega) (by omega),
        ih (n / 2) (by omega) _ _ (by omega) (by omega), ih (n / 2) (by omega) _ _ (by omega) (by omega),
        ih (n / 2) (by omega) _ _ (by omega) (by omega), u64_mul (by omega) (by omega)]
      simp only [extract_eq (Nat.zero_le _) (Nat.zero_le _) (by omega : n / 2 < 2 ^ 30),
        extract_eq (by omega : 0 + n / 2 ≤ n / 2) (Nat.zero_le _) (by omega : n / 2 < 2 ^ 30),
        extract_eq (Nat.zero_le _) (by omega : 0 + n / 2 ≤ n / 2) (by omega : n / 2 < 2 ^ 30),
        extract_eq (by omega : 0 + n / 2 ≤ n / 2) (by omega : 0 + n / 2 ≤ n / 2) (by omega : n / 2 < 2 ^ 30)]

theorem mult_eq {s : Multiplier α} (hN : s.N < 2 ^ 31) (hi : s.block_input < 2 ^ 31) (x y n : Nat)
    (hx : x + n ≤ s.N) (hy : y + n ≤ s.N) :
    Kernel.calculate_submatrix s x y n = Verif.Kernel.calculate_submatrix s x y n :=
  Kernel.calculate_submatrix_eq hN hi (by omega) (by omega) (by omega)

theorem single_eq {N bi : Nat} (hN : N < 2 ^ 31) (hi : bi < 2 ^ 31) (A B : Array α) (t : Bool)
    (br reps : Nat) : single_matrix_multiply N A B t br bi reps =
      Verif.Recursive.single_matrix_multiply N A B t br bi reps := by
  unfold single_matrix_multiply Verif.Recursive.single_matrix_multiply
  rw [u64_mul (by omega) hN]
  refine forStep_congr (fun i _ s => ?_) _
  exact distribute_eq hN (mult_eq (s := ⟨N, A, B, t, bi⟩) hN hi) N 0 0 (by omega) (by omega)

end Recursive

/-! ### static_improved.cpp -/

namespace StaticImproved
open Verif.StaticImproved (Work Params Sched Extremes toInt64 fulfills_constraints extremes Inv ExtOk
  extremes_ok Split getD_le_sum)

theorem work_difference_eq {N hi lo : Nat} (hN : N < 2 ^ 31) (hl : lo ≤ N * N) {w : Work} (hw : w.N ≤ N) :
    work_difference hi lo w = Verif.StaticImproved.work_difference hi lo w := by
  have h1 : w.N * w.N ≤ N * N := Nat.mul_le_mul hw hw
  have h2 := mul_lt62 hN hN
  unfold work_difference Verif.StaticImproved.work_difference
  dsimp only
  rw [u64_eq (by omega : w.N * w.N < 2 ^ 64), u64_eq (by omega)]

theorem balance_index_eq {N hi lo : Nat} (hN : N < 2 ^ 31) (hl : lo ≤ N * N) (p : Params) {ws : List Work}
    (hw : ∀ w ∈ ws, w.N ≤ N) : balance_index p hi lo ws = Verif.StaticImproved.balance_index p hi lo ws := by
  unfold balance_index Verif.StaticImproved.balance_index
  have h : ∀ j, (ws.getD j ⟨0, 0, 0⟩).N ≤ N := fun j => by
    rw [List.getD_eq_getElem?_getD]
    cases hj : ws[j]? with
    | none => exact Nat.zero_le _
    | some w => exact hw w (List.mem_of_getElem? hj)
  simp only [work_difference_eq hN hl (h _)]

theorem find_work_eq {N L : Nat} (hN : N < 2 ^ 31) (hL : 0 < L) {p : Params} {s : Sched} (hI : Inv p N L s) :
    find_work p s (extremes L s.total_work) =
      Verif.StaticImproved.find_work p s (extremes L s.total_work) := by
  have he := extremes_ok s.total_work L hL
  have hl : (extremes L s.total_work).min_work ≤ N * N := by
    rw [← he.min_eq, ← hI.total]
    exact getD_le_sum _ _
  unfold find_work Verif.StaticImproved.find_work
  have hw : ∀ i, ∀ w ∈ s.work i, w.N ≤ N := fun i w hw => by
    rcases Nat.lt_or_ge i s.all_work.length with h | h
    · have := (hI.inside w (Verif.StaticImproved.mem_flatten_of_work h hw)).1
      omega
    · rw [Sched.work, List.getD_eq_getElem?_getD, List.getElem?_eq_none h] at hw
      cases hw
  simp only [balance_index_eq hN hl p (hw _)]

theorem split_work_eq {N L : Nat} (hN : N < 2 ^ 31) {p : Params} {s : Sched} (hI : Inv p N L s)
    {mi mn j : Nat} {w : Work} (h : Split p L s mi mn j w) :
    split_work s mi mn j = Verif.StaticImproved.split_work s mi mn j := by
  have hin := hI.inside w (Verif.StaticImproved.mem_flatten_of_work (by rw [hI.len1]; exact h.mi_lt) h.mem)
  have e : ∀ a, a ≤ N → u64 a = a := fun a ha => u64_eq (by omega)
  have hsq := mul_lt62 hN hN
  have h2 : w.N * w.N ≤ N * N := Nat.mul_le_mul (by omega) (by omega)
  have h3 := Verif.StaticImproved.half_sq w.N
  have h4 : 2 * (w.N / 2) * (w.N / 2) = 2 * (w.N / 2 * (w.N / 2)) := Nat.mul_assoc ..
  have h5 : u64 (2 * (w.N / 2) * (w.N / 2)) = 2 * (w.N / 2) * (w.N / 2) := u64_eq (by omega)
  unfold split_work Verif.StaticImproved.split_work
  simp only [h.get]
  rw [e (w.x + 0) (by omega), e (w.y + 0) (by omega), e (w.x + (0 + w.N / 2)) (by omega),
    e (w.y + (0 + w.N / 2)) (by omega), h5]
  congr 1
  -- the load of `mn` after the change of `mi`
  have hsum := Verif.StaticImproved.sum_modify (l := s.total_work) (i := mi)
    (f := (usub · (2 * (w.N / 2) * (w.N / 2)))) (by rw [hI.len2]; exact h.mi_lt)
  have hm := hI.move_le h
  have hu : usub (s.total_work.getD mi 0) (2 * (w.N / 2) * (w.N / 2)) ≤ s.total_work.getD mi 0 := by
    unfold usub
    unfold Sched.load at hm
    rw [if_pos hm]
    omega
  generalize hl : s.total_work.modify mi (usub · (2 * (w.N / 2) * (w.N / 2))) = l at *
  have hle : l.sum ≤ N * N := by
    rw [← hI.total]
    omega
  have hg := getD_le_sum l mn
  apply List.ext_getElem?
  intro i
  rw [List.getElem?_modify, List.getElem?_modify]
  by_cases hi : mn = i
  · subst hi
    cases hx : l[mn]? with
    | none => rfl
    | some x =>
      rw [List.getD_eq_getElem?_getD, hx, Option.getD_some] at hg
      simp only [if_pos, Option.map_eq_map, Option.map_some]
      rw [u64_eq (by omega)]
  · simp only [if_neg hi]

theorem schedStep_eq {N L : Nat} (hN : N < 2 ^ 31) (hL : 0 < L) {p : Params} {s : Sched} (hI : Inv p N L s) :
    schedStep p L s = Verif.StaticImproved.schedStep p L s := by
  unfold schedStep Verif.StaticImproved.schedStep
  dsimp only
  rw [find_work_eq hN hL hI]
  split
  · rfl
  · cases hw : Verif.StaticImproved.find_work p s (extremes L s.total_work) with
    | none => rfl
    | some q =>
      obtain ⟨mi, j⟩ := q
      exact congrArg some (split_work_eq hN hI (Verif.StaticImproved.find_work_some hL hw))

theorem initSched_eq {N : Nat} (hN : N < 2 ^ 31) (L : Nat) :
    initSched N L = Verif.StaticImproved.initSched N L := by
  unfold initSched Verif.StaticImproved.initSched
  rw [u64_mul (by omega) hN]

theorem schedLoop_eq {N L : Nat} (hN : N < 2 ^ 31) (hL : 0 < L) {p : Params} : ∀ fuel {s : Sched},
    Inv p N L s → schedLoop p L fuel s = Verif.StaticImproved.schedLoop p L fuel s := by
  intro fuel
  induction fuel with
  | zero => exact fun _ => rfl
  | succ fuel ih =>
    intro s hI
    rw [schedLoop, Verif.StaticImproved.schedLoop, schedStep_eq hN hL hI]
    cases h : Verif.StaticImproved.schedStep p L s with
    | none => rfl
    | some s' =>
      obtain ⟨mi, mn, j, w, hsp, rfl⟩ := Verif.StaticImproved.schedStep_some hL h
      exact ih (hI.step hsp)

theorem create_schedule_eq {N : Nat} (hN : N < 2 ^ 31) (L : Nat) (p : Params) :
    create_schedule p N L = Verif.StaticImproved.create_schedule p N L := by
  unfold create_schedule Verif.StaticImproved.create_schedule
    Verif.StaticImproved.create_schedule_state
  split
  · rfl
  · rw [initSched_eq hN, schedLoop_eq hN (by omega) _ (Inv.init p N L (by omega))]

theorem schedLoop_inv {N L : Nat} (hL : 0 < L) {p : Params} : ∀ fuel {s s' : Sched},
    Inv p N L s → Verif.StaticImproved.schedLoop p L fuel s = .ok s' → Inv p N L s' := by
  intro fuel
  induction fuel with
  | zero => exact fun _ h => nomatch h
  | succ fuel ih =>
    intro s s' hI hl
    rw [Verif.StaticImproved.schedLoop] at hl
    cases h : Verif.StaticImproved.schedStep p L s with
    | none => rw [h] at hl; cases hl; exact hI
    | some s1 =>
      rw [h] at hl
      obtain ⟨mi, mn, j, w, hsp, rfl⟩ := Verif.StaticImproved.schedStep_some hL h
      exact ih (hI.step hsp) hl

theorem insert_eq {N : Nat} (hN : N < 2 ^ 31) {w : Work} (hx : w.x + w.N ≤ N) (hy : w.y + w.N ≤ N)
    (sub : Array α) : insert_submatrix N sub w = Verif.StaticImproved.insert_submatrix N sub w := by
  refine forStep_congr (fun i hi s => forStep_congr (fun j hj s => ?_) _) _
  rw [u64_idx (by omega) (by omega) (by omega), u64_idx (by omega) hN (by omega), u64_mul (by omega) hN]

/-- Programs that agree on the possible results of the first one. -/
theorem nd_bind_congr {R S : Type} {x : ND R} {f g : R → ND S} (h : ∀ r, x (.ok r) → f r = g r) :
    ND.bind x f = ND.bind x g := by
  funext o
  refine propext ⟨?_, ?_⟩
  · rintro (h' | ⟨r, h1, h2⟩)
    · exact .inl h'
    · exact .inr ⟨r, h1, h r h1 ▸ h2⟩
  · rintro (h' | ⟨r, h1, h2⟩)
    · exact .inl h'
    · exact .inr ⟨r, h1, (h r h1).symm ▸ h2⟩

theorem computePackages_eq {N br : Nat} {mult mult' : Nat → Nat → Nat → M (Array α)} (hN : N < 2 ^ 31)
    (hm : ∀ x y n, x + n ≤ N → y + n ≤ N → mult x y n = mult' x y n) : ∀ {ws : List Work},
    (∀ w ∈ ws, w.x + w.N ≤ N ∧ w.y + w.N ≤ N) →
    computePackages mult br ws = Verif.StaticImproved.computePackages mult' br ws := by
  intro ws
  induction ws with
  | nil => exact fun _ => rfl
  | cons w ws ih =>
    intro h
    have hw := h w (by simp)
    rw [computePackages, Verif.StaticImproved.computePackages,
      Recursive.distribute_eq hN hm _ _ _ hw.1 hw.2, ih fun w' h' => h w' (by simp [h'])]

theorem computePackages_fst {br : Nat} {mult : Nat → Nat → Nat → M (Array α)} : ∀ {ws : List Work}
    {subs : List (Work × Array α)}, Verif.StaticImproved.computePackages mult br ws (.ok subs) →
    ∀ q ∈ subs, q.1 ∈ ws := by
  intro ws
  induction ws with
  | nil =>
    intro subs h
    cases h
    exact fun q hq => nomatch hq
  | cons w ws ih =>
    intro subs h q hq
    rcases h with ⟨_, _, h⟩ | ⟨sub, _, h⟩
    · cases h
    · rcases h with ⟨_, _, h⟩ | ⟨rest, hr, h⟩
      · cases h
      · cases h
        rcases List.mem_cons.1 hq with rfl | hq
        · simp
        · exact List.mem_cons_of_mem _ (ih hr q hq)

theorem matrix_multiply_eq {N bi : Nat} (hN : N < 2 ^ 31) (hi : bi < 2 ^ 31) (p : Params) (A B : Array α)
    (t : Bool) (br reps L : Nat) : matrix_multiply p N A B t bi br reps L =
      Verif.StaticImproved.matrix_multiply p N A B t bi br reps L := by
  unfold matrix_multiply Verif.StaticImproved.matrix_multiply
  dsimp only
  rw [create_schedule_eq hN, u64_mul (by omega) hN]
  generalize (if 1 < L then L - 1 else L) = cl
  refine nd_bind_congr fun aw haw => ?_
  have hin : ∀ w ∈ aw.flatten, w.x + w.N ≤ N ∧ w.y + w.N ≤ N := by
    have haw : Verif.StaticImproved.create_schedule p N cl = .ok aw := haw.symm
    unfold Verif.StaticImproved.create_schedule Verif.StaticImproved.create_schedule_state at haw
    split at haw
    · cases haw
    · cases hl : Verif.StaticImproved.schedLoop p cl (N ^ 3 + 1) (Verif.StaticImproved.initSched N cl) with
      | error e => rw [hl] at haw; cases haw
      | ok s =>
        rw [hl] at haw
        cases haw
        exact (schedLoop_inv (by omega) _ (Inv.init p N cl (by omega)) hl).inside
  refine forStep_congr (fun i _ C => ?_) _
  rw [computePackages_eq hN (Recursive.mult_eq (s := ⟨N, A, B, t, bi⟩) hN hi) hin]
  refine nd_bind_congr fun subs hs => ?_
  have hf := computePackages_fst hs
  rw [List.map_congr_left fun q hq => congrArg Tree.act
    (insert_eq hN (hin _ (hf q hq)).1 (hin _ (hf q hq)).2 q.2)]

end StaticImproved
end Verif.Size64
