import Verif.SpecRounding
import Mathlib.Tactic.Linarith
import Mathlib.Tactic.Ring
import Mathlib.Tactic.Positivity
import Mathlib.Algebra.Order.Ring.Pow
/-
Error bounds for the accumulation orders of `Verif.Spec`.
-/
namespace Verif.Rounding
variable {K : Type} [Field K] [LinearOrder K] [IsStrictOrderedRing K] {α : Type} [Arith α]
  (r : Rounding K α)

theorem one_le : 1 ≤ 1 + r.u := by linarith [r.u_nonneg]

theorem one_le_pow (n : Nat) : 1 ≤ (1 + r.u) ^ n := one_le_pow₀ r.one_le

theorem pow_mono {n n' : Nat} (h : n ≤ n') : (1 + r.u) ^ n ≤ (1 + r.u) ^ n' :=
  pow_le_pow_right₀ r.one_le h

variable {r}

theorem bound_nonneg {n m : Nat} {W : K} (hW : 0 ≤ W) : 0 ≤ r.bound n m W := by
  unfold bound
  have h1 := r.one_le_pow n
  have h2 := r.η_nonneg
  have h3 : (0 : K) ≤ m := Nat.cast_nonneg m
  have := mul_nonneg (by linarith : 0 ≤ (1 + r.u) ^ n - 1) hW
  have := mul_nonneg (by linarith : 0 ≤ (1 + r.u) ^ n) (mul_nonneg h3 h2)
  linarith

theorem bound_mono {n m n' m' : Nat} {W W' : K} (hn : n ≤ n') (hm : m ≤ m') (hW : 0 ≤ W) (hW' : W ≤ W') :
    r.bound n m W ≤ r.bound n' m' W' := by
  unfold bound
  have h1 := r.one_le_pow n
  have h2 := r.pow_mono hn
  have h3 : (m : K) ≤ m' := Nat.cast_le.2 hm
  have h4 : (0 : K) ≤ m := Nat.cast_nonneg m
  have h5 := r.η_nonneg
  have h6 : ((1 + r.u) ^ n - 1) * W ≤ ((1 + r.u) ^ n' - 1) * W' :=
    mul_le_mul (by linarith) hW' hW (by linarith)
  have h7 : (1 + r.u) ^ n * (m * r.η) ≤ (1 + r.u) ^ n' * (m' * r.η) :=
    mul_le_mul h2 (mul_le_mul_of_nonneg_right h3 h5) (mul_nonneg h4 h5) (by linarith)
  linarith

theorem Fits.mono {n m n' m' : Nat} {W W' : K} (h : r.Fits n' m' W') (hn : n ≤ n') (hm : m ≤ m')
    (hW : 0 ≤ W) (hW' : W ≤ W') : r.Fits n m W := by
  unfold Fits at *
  have h1 := r.one_le_pow n
  have h2 := r.pow_mono hn
  have h3 : (m : K) ≤ m' := Nat.cast_le.2 hm
  have h4 : (0 : K) ≤ m := Nat.cast_nonneg m
  have h5 := r.η_nonneg
  have h6 : (m : K) * r.η ≤ m' * r.η := mul_le_mul_of_nonneg_right h3 h5
  have h7 : (0 : K) ≤ m * r.η := mul_nonneg h4 h5
  exact le_trans (mul_le_mul h2 (by linarith) (by linarith) (by linarith)) h

theorem Approx.mono {n m n' m' : Nat} {S W W' : K} {x : α} (h : r.Approx n m S W x) (hn : n ≤ n')
    (hm : m ≤ m') (hW : 0 ≤ W) (hW' : W ≤ W') : r.Approx n' m' S W' x :=
  ⟨h.1, h.2.trans (bound_mono hn hm hW hW')⟩

/-- The size of the computed number. -/
theorem Approx.abs_le {n m : Nat} {S W : K} {x : α} (h : r.Approx n m S W x) (hS : |S| ≤ W) :
    |r.value x| ≤ (1 + r.u) ^ n * (W + m * r.η) := by
  have h1 : |r.value x| ≤ |r.value x - S| + |S| := by
    calc |r.value x| = |(r.value x - S) + S| := by rw [sub_add_cancel]
      _ ≤ _ := abs_add_le _ _
  have h2 := h.2
  unfold bound at h2
  linarith [mul_add ((1 + r.u) ^ n) W (m * r.η), sub_mul ((1 + r.u) ^ n) 1 W]

theorem approx_zero (n : Nat) : r.Approx n 0 0 0 (Arith.zero : α) :=
  ⟨r.zero_finite, by rw [r.zero_value]; simp [bound]⟩

theorem Approx.mac {n m : Nat} {S W : K} {c x y : α} (h : r.Approx n m S W c) (hn : 1 ≤ n)
    (hS : |S| ≤ W) (hx : r.finite x) (hy : r.finite y)
    (hf : r.Fits (n + 1) (m + 1) (W + |r.value x * r.value y|)) :
    r.Approx (n + 1) (m + 1) (S + r.value x * r.value y) (W + |r.value x * r.value y|)
      (Arith.mac c x y) := by
  have hu := r.u_nonneg
  have hη := r.η_nonneg
  have hc := h.abs_le hS
  have hP := r.one_le_pow n
  have hP1 : (1 + r.u) ≤ (1 + r.u) ^ n := le_self_pow₀ r.one_le (by omega)
  have hP2 : (1 + r.u) ^ (n + 1) = (1 + r.u) ^ n * (1 + r.u) := pow_succ _ _
  have hW : 0 ≤ W := le_trans (abs_nonneg _) hS
  have hm : (0 : K) ≤ m := Nat.cast_nonneg m
  unfold Fits at hf
  obtain ⟨_, h2⟩ := h
  unfold bound at h2
  unfold Approx bound
  push_cast at hf ⊢
  rw [hP2] at hf ⊢
  generalize hp : r.value x * r.value y = p at *
  generalize hv : r.value c = v at *
  generalize (1 + r.u) ^ n = P at *
  have hap : 0 ≤ |p| := abs_nonneg p
  have hmη : 0 ≤ (m : K) * r.η := mul_nonneg hm hη
  have hQ1 : P ≤ P * (1 + r.u) := le_mul_of_one_le_right (by linarith) r.one_le
  have hQ2 : (1 + r.u) ≤ P * (1 + r.u) := le_mul_of_one_le_left (by linarith) hP
  have hQ3 : (1 + r.u) * (1 + r.u) ≤ P * (1 + r.u) := mul_le_mul_of_nonneg_right hP1 (by linarith)
  have hsq : (1 + r.u) * (1 + r.u) = 1 + 2 * r.u + r.u * r.u := by ring
  generalize hQ : P * (1 + r.u) = Q at *
  have hfit : |v| + (|p| * (1 + r.u) + r.η) ≤ r.Ω := by
    refine le_trans ?_ hf
    have a1 := mul_le_mul_of_nonneg_right hQ1 (by linarith : 0 ≤ W + m * r.η)
    have a2 := mul_le_mul_of_nonneg_right hQ2 hap
    have a3 := mul_le_mul_of_nonneg_right (by linarith : 1 ≤ Q) hη
    linarith [mul_add Q (W + m * r.η) (|p| + r.η), mul_add Q |p| r.η,
      mul_comm |p| (1 + r.u)]
  obtain ⟨hfin, δ, ε, δ', hδ, hε, hδ', he⟩ := r.mac c x y ‹_› hx hy (by rw [hp, hv]; exact hfit)
  refine ⟨hfin, ?_⟩
  rw [he, hp, hv]
  have hd : (v + (p * (1 + δ) + ε)) * (1 + δ') - (S + p) =
      (v - S) * (1 + δ') + S * δ' + p * (δ + δ' + δ * δ') + ε * (1 + δ') := by ring
  have b1 : |1 + δ'| ≤ 1 + r.u := (abs_add_le _ _).trans (by rw [abs_one]; linarith)
  have b2 : |δ + δ' + δ * δ'| ≤ 2 * r.u + r.u * r.u := by
    have h1 : |δ * δ'| ≤ r.u * r.u := by
      rw [abs_mul]
      exact mul_le_mul hδ hδ' (abs_nonneg _) hu
    linarith [abs_add_le (δ + δ') (δ * δ'), abs_add_le δ δ']
  have c1 : |(v - S) * (1 + δ')| ≤ ((P - 1) * W + P * (m * r.η)) * (1 + r.u) := by
    rw [abs_mul]
    exact mul_le_mul h2 b1 (abs_nonneg _) (le_trans (abs_nonneg _) h2)
  have c2 : |S * δ'| ≤ W * r.u := by
    rw [abs_mul]
    exact mul_le_mul hS hδ' (abs_nonneg _) hW
  have c3 : |p * (δ + δ' + δ * δ')| ≤ |p| * (Q - 1) := by
    rw [abs_mul]
    exact mul_le_mul_of_nonneg_left (by linarith) hap
  have c4 : |ε * (1 + δ')| ≤ r.η * Q := by
    rw [abs_mul]
    exact mul_le_mul hε (b1.trans hQ2) (abs_nonneg _) hη
  rw [hd]
  have t1 := abs_add_le ((v - S) * (1 + δ') + S * δ' + p * (δ + δ' + δ * δ')) (ε * (1 + δ'))
  have t2 := abs_add_le ((v - S) * (1 + δ') + S * δ') (p * (δ + δ' + δ * δ'))
  have t3 := abs_add_le ((v - S) * (1 + δ')) (S * δ')
  have hE : ((P - 1) * W + P * (m * r.η)) * (1 + r.u) + W * r.u + |p| * (Q - 1) + r.η * Q =
      (Q - 1) * (W + |p|) + Q * ((m + 1) * r.η) := by rw [← hQ]; ring
  linarith

theorem Approx.add {n m m' : Nat} {S S' W W' : K} {x y : α} (h : r.Approx n m S W x)
    (h' : r.Approx n m' S' W' y) (hS : |S| ≤ W) (hS' : |S'| ≤ W')
    (hf : r.Fits (n + 1) (m + m') (W + W')) :
    r.Approx (n + 1) (m + m') (S + S') (W + W') (Arith.add x y) := by
  have hu := r.u_nonneg
  have hη := r.η_nonneg
  have hc := h.abs_le hS
  have hc' := h'.abs_le hS'
  have hP := r.one_le_pow n
  have hP2 : (1 + r.u) ^ (n + 1) = (1 + r.u) ^ n * (1 + r.u) := pow_succ _ _
  have hW : 0 ≤ W := le_trans (abs_nonneg _) hS
  have hW' : 0 ≤ W' := le_trans (abs_nonneg _) hS'
  have hm : (0 : K) ≤ m := Nat.cast_nonneg m
  have hm' : (0 : K) ≤ m' := Nat.cast_nonneg m'
  unfold Fits at hf
  obtain ⟨_, h2⟩ := h
  obtain ⟨_, h2'⟩ := h'
  unfold bound at h2 h2'
  unfold Approx bound
  push_cast at hf ⊢
  rw [hP2] at hf ⊢
  generalize hv : r.value x = v at *
  generalize hv' : r.value y = v' at *
  generalize (1 + r.u) ^ n = P at *
  have hmη : 0 ≤ (m : K) * r.η := mul_nonneg hm hη
  have hmη' : 0 ≤ (m' : K) * r.η := mul_nonneg hm' hη
  obtain ⟨hfin, δ, hδ, he⟩ := r.add x y ‹_› ‹_› (by
    rw [hv, hv']
    refine le_trans ?_ hf
    have hQ1 : P ≤ P * (1 + r.u) := le_mul_of_one_le_right (by linarith) r.one_le
    have a1 := mul_le_mul_of_nonneg_right hQ1 (by linarith : 0 ≤ W + m * r.η + (W' + m' * r.η))
    linarith [mul_add P (W + m * r.η) (W' + m' * r.η), add_mul (m : K) m' r.η])
  refine ⟨hfin, ?_⟩
  rw [he, hv, hv']
  have hd : (v + v') * (1 + δ) - (S + S') = ((v - S) + (v' - S')) * (1 + δ) + (S + S') * δ := by ring
  have b1 : |1 + δ| ≤ 1 + r.u := (abs_add_le _ _).trans (by rw [abs_one]; linarith)
  have b2 : |(v - S) + (v' - S')| ≤
      ((P - 1) * W + P * (m * r.η)) + ((P - 1) * W' + P * (m' * r.η)) :=
    (abs_add_le _ _).trans (add_le_add h2 h2')
  have c1 : |((v - S) + (v' - S')) * (1 + δ)| ≤
      (((P - 1) * W + P * (m * r.η)) + ((P - 1) * W' + P * (m' * r.η))) * (1 + r.u) := by
    rw [abs_mul]
    exact mul_le_mul b2 b1 (abs_nonneg _) (le_trans (abs_nonneg _) b2)
  have c2 : |(S + S') * δ| ≤ (W + W') * r.u := by
    rw [abs_mul]
    exact mul_le_mul ((abs_add_le _ _).trans (add_le_add hS hS')) hδ (abs_nonneg _) (by linarith)
  rw [hd]
  refine le_trans ((abs_add_le _ _).trans (add_le_add c1 c2)) (le_of_eq ?_)
  ring

/-- Value and absolute value of a dot product. -/
theorem abs_sum_le (n : Nat) (h : Nat → K) :
    |∑ k ∈ Finset.range n, h k| ≤ ∑ k ∈ Finset.range n, |h k| :=
  Finset.abs_sum_le_sum_abs _ _

theorem sum_abs_nonneg (n : Nat) (h : Nat → K) : 0 ≤ ∑ k ∈ Finset.range n, |h k| :=
  Finset.sum_nonneg fun _ _ => abs_nonneg _

theorem approx_dot {n : Nat} {f g : Nat → α} (hfin : ∀ k, k < n → r.finite (f k) ∧ r.finite (g k))
    (hf : r.Fits (n + 1) n (∑ k ∈ Finset.range n, |r.value (f k) * r.value (g k)|)) :
    r.Approx (n + 1) n (∑ k ∈ Finset.range n, r.value (f k) * r.value (g k))
      (∑ k ∈ Finset.range n, |r.value (f k) * r.value (g k)|) (dot n f g) := by
  induction n with
  | zero => simpa [dot, dotFrom] using approx_zero 1
  | succ n ih =>
    have hs : dot (n + 1) f g = Arith.mac (dot n f g) (f n) (g n) := by
      unfold dot dotFrom
      rw [List.range_succ, List.foldl_append]
      rfl
    rw [hs]
    rw [Finset.sum_range_succ] at hf ⊢
    rw [Finset.sum_range_succ]
    have h0 := sum_abs_nonneg n fun k => r.value (f k) * r.value (g k)
    refine (ih (fun k hk => hfin k (by omega)) ?_).mac (by omega) (abs_sum_le _ _)
      (hfin n (by omega)).1 (hfin n (by omega)).2 hf
    exact hf.mono (by omega) (by omega) h0 (by linarith [abs_nonneg (r.value (f n) * r.value (g n))])

theorem approx_bdot {bs nb : Nat} {f g : Nat → α}
    (hfin : ∀ k, k < nb * bs → r.finite (f k) ∧ r.finite (g k))
    (hf : r.Fits (bs + 1 + nb) (nb * bs)
      (∑ k ∈ Finset.range (nb * bs), |r.value (f k) * r.value (g k)|)) :
    r.Approx (bs + 1 + nb) (nb * bs) (∑ k ∈ Finset.range (nb * bs), r.value (f k) * r.value (g k))
      (∑ k ∈ Finset.range (nb * bs), |r.value (f k) * r.value (g k)|) (bdot bs nb f g) := by
  induction nb with
  | zero => simpa [bdot, bdotFrom] using approx_zero (bs + 1)
  | succ nb ih =>
    have hs : bdot bs (nb + 1) f g = Arith.add (bdot bs nb f g)
        (dot bs (fun k => f (nb * bs + k)) (fun k => g (nb * bs + k))) := by
      unfold bdot bdotFrom
      rw [List.range_succ, List.foldl_append]
      rfl
    rw [hs]
    rw [Nat.succ_mul] at hfin hf ⊢
    rw [Finset.sum_range_add] at hf ⊢
    rw [Finset.sum_range_add]
    have h0 := sum_abs_nonneg (nb * bs) fun k => r.value (f k) * r.value (g k)
    have h1 := sum_abs_nonneg bs fun k => r.value (f (nb * bs + k)) * r.value (g (nb * bs + k))
    refine (ih (fun k hk => hfin k (by omega)) ?_).add ((approx_dot (f := fun k => f (nb * bs + k))
      (g := fun k => g (nb * bs + k)) (fun k hk => hfin _ (by omega)) ?_).mono (by omega)
        (Nat.le_refl _) h1 (le_refl _)) (abs_sum_le _ _) (abs_sum_le _ _) hf
    · exact hf.mono (by omega) (by omega) h0 (by linarith)
    · exact hf.mono (by omega) (by omega) h1 (by linarith)

/-- Blocks added to a sum. -/
theorem approx_bdotFrom {bs nb n m : Nat} {f g : Nat → α} {S W : K} {acc : α}
    (h : r.Approx n m S W acc) (hn : bs + 1 ≤ n) (hS : |S| ≤ W)
    (hfin : ∀ k, k < nb * bs → r.finite (f k) ∧ r.finite (g k))
    (hf : r.Fits (n + nb) (m + nb * bs)
      (W + ∑ k ∈ Finset.range (nb * bs), |r.value (f k) * r.value (g k)|)) :
    r.Approx (n + nb) (m + nb * bs) (S + ∑ k ∈ Finset.range (nb * bs), r.value (f k) * r.value (g k))
      (W + ∑ k ∈ Finset.range (nb * bs), |r.value (f k) * r.value (g k)|) (bdotFrom acc bs nb f g) := by
  have hW : 0 ≤ W := (abs_nonneg _).trans hS
  induction nb with
  | zero => simpa [bdotFrom] using h
  | succ nb ih =>
    have hs : bdotFrom acc bs (nb + 1) f g = Arith.add (bdotFrom acc bs nb f g)
        (dot bs (fun k => f (nb * bs + k)) (fun k => g (nb * bs + k))) := by
      unfold bdotFrom
      rw [List.range_succ, List.foldl_append]
      rfl
    rw [hs]
    rw [Nat.succ_mul, ← Nat.add_assoc m] at hf ⊢
    rw [Nat.succ_mul] at hfin
    rw [Finset.sum_range_add, ← add_assoc W] at hf
    rw [Finset.sum_range_add, Finset.sum_range_add, ← add_assoc S, ← add_assoc W]
    have h0 := sum_abs_nonneg (nb * bs) fun k => r.value (f k) * r.value (g k)
    have h1 := sum_abs_nonneg bs fun k => r.value (f (nb * bs + k)) * r.value (g (nb * bs + k))
    refine (ih (fun k hk => hfin k (by omega)) ?_).add ((approx_dot (f := fun k => f (nb * bs + k))
      (g := fun k => g (nb * bs + k)) (fun k hk => hfin _ (by omega)) ?_).mono (by omega)
        (Nat.le_refl _) h1 (le_refl _)) ?_ (abs_sum_le _ _) hf
    · exact hf.mono (by omega) (by omega) (by linarith) (by linarith)
    · exact hf.mono (by omega) (by omega) h1 (by linarith)
    · exact (abs_add_le _ _).trans (add_le_add hS (abs_sum_le _ _))

/-- Blocks added `c` times. -/
theorem approx_repeat {bs nb : Nat} {f g : Nat → α} (c : Nat)
    (hfin : ∀ k, k < nb * bs → r.finite (f k) ∧ r.finite (g k))
    (hf : r.Fits (bs + 1 + c * nb) (c * (nb * bs))
      (c * ∑ k ∈ Finset.range (nb * bs), |r.value (f k) * r.value (g k)|)) :
    r.Approx (bs + 1 + c * nb) (c * (nb * bs))
      (c * ∑ k ∈ Finset.range (nb * bs), r.value (f k) * r.value (g k))
      (c * ∑ k ∈ Finset.range (nb * bs), |r.value (f k) * r.value (g k)|)
      ((fun acc => bdotFrom acc bs nb f g)^[c] Arith.zero) := by
  induction c with
  | zero => simpa using approx_zero (bs + 1)
  | succ c ih =>
    rw [Function.iterate_succ_apply']
    have h0 := sum_abs_nonneg (nb * bs) fun k => r.value (f k) * r.value (g k)
    have e : ∀ x : K, ((c + 1 : Nat) : K) * x = c * x + x := fun x => by push_cast; ring
    rw [e, Nat.succ_mul, Nat.succ_mul, ← Nat.add_assoc] at hf ⊢
    rw [e]
    have hc : (0 : K) ≤ c := Nat.cast_nonneg c
    refine approx_bdotFrom (ih (hf.mono (by omega) (by omega) (mul_nonneg hc h0) (by linarith)))
      (by omega) ?_ hfin hf
    rw [abs_mul, abs_of_nonneg hc]
    exact mul_le_mul_of_nonneg_left (abs_sum_le _ _) hc

end Verif.Rounding
