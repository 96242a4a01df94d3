import Verif.SpecHalving
import Verif.Proof.ScheduleDrop
import Verif.Props.Kernel
import Verif.Core.Errs
/-
Helper lemmas about the recursive multiplication of arbitrary sizes.
-/
set_option linter.unusedSectionVars false
namespace Verif

theorem leafSize_le {br n : Nat} (h : n ≤ br) : leafSize br n = n := by
  rw [leafSize, if_pos h]

theorem leafSize_gt {br n : Nat} (h : br < n) : leafSize br n = leafSize br (n / 2) := by
  rw [leafSize, if_neg (by omega)]

theorem extent_le {br n : Nat} (h : n ≤ br) : extent br n = n := by
  rw [extent, if_pos h]

theorem extent_gt {br n : Nat} (h : br < n) : extent br n = n / 2 + extent br (n / 2) := by
  rw [extent, if_neg (by omega)]

theorem extent_bound (br n : Nat) : leafSize br n ≤ extent br n ∧ extent br n ≤ n := by
  induction n using Nat.strongRecOn with
  | ind n ih =>
    rcases Nat.lt_or_ge br n with h | h
    · rw [leafSize_gt h, extent_gt h]
      have := ih (n / 2) (by omega)
      omega
    · rw [leafSize_le h, extent_le h]; omega

theorem leafSize_br (br n : Nat) : leafSize br n ≤ br := by
  induction n using Nat.strongRecOn with
  | ind n ih =>
    rcases Nat.lt_or_ge br n with h | h
    · rw [leafSize_gt h]; exact ih (n / 2) (by omega)
    · rw [leafSize_le h]; exact h

theorem extent_eq {br n : Nat} : extent br n = n ↔ HalvesTo br n := by
  constructor
  · induction n using Nat.strongRecOn with
    | ind n ih =>
      intro he
      rcases Nat.lt_or_ge br n with h | h
      · rw [extent_gt h] at he
        have := (extent_bound br (n / 2)).2
        obtain ⟨e, s, h1, h2, h3⟩ := ih (n / 2) (by omega) (by omega)
        have hn : n = 2 ^ (e + 1) * s := by rw [Nat.pow_succ, Nat.mul_right_comm, ← h1]; omega
        refine ⟨e + 1, s, hn, h2, fun d hd => ?_⟩
        rcases Nat.lt_or_ge d e with hd' | hd'
        · exact h3 d hd'
        · have : d = e := by omega
          subst this; rw [← hn]; exact h
      · exact ⟨0, n, by simp, h, fun d hd => by omega⟩
  · rintro ⟨e, s, h1, h2, h3⟩
    induction e generalizing n with
    | zero => rw [Nat.pow_zero, Nat.one_mul] at h1; subst h1; exact extent_le h2
    | succ e ih =>
      have := h3 e (by omega)
      rw [← h1] at this
      have h4 : n / 2 = 2 ^ e * s := by rw [h1, Nat.pow_succ, Nat.mul_right_comm]; omega
      have h5 : n = 2 ^ e * s * 2 := by rw [h1, Nat.pow_succ, Nat.mul_right_comm]
      rw [extent_gt this, ih h4 fun d hd => h3 d (by omega)]
      omega

theorem leafSize_halves {br e s : Nat} (hs : s ≤ br) (he : ∀ d, d < e → br < 2 ^ (d + 1) * s) :
    leafSize br (2 ^ e * s) = s := by
  induction e with
  | zero => rw [Nat.pow_zero, Nat.one_mul]; exact leafSize_le hs
  | succ e ih =>
    have h4 : 2 ^ (e + 1) * s / 2 = 2 ^ e * s := by rw [Nat.pow_succ, Nat.mul_right_comm]; omega
    rw [leafSize_gt (he e (by omega)), h4]
    exact ih fun d hd => he d (by omega)

theorem source_le {br n p : Nat} (h : n ≤ br) (hp : p < n * n) :
    source br n p = some (p / n, p % n) := by
  rw [source, if_pos h, if_pos hp]

theorem source_gt {br n : Nat} (h : br < n) {r c : Nat} (hr : r < 2 * (n / 2))
    (hc : c < 2 * (n / 2)) : source br n (r * (2 * (n / 2)) + c) =
      (source br (n / 2) (r % (n / 2) * (n / 2) + c % (n / 2))).map fun q =>
        (r / (n / 2) * (n / 2) + q.1, c / (n / 2) * (n / 2) + q.2) := by
  rw [source, if_neg (by omega)]
  dsimp only
  rw [if_pos (idx_lt hr hc), idx_div hc, idx_mod hc]

theorem source_none {br n p : Nat} (h : br < n) (hp : 2 * (n / 2) * (2 * (n / 2)) ≤ p) :
    source br n p = none := by
  rw [source, if_neg (by omega)]
  dsimp only
  rw [if_neg (by omega)]

/-- The last position is reached only if the halving is exact. -/
theorem source_last {br n : Nat} (hn : 0 < n) (h : ¬ HalvesTo br n) :
    source br n (n * n - 1) = none := by
  rw [← extent_eq] at h
  induction n using Nat.strongRecOn with
  | ind n ih =>
    rcases Nat.lt_or_ge br n with hb | hb
    · rcases Nat.mod_two_eq_zero_or_one n with h2 | h2
      · obtain ⟨m, rfl⟩ : ∃ m, n = 2 * m := ⟨n / 2, by omega⟩
        have hm : 2 * m / 2 = m := by omega
        rw [extent_gt hb, hm] at h
        have hp : 2 * m * (2 * m) - 1 = (2 * m - 1) * (2 * m) + (2 * m - 1) := by
          have : 2 * m * (2 * m) = (2 * m - 1) * (2 * m) + 2 * m := by
            rw [← Nat.succ_mul]; congr 1; omega
          omega
        have := source_gt hb (r := 2 * m - 1) (c := 2 * m - 1) (by omega) (by omega)
        rw [hm] at this
        rw [hp, this]
        have h1 : (2 * m - 1) % m = m - 1 := by
          have : 2 * m - 1 = m - 1 + m := by omega
          rw [this, Nat.add_mod_right, Nat.mod_eq_of_lt (by omega)]
        have h3 : (m - 1) * m + (m - 1) = m * m - 1 := by
          have : m * m = (m - 1) * m + m := by rw [← Nat.succ_mul]; congr 1; omega
          omega
        rw [h1, h3, ih m (by omega) (by omega) (by omega)]
        rfl
      · refine source_none hb ?_
        have h6 : 2 * (n / 2) = n - 1 := by omega
        rw [h6]
        have h7 : (n - 1) * (n - 1) ≤ (n - 1) * n := Nat.mul_le_mul_left _ (by omega)
        have h8 : (n - 1) * n + n = n * n := by rw [← Nat.succ_mul]; congr 1; omega
        omega
    · exact absurd (extent_le hb) h

/-- The positions that `source` takes from a quarter. -/
theorem source_inv {br n p : Nat} {q : Nat × Nat} (hb : br < n) (h : source br n p = some q) :
    ∃ r c q', r < 2 * (n / 2) ∧ c < 2 * (n / 2) ∧ p = r * (2 * (n / 2)) + c ∧
      source br (n / 2) (r % (n / 2) * (n / 2) + c % (n / 2)) = some q' ∧
      q = (r / (n / 2) * (n / 2) + q'.1, c / (n / 2) * (n / 2) + q'.2) := by
  rcases Nat.lt_or_ge p (2 * (n / 2) * (2 * (n / 2))) with hp | hp
  · have h2 : 0 < 2 * (n / 2) := by
      rcases Nat.eq_zero_or_pos (2 * (n / 2)) with h0 | h0
      · rw [h0] at hp; omega
      · exact h0
    have hr : p / (2 * (n / 2)) < 2 * (n / 2) := Nat.div_lt_of_lt_mul hp
    have hc := Nat.mod_lt p h2
    have hpe : p = p / (2 * (n / 2)) * (2 * (n / 2)) + p % (2 * (n / 2)) := by
      rw [Nat.mul_comm]; exact (Nat.div_add_mod p _).symm
    rw [hpe, source_gt hb hr hc] at h
    obtain ⟨q', hq', rfl⟩ := Option.map_eq_some_iff.1 h
    exact ⟨_, _, q', hr, hc, hpe, hq', rfl⟩
  · rw [source_none hb hp] at h; cases h

theorem half_le {t h : Nat} (ht : t < 2 * h) : t / h * h ≤ h := by
  have : t / h < 2 := Nat.div_lt_of_lt_mul (by rw [Nat.mul_comm]; exact ht)
  calc t / h * h ≤ 1 * h := Nat.mul_le_mul_right _ (by omega)
    _ = h := Nat.one_mul _

/-- Where `source` points is inside the extent. -/
theorem source_lt {br n p : Nat} {q : Nat × Nat} (h : source br n p = some q) :
    q.1 < extent br n ∧ q.2 < extent br n := by
  induction n using Nat.strongRecOn generalizing p q with
  | ind n ih =>
    rcases Nat.lt_or_ge br n with hb | hb
    · rw [extent_gt hb]
      obtain ⟨r, c, q', hr, hc, _, hq', rfl⟩ := source_inv hb h
      have := ih (n / 2) (by omega) hq'
      have := half_le hr
      have := half_le hc
      exact ⟨by dsimp only; omega, by dsimp only; omega⟩
    · rw [source, if_pos hb] at h
      split at h
      · rename_i hp
        cases h
        rw [extent_le hb]
        refine ⟨Nat.div_lt_of_lt_mul hp, Nat.mod_lt _ ?_⟩
        rcases Nat.eq_zero_or_pos n with rfl | h0
        · omega
        · exact h0
      · cases h

/-- No entry of the block is put at two positions. -/
theorem source_inj {br n p p' : Nat} {q : Nat × Nat} (h : source br n p = some q)
    (h' : source br n p' = some q) : p = p' := by
  induction n using Nat.strongRecOn generalizing p p' q with
  | ind n ih =>
    rcases Nat.lt_or_ge br n with hb | hb
    · obtain ⟨r, c, q1, hr, hc, hp, hq1, rfl⟩ := source_inv hb h
      obtain ⟨r', c', q2, hr', hc', hp', hq2, he⟩ := source_inv hb h'
      have l1 := source_lt hq1
      have l2 := source_lt hq2
      have hx := (extent_bound br (n / 2)).2
      have e1 := congrArg Prod.fst he
      have e2 := congrArg Prod.snd he
      dsimp only at e1 e2
      obtain ⟨f1, f2⟩ := idx_inj (show q1.1 < n / 2 by omega) (by omega) e1
      obtain ⟨f3, f4⟩ := idx_inj (show q1.2 < n / 2 by omega) (by omega) e2
      have : q1 = q2 := Prod.ext f2 f4
      subst this
      have hh : 0 < n / 2 := by omega
      obtain ⟨g1, g2⟩ := idx_inj (Nat.mod_lt c hh) (Nat.mod_lt c' hh) (ih (n / 2) (by omega) hq1 hq2)
      have hre : r = r' := by
        rw [← Nat.div_add_mod r (n / 2), ← Nat.div_add_mod r' (n / 2), f1, g1]
      have hce : c = c' := by
        rw [← Nat.div_add_mod c (n / 2), ← Nat.div_add_mod c' (n / 2), f3, g2]
      rw [hp, hp', hre, hce]
    · rw [source, if_pos hb] at h h'
      split at h
      · split at h'
        · cases h
          have he := Option.some.inj h'
          have e1 := congrArg Prod.fst he
          have e2 := congrArg Prod.snd he
          dsimp only at e1 e2
          rw [← Nat.div_add_mod p n, ← Nat.div_add_mod p' n, e1, e2]
        · cases h'
      · cases h

/-- With exact halving every position gets the entry of the row-major order. -/
theorem source_exact {br n p : Nat} (h : HalvesTo br n) (hp : p < n * n) :
    source br n p = some (p / n, p % n) := by
  rw [← extent_eq] at h
  induction n using Nat.strongRecOn generalizing p with
  | ind n ih =>
    rcases Nat.lt_or_ge br n with hb | hb
    · rw [extent_gt hb] at h
      have hx := (extent_bound br (n / 2)).2
      have h2 : 2 * (n / 2) = n := by omega
      have hr : p / n < n := Nat.div_lt_of_lt_mul hp
      have hc : p % n < n := Nat.mod_lt _ (by omega)
      have hpe : p / n * (2 * (n / 2)) + p % n = p := by
        rw [h2, Nat.mul_comm]; exact Nat.div_add_mod p n
      have hs := source_gt hb (r := p / n) (c := p % n) (by omega) (by omega)
      have hh : 0 < n / 2 := by omega
      have hm := Nat.mod_lt (p % n) hh
      rw [hpe, ih (n / 2) (by omega) (by omega) (idx_lt (Nat.mod_lt _ hh) hm), idx_div hm,
        idx_mod hm] at hs
      rw [hs, Option.map_some]
      have d : ∀ t, t / (n / 2) * (n / 2) + t % (n / 2) = t := fun t => by
        rw [Nat.mul_comm]; exact Nat.div_add_mod t _
      rw [d, d]
    · exact source_le hb hp

/-- The size at which the halving stops, without recursion. -/
theorem leafSize_div (br n : Nat) :
    ∃ e, leafSize br n = n / 2 ^ e ∧ n / 2 ^ e ≤ br ∧ ∀ d, d < e → br < n / 2 ^ d := by
  induction n using Nat.strongRecOn with
  | ind n ih =>
    rcases Nat.lt_or_ge br n with h | h
    · rw [leafSize_gt h]
      obtain ⟨e, h1, h2, h3⟩ := ih (n / 2) (by omega)
      have hd : ∀ d, n / 2 / 2 ^ d = n / 2 ^ (d + 1) := fun d => by
        rw [Nat.div_div_eq_div_mul, Nat.pow_succ, Nat.mul_comm]
      refine ⟨e + 1, by rw [h1, hd], by rw [← hd]; exact h2, fun d hd' => ?_⟩
      cases d with
      | zero => simpa using h
      | succ d => rw [← hd]; exact h3 d (by omega)
    · exact ⟨0, by rw [leafSize_le h]; simp, by simpa using h, fun d hd => by omega⟩

/-- The number of positions that get an entry. -/
theorem source_count {br n e : Nat} (h1 : n / 2 ^ e ≤ br) (h2 : ∀ d, d < e → br < n / 2 ^ d) :
    ((Finset.range (n * n)).filter fun p => (source br n p).isSome).card =
      2 ^ e * (n / 2 ^ e) * (2 ^ e * (n / 2 ^ e)) := by
  induction e generalizing n with
  | zero =>
    simp only [Nat.pow_zero, Nat.div_one, Nat.one_mul] at *
    rw [Finset.filter_true_of_mem, Finset.card_range]
    intro p hp
    rw [source_le h1 (Finset.mem_range.1 hp)]; rfl
  | succ e ih =>
    have hb : br < n := by simpa using h2 0 (by omega)
    have hd : ∀ d, n / 2 / 2 ^ d = n / 2 ^ (d + 1) := fun d => by
      rw [Nat.div_div_eq_div_mul, Nat.pow_succ, Nat.mul_comm]
    have ih := ih (n := n / 2) (by rw [hd]; exact h1) fun d hd' => by rw [hd]; exact h2 _ (by omega)
    rw [hd] at ih
    have hh0 : n / 2 * 2 ≤ n := by omega
    have hmul : ∀ z, 2 ^ (e + 1) * z * (2 ^ (e + 1) * z) = 2 * 2 * (2 ^ e * z * (2 ^ e * z)) := by
      intro z
      rw [Nat.pow_succ, Nat.mul_right_comm (2 ^ e) 2 z]
      generalize 2 ^ e * z = y
      rw [Nat.mul_comm y 2]
      rw [Nat.mul_mul_mul_comm]
    rw [hmul, ← ih]
    have hprod : 2 * 2 * ((Finset.range (n / 2 * (n / 2))).filter
        fun p => (source br (n / 2) p).isSome).card =
        ((Finset.range 2 ×ˢ Finset.range 2) ×ˢ ((Finset.range (n / 2 * (n / 2))).filter
        fun p => (source br (n / 2) p).isSome)).card := by
      rw [Finset.card_product, Finset.card_product, Finset.card_range]
    rw [hprod]
    have hs := @source_gt br n hb
    have hv := @source_inv br n
    generalize hhe : n / 2 = h at *
    refine Finset.card_nbij'
      (fun p => ((p / (2 * h) / h, p % (2 * h) / h),
        p / (2 * h) % h * h + p % (2 * h) % h))
      (fun x => (x.1.1 * h + x.2 / h) * (2 * h) + (x.1.2 * h + x.2 % h)) ?_ ?_ ?_ ?_
    · intro p hp
      obtain ⟨hp1, hp2⟩ := Finset.mem_filter.1 hp
      obtain ⟨q, hq⟩ := Option.isSome_iff_exists.1 hp2
      obtain ⟨r, c, q', hr, hc, rfl, hq', _⟩ := hv hb hq
      have hpos : 0 < h := by omega
      simp only [Finset.mem_coe, Finset.mem_product, Finset.mem_range, Finset.mem_filter,
        idx_div hc, idx_mod hc]
      exact ⟨⟨Nat.div_lt_of_lt_mul (by omega), Nat.div_lt_of_lt_mul (by omega)⟩,
        idx_lt (Nat.mod_lt _ hpos) (Nat.mod_lt _ hpos), by rw [hq']; rfl⟩
    · rintro ⟨⟨u, v⟩, q⟩ hq
      simp only [Finset.mem_coe, Finset.mem_product, Finset.mem_range, Finset.mem_filter] at hq ⊢
      obtain ⟨⟨hu, hv'⟩, hq1, hq2⟩ := hq
      have hpos : 0 < h := Nat.pos_of_ne_zero fun h0 => by subst h0; omega
      have hqd : q / h < h := Nat.div_lt_of_lt_mul hq1
      have hqm := Nat.mod_lt q hpos
      have hl : ∀ w z, w < 2 → z < h → w * h + z < 2 * h := fun w z hw hz => idx_lt hw hz
      have hr := hl u _ hu hqd
      have hc := hl v _ hv' hqm
      refine ⟨Nat.lt_of_lt_of_le (idx_lt hr hc) (Nat.mul_le_mul (by omega) (by omega)), ?_⟩
      rw [hs hr hc, idx_mod hqd, idx_mod hqm, Nat.mul_comm (q / h), Nat.div_add_mod]
      obtain ⟨q', hq'⟩ := Option.isSome_iff_exists.1 hq2
      rw [hq']; rfl
    · intro p hp
      obtain ⟨hp1, hp2⟩ := Finset.mem_filter.1 hp
      obtain ⟨q, hq⟩ := Option.isSome_iff_exists.1 hp2
      obtain ⟨r, c, q', hr, hc, rfl, hq', _⟩ := hv hb hq
      have hpos : 0 < h := by omega
      have hm := Nat.mod_lt c hpos
      simp only [idx_div hc, idx_mod hc, idx_div hm, idx_mod hm]
      have d : ∀ t, t / h * h + t % h = t := fun t => by
        rw [Nat.mul_comm]; exact Nat.div_add_mod t _
      rw [d, d]
    · rintro ⟨⟨u, v⟩, q⟩ hq
      simp only [Finset.mem_coe, Finset.mem_product, Finset.mem_range, Finset.mem_filter] at hq ⊢
      obtain ⟨⟨hu, hv'⟩, hq1, hq2⟩ := hq
      have hpos : 0 < h := Nat.pos_of_ne_zero fun h0 => by subst h0; omega
      have hqd : q / h < h := Nat.div_lt_of_lt_mul hq1
      have hqm := Nat.mod_lt q hpos
      have hc : v * h + q % h < 2 * h := idx_lt hv' hqm
      simp only [idx_div hc, idx_mod hc, idx_div hqd, idx_mod hqd, idx_div hqm, idx_mod hqm]
      rw [Nat.mul_comm (q / h), Nat.div_add_mod]

end Verif

namespace Verif.Kernel
variable {α : Type} [Arith α]

theorem flat_get {A : Array α} {N p : Nat} {a : Nat → Nat → α} (hA : Holds A N N a)
    (hp : p < N * N) : A[p]? = some (flat N a p) := by
  have h0 : 0 < N := by
    rcases Nat.eq_zero_or_pos N with rfl | h
    · omega
    · exact h
  have := hA (p / N) (Nat.div_lt_of_lt_mul hp) (p % N) (Nat.mod_lt _ h0)
  rw [Nat.mul_comm, Nat.div_add_mod] at this
  exact this

theorem flat_row {N r k : Nat} (f : Nat → Nat → α) (hk : k < N) : flat N f (r * N + k) = f r k := by
  unfold flat; rw [idx_div hk, idx_mod hk]

theorem leafIn_mono {N bi s X Y X' Y' : Nat} {transposed : Bool} (h : LeafIn N transposed bi s X Y)
    (hX : X' ≤ X) (hY : Y' ≤ Y) : LeafIn N transposed bi s X' Y' := by
  intro h1 h2 h3
  obtain ⟨h4, h5, h6⟩ := h h1 h2 h3
  have := Nat.mul_le_mul_right N (show X' - 1 ≤ X - 1 by omega)
  have := Nat.mul_le_mul_right N (show Y' - 1 ≤ Y - 1 by omega)
  clear h1 h2 h3
  generalize ceilDiv N bi * bi = z at *
  exact ⟨h4, by omega, by omega⟩

/-- The input blocks divide `N`: every block inside the matrix is fine. -/
theorem leafIn_of_dvd {N bi s X Y : Nat} {transposed : Bool} (hX : X ≤ N) (hY : Y ≤ N)
    (h : transposed = true → bi ≠ 0 → 4 ≤ s → 4 ∣ s ∧ bi ∣ N) :
    LeafIn N transposed bi s X Y := by
  intro h1 h2 h3
  obtain ⟨h4, k, rfl⟩ := h h1 h2 h3
  rw [Nat.mul_comm bi k, ceilDiv_mul k bi (by omega)]
  have : ∀ Z, Z ≤ k * bi → 0 < k * bi → (Z - 1) * (k * bi) + k * bi ≤ k * bi * (k * bi) := by
    intro Z hZ h0
    rw [← Nat.succ_mul]
    exact Nat.mul_le_mul_right _ (by omega)
  rcases Nat.eq_zero_or_pos (k * bi) with h0 | h0
  · rw [h0]; simp [h4]
  · exact ⟨h4, this X (by rwa [Nat.mul_comm]) h0, this Y (by rwa [Nat.mul_comm]) h0⟩

theorem leafEntry_dvd {N : Nat} (a b : Nat → Nat → α) {transposed : Bool} {bi s : Nat}
    (h : transposed = true → bi ≠ 0 → 4 ≤ s → bi ∣ N) (r c : Nat) :
    leafEntry N a b transposed bi s r c = Props.submatrixEntry N a b transposed bi s r c := by
  unfold leafEntry Props.submatrixEntry
  split
  · rfl
  · rename_i ht
    split
    · rfl
    · rename_i hb
      obtain ⟨k, rfl⟩ := h (by simpa using ht) (fun h => hb (.inl h)) (by omega)
      have hbi : 0 < bi := by omega
      rw [Nat.mul_comm bi k, ceilDiv_mul k bi hbi, Nat.mul_div_cancel _ hbi]
      unfold bdot bdotFrom
      refine foldl_congr' (fun t ht s => ?_) _
      congr 1
      unfold dot dotFrom
      refine foldl_congr' (fun u hu s => ?_) _
      have hlt : t * bi + u < k * bi := idx_lt (List.mem_range.1 ht) (List.mem_range.1 hu)
      dsimp only
      rw [flat_row a hlt, flat_row b hlt]

/-- The last input block of the last row lies in the matrix: so do all others. -/
theorem blocks_in {N bi x s kb i k : Nat} (hbi : 0 < bi) (hkb : kb ∈ steps 0 N bi) (hi : i < s)
    (hk : k < bi) (h : (x + s - 1) * N + ceilDiv N bi * bi ≤ N * N) :
    (x + i) * N + kb + k < N * N := by
  obtain ⟨t, ht, hlt⟩ := (mem_steps hbi).1 hkb
  have h1 : t < ceilDiv N bi := (lt_ceilDiv hbi).2 (by omega)
  have h2 := Nat.mul_le_mul_right bi (show t + 1 ≤ ceilDiv N bi by omega)
  have h3 := Nat.mul_le_mul_right N (show x + i ≤ x + s - 1 by omega)
  rw [Nat.add_mul] at h2
  clear h1
  generalize ceilDiv N bi * bi = z at *
  omega

theorem blocked_flat_does {A B : Array α} {N x y br bi : Nat}
    {a b : Nat → Nat → α} (hA : Holds A N N a) (hB : Holds B N N b) (h4 : br % 4 = 0)
    (hbi : 0 < bi) (hx : (x + br - 1) * N + ceilDiv N bi * bi ≤ N * N)
    (hy : (y + br - 1) * N + ceilDiv N bi * bi ≤ N * N) :
    Act.Does false (kernel_transposed_blocked A B (br * br) N x y br bi) ()
      ((steps 0 N bi).flatMap fun kb =>
        (steps 0 br 4).flatMap fun i => (steps 0 br 2).flatMap fun j =>
          upd8 br (fun r c => dot bi (fun k => flat N a ((x + r) * N + (kb + k)))
            (fun k => flat N b ((y + c) * N + (kb + k)))) i j) := by
  refine blocked_does (u := fun r k => flat N a ((x + r) * N + k))
    (v := fun r k => flat N b ((y + r) * N + k)) h4 hbi (fun kb hkb i hi k hk => ?_)
    (fun kb hkb i hi k hk => ?_)
  · rw [flat_get hA (blocks_in hbi hkb hi hk hx), Nat.add_assoc]
  · rw [flat_get hB (blocks_in hbi hkb hi hk hy), Nat.add_assoc]

/-- What one cell of the result of the blocked kernel accumulates, for any `bi`. -/
theorem blocked_cell' {N br bi : Nat} {F G : Nat → Nat → α} (h4 : br % 4 = 0)
    {r c : Nat} (hr : r < br) (hc : c < br) (x : α) :
    cellFold ((steps 0 N bi).flatMap fun kb =>
        (steps 0 br 4).flatMap fun i => (steps 0 br 2).flatMap fun j =>
          upd8 br (fun r c => dot bi (fun k => F r (kb + k)) (fun k => G c (kb + k))) i j)
      (r * br + c) x = bdotFrom x bi (ceilDiv N bi) (F r) (G c) := by
  rw [cellFold_flatMap]
  unfold steps bdotFrom
  rw [List.foldl_map, Nat.sub_zero]
  refine foldl_congr' (fun t _ s => ?_) _
  rw [Nat.zero_add]
  exact multSmall_cell h4 hr hc s

/-- `calculate_submatrix` for every block inside the matrix. -/
theorem calculate_flat {N : Nat} {A B : Array α} {a b : Nat → Nat → α} {transposed : Bool}
    {bi x y s : Nat} (hA : Holds A N N a) (hB : Holds B N N b) (hx : x + s ≤ N) (hy : y + s ≤ N)
    (h : LeafIn N transposed bi s (x + s) (y + s)) :
    calculate_submatrix ⟨N, A, B, transposed, bi⟩ x y s =
      .ok (rect s s fun i j => leafEntry N a b transposed bi s (x + i) (y + j)) := by
  unfold calculate_submatrix
  cases transposed with
  | false =>
    simp only [Bool.not_false, if_true]
    exact Props.C04_kernel A B (zeros (s * s)) N x y s a b hA hB (by simp) hx hy
  | true =>
    simp only [Bool.not_true, Bool.false_eq_true, if_false]
    split
    · rename_i h'
      rw [Props.C06_kernel_transposed A B (zeros (s * s)) N x y s a b hA hB (by simp) hx hy]
      simp only [leafEntry, Bool.true_eq_false, if_false, if_pos h']
    · rename_i h'
      obtain ⟨h4, hxe, hye⟩ := h rfl (fun h => h' (.inl h)) (by omega)
      have h4' : s % 4 = 0 := Nat.mod_eq_zero_of_dvd h4
      rw [zeros_size, (blocked_flat_does hA hB h4' (by omega) hxe hye).execOn]
      congr 1
      refine applyA_rect (by simp) (zeros_holds s s) fun i hi j hj => ?_
      rw [blocked_cell' (F := fun r k => flat N a ((x + r) * N + k))
        (G := fun r k => flat N b ((y + r) * N + k)) h4' hi hj]
      simp only [leafEntry, Bool.true_eq_false, if_false, if_neg h']
      rfl

/-- Otherwise it accesses memory out of bounds. -/
theorem calculate_stuck {N : Nat} {A B : Array α} {transposed : Bool} {bi x y s : Nat}
    (hA : A.size = N * N) (hB : B.size = N * N) (hx : x + s ≤ N)
    (h : ¬ LeafIn N transposed bi s (x + s) (y + s)) :
    calculate_submatrix ⟨N, A, B, transposed, bi⟩ x y s = .error .oob := by
  unfold LeafIn at h
  simp only [Classical.not_imp] at h
  obtain ⟨rfl, hbi, h4, h⟩ := h
  unfold calculate_submatrix
  simp only [Bool.not_true, Bool.false_eq_true, if_false]
  rw [if_neg (by omega)]
  by_cases h4' : 4 ∣ s
  · have hbi' : 0 < bi := by omega
    have hpos : 0 < ceilDiv N bi := (lt_ceilDiv hbi').2 (by omega)
    have hkb := (lt_ceilDiv hbi').1 (show ceilDiv N bi - 1 < ceilDiv N bi by omega)
    have hsum : (ceilDiv N bi - 1) * bi + bi = ceilDiv N bi * bi := by
      rw [← Nat.succ_mul]; congr 1; omega
    have hm : (ceilDiv N bi - 1) * bi ∈ steps 0 N bi :=
      (mem_steps hbi').2 ⟨_, (Nat.zero_add _).symm, hkb⟩
    have hs1 : ∀ z, z + (s - 1) = z + s - 1 := by omega
    have := blocked_stuck (A := A) (B := B) (nC := (zeros (s * s) : Array α).size) (x := x)
      (y := y) (br := s) hbi' hm (fun st hst => by
        by_cases hx' : (x + s - 1) * N + ceilDiv N bi * bi ≤ N * N
        · have hy' : ¬ (y + s - 1) * N + ceilDiv N bi * bi ≤ N * N := fun hy' => h ⟨h4', hx', hy'⟩
          refine Act.All.bind (P' := fun _ => True)
            (Act.All.ofM (fun _ _ => trivial) fun e he => loadSmall_size.2 e he) fun As _ => ?_
          refine Act.All.bind (P' := fun _ => False)
            (Act.All.ofM (fun r hr => ?_) fun e he => loadSmall_size.2 e he) fun _ h => h.elim
          refine loadSmall_not_ok (i := s - 1) (k := bi - 1) (by omega) (by omega) ?_ r hr
          rw [hB, hs1]; omega
        · refine Act.All.bind (P' := fun _ => False)
            (Act.All.ofM (fun r hr => ?_) fun e he => loadSmall_size.2 e he) fun _ h => h.elim
          refine loadSmall_not_ok (i := s - 1) (k := bi - 1) (by omega) (by omega) ?_ r hr
          rw [hA, hs1]; omega)
    obtain ⟨e, he, h⟩ := this.execOn_error (zeros (s * s))
    rw [h, he]
  · exact Props.C08_blocked_oob_result A B (zeros (s * s)) N x y s bi (by omega) (by omega) h4'

end Verif.Kernel

namespace Verif.Recursive
open Verif.Kernel
variable {α : Type} [Arith α]

theorem spread_eq_rect (br n : Nat) (G : Nat → Nat → α) : spread br n G =
    rect n n fun i j => ((source br n (i * n + j)).map fun q => G q.1 q.2).getD Arith.zero := by
  unfold spread rect
  congr 1
  funext p
  dsimp only
  rw [Nat.mul_comm (p.1 / n), Nat.div_add_mod]

theorem spread_get {br n p : Nat} (G : Nat → Nat → α) (hp : p < n * n) :
    (spread br n G)[p]? = some (((source br n p).map fun q => G q.1 q.2).getD Arith.zero) := by
  unfold spread
  rw [Array.getElem?_ofFn, dif_pos hp]

theorem spread_size (br n : Nat) (G : Nat → Nat → α) : (spread br n G).size = n * n := by
  simp [spread]

theorem spread_exact {br n : Nat} (h : HalvesTo br n) (G : Nat → Nat → α) :
    spread br n G = rect n n G := by
  unfold spread rect
  congr 1
  funext p
  rw [source_exact h p.2]
  rfl

/-- If all leaves return the blocks of `G`, the recursion returns what `source` says. -/
theorem distribute_spread {mult : Nat → Nat → Nat → M (Array α)} {br X Y : Nat}
    {G : Nat → Nat → α} (n : Nat)
    (hm : ∀ x y, x + leafSize br n ≤ X → y + leafSize br n ≤ Y →
      mult x y (leafSize br n) = .ok (rect (leafSize br n) (leafSize br n)
        fun i j => G (x + i) (y + j))) :
    ∀ x y, x + extent br n ≤ X → y + extent br n ≤ Y →
      distribute_recursively mult br x y n =
        (pure (spread br n fun i j => G (x + i) (y + j)) : ND _) := by
  induction n using Nat.strongRecOn with
  | ind n ih =>
    intro x y hx hy
    rcases Nat.lt_or_ge br n with h | h
    · rw [extent_gt h] at hx hy
      rw [leafSize_gt h] at hm
      have ih := ih (n / 2) (by omega) hm
      rw [distribute_step h, ih x y (by omega) (by omega), ih (x + n / 2) y (by omega) (by omega),
        ih x (y + n / 2) (by omega) (by omega), ih (x + n / 2) (y + n / 2) (by omega) (by omega)]
      simp only [ND.pure_bind']
      generalize hh : n / 2 = k at *
      let W : Nat → Nat → α := fun r c => ((source br k (r % k * k + c % k)).map fun q =>
        G (x + (r / k * k + q.1)) (y + (c / k * k + q.2))).getD Arith.zero
      have key : ∀ u v, spread br k (fun i j => G (x + u * k + i) (y + v * k + j)) =
          rect k k fun i j => W (u * k + i) (v * k + j) := by
        intro u v
        rw [spread_eq_rect]
        refine rect_congr fun i hi j hj => ?_
        simp only [W, idx_mod hi, idx_mod hj, idx_div hi, idx_div hj, Nat.add_assoc]
      have k0 := key 0 0
      have k1 := key 1 0
      have k2 := key 0 1
      have k3 := key 1 1
      simp only [Nat.zero_mul, Nat.one_mul, Nat.add_zero, Nat.zero_add] at k0 k1 k2 k3
      rw [k0, k1, k2, k3, (quad_does (by omega) (rect_size ..) (rect_size ..) (rect_size ..)
        (rect_size ..)).runOn]
      congr 1
      apply Array.ext_getElem?
      intro p
      rw [applyA_get]
      rcases Nat.lt_or_ge p (n * n) with hp | hp
      · rw [spread_get _ hp, zeros, Array.getElem?_replicate, if_pos hp, Option.map_some]
        congr 1
        rcases Nat.lt_or_ge p (2 * k * (2 * k)) with hp2 | hp2
        · have h2 : 0 < 2 * k := by
            rcases Nat.eq_zero_or_pos (2 * k) with h0 | h0
            · rw [h0] at hp2; omega
            · exact h0
          have hr : p / (2 * k) < 2 * k := Nat.div_lt_of_lt_mul hp2
          have hc := Nat.mod_lt p h2
          have hpe : p = p / (2 * k) * (2 * k) + p % (2 * k) := by
            rw [Nat.mul_comm]; exact (Nat.div_add_mod p _).symm
          generalize p / (2 * k) = r at *
          generalize p % (2 * k) = c at *
          subst hpe
          rw [quad_cell hr hc]
          have hs := source_gt h (r := r) (c := c) (by rw [hh]; exact hr) (by rw [hh]; exact hc)
          rw [hh] at hs
          rw [hs, Option.map_map]
          rfl
        · rw [cellFold_none, source_none h (by rw [hh]; exact hp2)]
          · rfl
          · intro u hu he
            have := quadUpd_pos hu
            omega
      · rw [Array.getElem?_eq_none (by simpa using hp),
          Array.getElem?_eq_none (by rw [spread_size]; exact hp)]
        rfl
    · rw [extent_le h] at hx hy
      rw [leafSize_le h] at hm
      rw [distribute_leaf h, hm x y hx hy, spread_exact (br := br)]
      · rfl
      · exact ⟨0, n, by simp, h, fun d hd => by omega⟩

/-- Leaves that may only fail with `oob`: the recursion may only fail with `oob`. -/
theorem distribute_errs_of {mult : Nat → Nat → Nat → M (Array α)} {br X Y : Nat}
    (hsz : ∀ x y bs C, mult x y bs = .ok C → C.size = bs * bs) (n : Nat)
    (hm : ∀ x y, x + leafSize br n ≤ X → y + leafSize br n ≤ Y →
      MErrs (· = .oob) (mult x y (leafSize br n))) :
    ∀ x y, x + extent br n ≤ X → y + extent br n ≤ Y →
    (distribute_recursively mult br x y n).All (fun C => C.size = n * n) (· = .oob) := by
  induction n using Nat.strongRecOn with
  | ind n ih =>
    intro x y hx hy
    rcases Nat.lt_or_ge br n with h | h
    · rw [extent_gt h] at hx hy
      rw [leafSize_gt h] at hm
      have ih := ih (n / 2) (by omega) hm
      rw [distribute_step h]
      refine (ih _ _ (by omega) (by omega)).bind fun s0 h0 =>
        (ih _ _ (by omega) (by omega)).bind fun s1 h1 =>
        (ih _ _ (by omega) (by omega)).bind fun s2 h2 =>
        (ih _ _ (by omega) (by omega)).bind fun s3 h3 => ?_
      rw [(quad_does (by omega) h0 h1 h2 h3).runOn (zeros (n * n))]
      exact ND.All.pure (by simp)
    · rw [extent_le h] at hx hy
      rw [leafSize_le h] at hm
      rw [distribute_leaf h]
      exact ND.All.ofM (fun C hC => hsz x y n C hC) (hm x y hx hy)

/-- If the last leaf fails, so does the recursion. -/
theorem distribute_last {mult : Nat → Nat → Nat → M (Array α)} {br X Y : Nat}
    (hsz : ∀ x y bs C, mult x y bs = .ok C → C.size = bs * bs) (n : Nat)
    (hm : ∀ x y, x + leafSize br n ≤ X → y + leafSize br n ≤ Y →
      MErrs (· = .oob) (mult x y (leafSize br n)))
    (hst : ∀ x y, x + leafSize br n = X → y + leafSize br n = Y →
      mult x y (leafSize br n) = .error .oob) :
    ∀ x y, x + extent br n = X → y + extent br n = Y →
    (distribute_recursively mult br x y n).All (fun _ => False) (· = .oob) := by
  induction n using Nat.strongRecOn with
  | ind n ih =>
    intro x y hx hy
    rcases Nat.lt_or_ge br n with h | h
    · rw [extent_gt h] at hx hy
      rw [leafSize_gt h] at hm hst
      have ih := ih (n / 2) (by omega) hm hst
      have he := distribute_errs_of hsz (n / 2) hm
      rw [distribute_step h]
      exact (he _ _ (by omega) (by omega)).bind fun s0 h0 =>
        (he _ _ (by omega) (by omega)).bind fun s1 h1 =>
        (he _ _ (by omega) (by omega)).bind fun s2 h2 =>
        (ih _ _ (by omega) (by omega)).bind fun s3 h3 => h3.elim
    · rw [extent_le h] at hx hy
      rw [leafSize_le h] at hst
      rw [distribute_leaf h, hst x y hx hy]
      exact ND.All.ofM (fun _ h => by cases h) (MErrs.error rfl)

/-- A program all of whose outcomes are the error `e` fails with `e`. -/
theorem nd_fail_of_all {R : Type} {D : ND R} (h : D.All (fun _ => False) (· = .oob))
    (hex : ∃ o, D o) : D = ND.ofM (.error .oob) := by
  have huniq : ∀ o, D o → o = .error .oob := by
    intro o ho
    rcases h o ho with ⟨_, h, _⟩ | ⟨e', rfl, h⟩
    · exact h.elim
    · rw [h]
  obtain ⟨o, ho⟩ := hex
  funext o'
  refine propext ⟨huniq o', fun h' => ?_⟩
  have h' : o' = .error .oob := h'
  rw [h', ← huniq o ho]
  exact ho

end Verif.Recursive

namespace Verif.StaticImproved
open Verif.Kernel Verif.Recursive
variable {α : Type} [Arith α]

/-- What one repetition leaves in a vector, cell by cell. -/
theorem insert_cells {N : Nat} {ws : List Work} {g : Work → Nat → Nat → α} {C : Array α}
    (hC : C.size = N * N) (hin : ∀ w ∈ ws, w.x + w.N ≤ N ∧ w.y + w.N ≤ N)
    (hap : ws.Pairwise Apart) :
    ∃ C', ND.runOn C (.par ((ws.map fun w => (w, rect w.N w.N (g w))).map
        fun ws => .act (insert_submatrix N ws.2 ws.1))) = (pure C' : ND _) ∧
      C'.size = N * N ∧
      (∀ w ∈ ws, ∀ i, i < w.N → ∀ j, j < w.N →
        C'[(w.x + i) * N + (w.y + j)]? = some (g w i j)) ∧
      ∀ r c, r < N → c < N → (∀ w ∈ ws, ¬ Covers w r c) → C'[r * N + c]? = C[r * N + c]? := by
  rw [List.map_map]
  have hpw : ws.Pairwise fun w w' =>
      ∀ u ∈ insertUpd N (g w) w, ∀ v ∈ insertUpd N (g w') w', u.1 ≠ v.1 := by
    refine List.Pairwise.imp_of_mem ?_ hap
    intro w w' hw hw' h u hu v hv he
    obtain ⟨r, c, h1, h2⟩ := insertUpd_pos hu
    obtain ⟨r', c', h1', h2'⟩ := insertUpd_pos hv
    rw [h2, h2'] at he
    have a := hin w hw
    have a' := hin w' hw'
    obtain ⟨rfl, rfl⟩ := idx_inj (show c < N by unfold Covers at h1; omega)
      (show c' < N by unfold Covers at h1'; omega) he
    exact h r c h1 h1'
  have hdo : Tree.Does false (.par (ws.map ((fun ws : Work × Array α =>
      Tree.act (insert_submatrix N ws.2 ws.1)) ∘
      fun w => (w, rect w.N w.N (g w))))) _ :=
    Tree.Does.par (fun w hw => .act (insert_does (holds_rect w.N w.N _) (hin w hw).1 (hin w hw).2))
      hpw
  rw [hdo.runOn]
  refine ⟨_, rfl, by simpa using hC, fun w hw i hi j hj => ?_, fun r c hr hc hun => ?_⟩
  · have hlt := idx_lt (show w.x + i < N by have := hin w hw; omega)
      (show w.y + j < N by have := hin w hw; omega)
    rw [applyA_get, Array.getElem?_eq_getElem (by omega), Option.map_some]
    obtain ⟨n, hn⟩ := List.getElem?_of_mem hw
    have hmem : ((w.x + i) * N + (w.y + j), fun _ => g w i j) ∈ insertUpd N (g w) w := by
      simp only [insertUpd, List.mem_flatMap, List.mem_range, List.mem_singleton]
      exact ⟨i, hi, j, hj, rfl⟩
    rw [cellFold_flatMap_owner hpw hn ⟨_, hmem, rfl⟩]
    have hc : Covers w (w.x + i) (w.y + j) := by unfold Covers; omega
    have := insertUpd_cell (G := fun r c => g w (r - w.x) (c - w.y)) (hin w hw).2 hc
      (C[(w.x + i) * N + (w.y + j)])
    simp only [Nat.add_sub_cancel_left] at this
    rw [this]
  · have hid : ∀ v : α, cellFold (ws.flatMap fun w => insertUpd N (g w) w) (r * N + c) v = v := by
      intro v
      refine cellFold_none fun u hu he => ?_
      obtain ⟨w, hw, hu⟩ := List.mem_flatMap.1 hu
      obtain ⟨r', c', h1, h2⟩ := insertUpd_pos hu
      rw [h2] at he
      have a := hin w hw
      obtain ⟨rfl, rfl⟩ := idx_inj (show c' < N by unfold Covers at h1; omega) hc he
      exact hun w hw h1
    rw [applyA_get, funext hid]
    simp

/-- All packages succeed or fail with `oob`, one fails: so does computing them. -/
theorem computePackages_stuck {mult : Nat → Nat → Nat → M (Array α)} {br : Nat} {ws : List Work}
    (h : ∀ w ∈ ws, (∃ C, distribute_recursively mult br w.x w.y w.N = (pure C : ND _)) ∨
      distribute_recursively mult br w.x w.y w.N = ND.ofM (.error .oob))
    (hst : ∃ w ∈ ws, distribute_recursively mult br w.x w.y w.N = ND.ofM (.error .oob)) :
    computePackages mult br ws = ND.ofM (.error .oob) := by
  induction ws with
  | nil => obtain ⟨w, hw, _⟩ := hst; cases hw
  | cons w ws ih =>
    rw [computePackages]
    rcases h w (by simp) with ⟨C, hC⟩ | hE
    · rw [hC, ND.pure_bind', ih (fun v hv => h v (by simp [hv])) ?_, ofM_error_bind]
      obtain ⟨v, hv, hv'⟩ := hst
      rcases List.mem_cons.1 hv with rfl | hv
      · rw [hC] at hv'
        have : (ND.ofM (.error .oob) : ND (Array α)) (.ok C) := by rw [← hv']; exact rfl
        cases this
      · exact ⟨v, hv, hv'⟩
    · rw [hE, ofM_error_bind]

end Verif.StaticImproved
