import Verif.Proof.Kernel
import Verif.Model.Recursive
/-
Helper lemmas about the model of recursive.cpp and single.cpp.
-/
set_option linter.unusedSectionVars false
namespace Verif.Recursive
open Verif.Kernel
variable {α : Type} [Arith α]

/-- Updates made by `extract_submatrix` for the `n × n` matrix `f` at offset `(x,y)`. -/
def extractUpd (n : Nat) (f : Nat → Nat → α) (x y : Nat) : List (Upd α) :=
  (List.range n).flatMap fun i => (List.range n).flatMap fun j =>
    [((x + i) * (2 * n) + (y + j), fun _ => f i j)]

theorem extract_does {nC n x y : Nat} {s : Array α} {f : Nat → Nat → α} (hs : Holds s n n f)
    (h : ∀ i, i < n → ∀ j, j < n → (x + i) * (2 * n) + (y + j) < nC) :
    Act.Does false (extract_submatrix nC s x y n) () (extractUpd n f x y) := by
  unfold extract_submatrix extractUpd
  refine Act.Does.tryCatch ?_ _
  rw [← steps_one]
  refine Act.Does.forStep (by decide) fun i hi => Act.Does.forStep (by decide) fun j hj => ?_
  rw [steps_one, List.mem_range] at hi hj
  exact Act.Does.ofM_bind (hs.rdAt hi hj) (Act.Does.writeAt (h i hi j hj) _)

theorem extractUpd_pos {n x y : Nat} {f : Nat → Nat → α} {u : Upd α}
    (hu : u ∈ extractUpd n f x y) :
    ∃ i j, i < n ∧ j < n ∧ u.1 = (x + i) * (2 * n) + (y + j) := by
  simp only [extractUpd, List.mem_flatMap, List.mem_range, List.mem_singleton] at hu
  obtain ⟨i, hi, j, hj, rfl⟩ := hu
  exact ⟨i, j, hi, hj, rfl⟩

theorem extractUpd_cell {n x y : Nat} {f : Nat → Nat → α} (hy : y + n ≤ 2 * n) {i j : Nat}
    (hi : i < n) (hj : j < n) (v : α) :
    cellFold (extractUpd n f x y) ((x + i) * (2 * n) + (y + j)) v = f i j := by
  unfold extractUpd
  rw [cellFold_flatMap_unique List.nodup_range (List.mem_range.2 hi)]
  · rw [cellFold_flatMap_unique List.nodup_range (List.mem_range.2 hj)]
    · simp
    · intro j' hj' hne u hu
      simp only [List.mem_singleton, List.mem_range] at hu hj'
      subst hu
      intro he
      have := idx_inj (show y + j' < 2 * n by omega) (show y + j < 2 * n by omega) he
      omega
  · intro i' hi' hne u hu he
    simp only [List.mem_flatMap, List.mem_singleton, List.mem_range] at hu
    obtain ⟨j', hj', rfl⟩ := hu
    have := idx_inj (show y + j' < 2 * n by omega) (show y + j < 2 * n by omega) he
    omega

/-- The four quadrants: contents and offset. -/
def quads (n : Nat) (s0 s1 s2 s3 : Array α) : List (Array α × Nat × Nat) :=
  [(s0, 0, 0), (s1, n, 0), (s2, 0, n), (s3, n, n)]

/-- Value of a square matrix vector at `(i,j)`. -/
def entry (n : Nat) (s : Array α) (i j : Nat) : α := (s[i * n + j]?).getD Arith.zero

theorem holds_entry {n : Nat} {s : Array α} (h : s.size = n * n) : Holds s n n (entry n s) := by
  intro i hi j hj
  have := idx_lt hi hj
  simp [entry, Array.getElem?_eq_getElem (show i * n + j < s.size by omega)]

/-- Updates made by the four continuations. -/
def quadUpd (n : Nat) (s0 s1 s2 s3 : Array α) : List (Upd α) :=
  (quads n s0 s1 s2 s3).flatMap fun q => extractUpd n (entry n q.1) q.2.1 q.2.2

theorem quad_pairwise (n : Nat) (s0 s1 s2 s3 : Array α) :
    (quads n s0 s1 s2 s3).Pairwise fun q q' =>
      ∀ u ∈ extractUpd n (entry n q.1) q.2.1 q.2.2,
      ∀ v ∈ extractUpd n (entry n q'.1) q'.2.1 q'.2.2, u.1 ≠ v.1 := by
  have key : ∀ (f g : Nat → Nat → α) (x y x' y' : Nat), x ≤ n → y ≤ n → x' ≤ n → y' ≤ n →
      (x + n ≤ x' ∨ x' + n ≤ x ∨ y + n ≤ y' ∨ y' + n ≤ y) →
      ∀ u ∈ extractUpd n f x y, ∀ v ∈ extractUpd n g x' y', u.1 ≠ v.1 := by
    intro f g x y x' y' hx hy hx' hy' h u hu v hv he
    obtain ⟨i, j, hi, hj, h1⟩ := extractUpd_pos hu
    obtain ⟨i', j', hi', hj', h2⟩ := extractUpd_pos hv
    rw [h1, h2] at he
    have := idx_inj (show y + j < 2 * n by omega) (show y' + j' < 2 * n by omega) he
    omega
  simp only [quads, List.pairwise_cons, List.mem_cons, List.not_mem_nil, or_false,
    forall_eq_or_imp, forall_eq, List.Pairwise.nil, and_true, false_implies, implies_true]
  refine ⟨⟨?_, ?_, ?_⟩, ⟨?_, ?_⟩, ?_⟩ <;> refine key _ _ _ _ _ _ ?_ ?_ ?_ ?_ ?_ <;> omega

theorem quad_does {bs n : Nat} (hn : 2 * n ≤ bs) {s0 s1 s2 s3 : Array α} (h0 : s0.size = n * n)
    (h1 : s1.size = n * n) (h2 : s2.size = n * n) (h3 : s3.size = n * n) :
    Tree.Does false (.par [
        .act (extract_submatrix (bs * bs) s0 0 0 n),
        .act (extract_submatrix (bs * bs) s1 (0 + n) 0 n),
        .act (extract_submatrix (bs * bs) s2 0 (0 + n) n),
        .act (extract_submatrix (bs * bs) s3 (0 + n) (0 + n) n)]) (quadUpd n s0 s1 s2 s3) := by
  have := Tree.Does.par (A := false) (l := quads n s0 s1 s2 s3)
    (f := fun q => .act (extract_submatrix (bs * bs) q.1 q.2.1 q.2.2 n))
    (us := fun q => extractUpd n (entry n q.1) q.2.1 q.2.2) (fun q hq => .act ?_)
    (quad_pairwise n s0 s1 s2 s3)
  · rw [Nat.zero_add]; exact this
  · have hq' : q.1.size = n * n ∧ q.2.1 ≤ n ∧ q.2.2 ≤ n := by
      simp only [quads, List.mem_cons, List.not_mem_nil, or_false] at hq
      rcases hq with rfl | rfl | rfl | rfl <;> simp [*]
    refine extract_does (holds_entry hq'.1) fun i hi j hj => ?_
    have h1 := idx_lt (show q.2.1 + i < 2 * n by omega) (show q.2.2 + j < 2 * n by omega)
    exact Nat.lt_of_lt_of_le h1 (Nat.mul_le_mul hn hn)

/-- The combined matrix, if the four quadrants are blocks of `G`. -/
theorem quad_cell {n : Nat} {G : Nat → Nat → α} {r c : Nat} (hr : r < 2 * n) (hc : c < 2 * n) (v : α) :
    cellFold (quadUpd n (rect n n G) (rect n n fun i j => G (n + i) j)
      (rect n n fun i j => G i (n + j)) (rect n n fun i j => G (n + i) (n + j)))
      (r * (2 * n) + c) v = G r c := by
  have hent : ∀ (f : Nat → Nat → α) i j, i < n → j < n → entry n (rect n n f) i j = f i j := by
    intro f i j hi hj
    simp [entry, holds_rect n n f i hi j hj]
  have key : ∀ (k : Nat) (f : Nat → Nat → α) (x y i j : Nat),
      (quads n (rect n n G) (rect n n fun i j => G (n + i) j)
      (rect n n fun i j => G i (n + j)) (rect n n fun i j => G (n + i) (n + j)))[k]?
        = some (rect n n f, x, y) → y ≤ n → r = x + i → c = y + j → i < n → j < n →
      f i j = G r c →
      cellFold (quadUpd n (rect n n G) (rect n n fun i j => G (n + i) j)
        (rect n n fun i j => G i (n + j)) (rect n n fun i j => G (n + i) (n + j)))
        (r * (2 * n) + c) v = G r c := by
    intro k f x y i j hk hy hr hc hi hj hf
    unfold quadUpd
    subst hr hc
    rw [cellFold_flatMap_owner (quad_pairwise n _ _ _ _) hk]
    · rw [extractUpd_cell (by simp only; omega) hi hj]
      rw [hent f i j hi hj, hf]
    · refine ⟨((x + i) * (2 * n) + (y + j), fun _ => entry n (rect n n f) i j), ?_, rfl⟩
      simp only [extractUpd, List.mem_flatMap, List.mem_range, List.mem_singleton]
      exact ⟨i, hi, j, hj, rfl⟩
  by_cases h1 : r < n <;> by_cases h2 : c < n
  · exact key 0 G 0 0 r c rfl (by omega) (by omega) (by omega) h1 h2 rfl
  · exact key 2 (fun i j => G i (n + j)) 0 n r (c - n) rfl (by omega) (by omega) (by omega) h1
      (by omega) (by rw [show n + (c - n) = c by omega])
  · exact key 1 (fun i j => G (n + i) j) n 0 (r - n) c rfl (by omega) (by omega) (by omega)
      (by omega) h2 (by rw [show n + (r - n) = r by omega])
  · exact key 3 (fun i j => G (n + i) (n + j)) n n (r - n) (c - n) rfl (by omega) (by omega)
      (by omega) (by omega) (by omega)
      (by rw [show n + (r - n) = r by omega, show n + (c - n) = c by omega])

/-- One level of the recursion, in terms of the outcomes of the four children. -/
theorem distribute_step {mult : Nat → Nat → Nat → M (Array α)} {br x y bs : Nat} (h : br < bs) :
    distribute_recursively mult br x y bs = (do
      let s0 ← distribute_recursively mult br x y (bs / 2)
      let s1 ← distribute_recursively mult br (x + bs / 2) y (bs / 2)
      let s2 ← distribute_recursively mult br x (y + bs / 2) (bs / 2)
      let s3 ← distribute_recursively mult br (x + bs / 2) (y + bs / 2) (bs / 2)
      ND.runOn (zeros (bs * bs)) (.par [
        .act (extract_submatrix (bs * bs) s0 0 0 (bs / 2)),
        .act (extract_submatrix (bs * bs) s1 (0 + bs / 2) 0 (bs / 2)),
        .act (extract_submatrix (bs * bs) s2 0 (0 + bs / 2) (bs / 2)),
        .act (extract_submatrix (bs * bs) s3 (0 + bs / 2) (0 + bs / 2) (bs / 2))])) := by
  rw [distribute_recursively, dif_neg (by omega)]
  simp only [Nat.add_zero, Nat.zero_add]

theorem distribute_leaf {mult : Nat → Nat → Nat → M (Array α)} {br x y bs : Nat} (h : bs ≤ br) :
    distribute_recursively mult br x y bs = ND.ofM (mult x y bs) := by
  rw [distribute_recursively, dif_pos h]

/-- If all leaves of size `s` return the blocks of `G`, so does the recursion. -/
theorem distribute_blocks {mult : Nat → Nat → Nat → M (Array α)} {br s N : Nat}
    {G : Nat → Nat → α} (hs : s ≤ br)
    (hm : ∀ x y, x + s ≤ N → y + s ≤ N →
      mult x y s = .ok (rect s s fun i j => G (x + i) (y + j)))
    (e : Nat) (he : ∀ d, d < e → br < 2 ^ (d + 1) * s) :
    ∀ x y, x + 2 ^ e * s ≤ N → y + 2 ^ e * s ≤ N →
      distribute_recursively mult br x y (2 ^ e * s) =
        (pure (rect (2 ^ e * s) (2 ^ e * s) fun i j => G (x + i) (y + j)) : ND _) := by
  induction e with
  | zero =>
    intro x y hx hy
    rw [Nat.pow_zero, Nat.one_mul] at *
    rw [distribute_leaf hs, hm x y hx hy]
    rfl
  | succ e ih =>
    intro x y hx hy
    have hlt := he e (by omega)
    have h2 : 2 ^ (e + 1) * s = 2 * (2 ^ e * s) := by rw [Nat.pow_succ, Nat.mul_comm (2 ^ e) 2, Nat.mul_assoc]
    have ih := ih fun d hd => he d (by omega)
    rw [h2] at hlt hx hy ⊢
    generalize 2 ^ e * s = n at *
    rw [distribute_step hlt]
    have hd : 2 * n / 2 = n := by omega
    rw [hd, ih x y (by omega) (by omega), ih (x + n) y (by omega) (by omega),
      ih x (y + n) (by omega) (by omega), ih (x + n) (y + n) (by omega) (by omega)]
    simp only [ND.pure_bind']
    rw [(quad_does (Nat.le_refl _) (rect_size ..) (rect_size ..) (rect_size ..)
      (rect_size ..)).runOn]
    congr 1
    refine applyA_rect (by simp) (zeros_holds _ _) fun i hi j hj => ?_
    have := quad_cell (n := n) (G := fun i j => G (x + i) (y + j)) hi hj (Arith.zero : α)
    simpa only [Nat.add_assoc] using this

/-- Every normal result has the right length. -/
theorem distribute_size {mult : Nat → Nat → Nat → M (Array α)} {br : Nat}
    (hm : ∀ x y bs C, mult x y bs = .ok C → C.size = bs * bs) (bs : Nat) :
    ∀ x y C, distribute_recursively mult br x y bs (.ok C) → C.size = bs * bs := by
  induction bs using Nat.strongRecOn with
  | ind bs ih =>
    intro x y C hC
    rcases Nat.lt_or_ge br bs with h | h
    · rw [distribute_step h] at hC
      rcases hC with ⟨_, _, h'⟩ | ⟨s0, _, hC⟩; · cases h'
      rcases hC with ⟨_, _, h'⟩ | ⟨s1, _, hC⟩; · cases h'
      rcases hC with ⟨_, _, h'⟩ | ⟨s2, _, hC⟩; · cases h'
      rcases hC with ⟨_, _, h'⟩ | ⟨s3, _, hC⟩; · cases h'
      rcases hC with ⟨_, _, h'⟩ | ⟨c, _, hC⟩; · cases h'
      cases hC
      simp [toArray]
    · rw [distribute_leaf h] at hC
      exact hm x y bs C hC.symm

theorem nd_bind_exists {R S : Type} {x : ND R} {f : R → ND S} (hx : ∃ o, x o)
    (hf : ∀ r, x (.ok r) → ∃ o, f r o) : ∃ o, (x >>= f) o := by
  obtain ⟨o, ho⟩ := hx
  cases o with
  | error e => exact ⟨.error e, .inl ⟨e, ho, rfl⟩⟩
  | ok r =>
    obtain ⟨o', ho'⟩ := hf r ho
    exact ⟨o', .inr ⟨r, ho, ho'⟩⟩

theorem distribute_exists (mult : Nat → Nat → Nat → M (Array α)) (br bs : Nat) :
    ∀ x y, ∃ o, distribute_recursively mult br x y bs o := by
  induction bs using Nat.strongRecOn with
  | ind bs ih =>
    intro x y
    rcases Nat.lt_or_ge br bs with h | h
    · rw [distribute_step h]
      exact nd_bind_exists (ih _ (by omega) _ _) fun _ _ =>
        nd_bind_exists (ih _ (by omega) _ _) fun _ _ =>
        nd_bind_exists (ih _ (by omega) _ _) fun _ _ =>
        nd_bind_exists (ih _ (by omega) _ _) fun _ _ => runOn_exists _ _
    · rw [distribute_leaf h]
      exact ⟨_, rfl⟩

theorem execOn_size {R : Type} {p : Act α R} {a b : Array α} (h : p.execOn a = .ok b) :
    b.size = a.size := by
  unfold Act.execOn at h
  generalize p.exec (Mem.ofArray a) = x at h
  obtain ⟨x1, x2⟩ := x
  cases x1 with
  | ok r => cases h; simp [toArray]
  | error e => cases h

theorem calculate_size {s : Multiplier α} {x y bs : Nat} {C : Array α}
    (h : calculate_submatrix s x y bs = .ok C) : C.size = bs * bs := by
  unfold calculate_submatrix at h
  split at h
  · simpa using execOn_size h
  · split at h
    · simpa using execOn_size h
    · simpa using execOn_size h

theorem quadUpd_pos {n : Nat} {s0 s1 s2 s3 : Array α} {u : Upd α}
    (hu : u ∈ quadUpd n s0 s1 s2 s3) : u.1 < 2 * n * (2 * n) := by
  obtain ⟨q, hq, hu⟩ := List.mem_flatMap.1 hu
  obtain ⟨i, j, hi, hj, h⟩ := extractUpd_pos hu
  have hq' : q.2.1 ≤ n ∧ q.2.2 ≤ n := by
    simp only [quads, List.mem_cons, List.not_mem_nil, or_false] at hq
    rcases hq with rfl | rfl | rfl | rfl <;> simp
  rw [h]
  exact idx_lt (by omega) (by omega)

/-- One level of the recursion never touches the last cell if the size is odd. -/
theorem distribute_odd {mult : Nat → Nat → Nat → M (Array α)} {br x y bs : Nat} (h : br < bs)
    (hodd : bs % 2 = 1) (hm : ∀ x y bs C, mult x y bs = .ok C → C.size = bs * bs) {C : Array α}
    (hC : distribute_recursively mult br x y bs (.ok C)) : C[bs * bs - 1]? = some Arith.zero := by
  rw [distribute_step h] at hC
  rcases hC with ⟨_, _, h'⟩ | ⟨s0, h0, hC⟩; · cases h'
  rcases hC with ⟨_, _, h'⟩ | ⟨s1, h1, hC⟩; · cases h'
  rcases hC with ⟨_, _, h'⟩ | ⟨s2, h2, hC⟩; · cases h'
  rcases hC with ⟨_, _, h'⟩ | ⟨s3, h3, hC⟩; · cases h'
  have h0 := distribute_size hm _ _ _ _ h0
  have h1 := distribute_size hm _ _ _ _ h1
  have h2 := distribute_size hm _ _ _ _ h2
  have h3 := distribute_size hm _ _ _ _ h3
  rw [(quad_does (by omega) h0 h1 h2 h3).runOn] at hC
  cases hC
  have hbs : 0 < bs := by omega
  have hpos : 0 < bs * bs := Nat.mul_pos hbs hbs
  have hz : (zeros (bs * bs) : Array α)[bs * bs - 1]? = some Arith.zero := by
    rw [zeros, Array.getElem?_replicate, if_pos (by omega)]
  rw [applyA_get, hz, Option.map_some, cellFold_none]
  intro u hu
  have h5 := quadUpd_pos hu
  have h6 : 2 * (bs / 2) = bs - 1 := by omega
  rw [h6] at h5
  have h7 : (bs - 1) * (bs - 1) ≤ (bs - 1) * bs := Nat.mul_le_mul_left _ (by omega)
  have h8 : (bs - 1) * bs + bs = bs * bs := by rw [← Nat.succ_mul]; congr 1; omega
  omega

theorem cellFold_const {us : List (Upd α)} {p : Nat} {z : α} (h : ∀ u ∈ us, ∀ x, u.2 x = z) :
    cellFold us p z = z := by
  induction us with
  | nil => rfl
  | cons u us ih =>
    rw [cellFold_cons, h u (by simp), ite_self]
    exact ih fun v hv => h v (by simp [hv])

theorem entry_zeros (n i j : Nat) : entry n (zeros (n * n) : Array α) i j = Arith.zero := by
  unfold entry zeros
  rw [Array.getElem?_replicate]
  split <;> rfl

/-- With `block_result = 0` the recursion ends in empty blocks and returns zeros. -/
theorem distribute_zero {mult : Nat → Nat → Nat → M (Array α)}
    (hm : ∀ x y, mult x y 0 = .ok #[]) (bs : Nat) :
    ∀ x y, distribute_recursively mult 0 x y bs = (pure (zeros (bs * bs)) : ND _) := by
  induction bs using Nat.strongRecOn with
  | ind bs ih =>
    intro x y
    rcases Nat.eq_zero_or_pos bs with rfl | h
    · rw [distribute_leaf (Nat.le_refl 0), hm]; rfl
    · rw [distribute_step h]
      simp only [ih (bs / 2) (by omega), ND.pure_bind']
      rw [(quad_does (by omega) (zeros_size _) (zeros_size _) (zeros_size _)
        (zeros_size _)).runOn]
      congr 1
      apply Array.ext_getElem?
      intro p
      rw [applyA_get]
      unfold zeros
      rw [Array.getElem?_replicate]
      split
      · rw [Option.map_some, cellFold_const]
        intro u hu x
        obtain ⟨q, hq, hu⟩ := List.mem_flatMap.1 hu
        have hq' : q.1 = zeros (bs / 2 * (bs / 2)) := by
          simp only [quads, List.mem_cons, List.not_mem_nil, or_false] at hq
          rcases hq with rfl | rfl | rfl | rfl <;> rfl
        simp only [extractUpd, List.mem_flatMap, List.mem_range, List.mem_singleton, hq'] at hu
        obtain ⟨i, _, j, _, rfl⟩ := hu
        exact entry_zeros _ _ _
      · rfl

theorem calculate_empty (s : Multiplier α) (x y : Nat) :
    calculate_submatrix s x y 0 = .ok #[] := by
  unfold calculate_submatrix
  have h1 : (kernel s.A s.B (zeros (0 * 0) : Array α).size s.N x y 0).execOn (zeros (0 * 0)) = .ok #[] := by
    unfold kernel kernelBody
    rw [forStep_nil (Nat.le_refl _)]
    rfl
  have h2 : (kernel_transposed s.A s.B (zeros (0 * 0) : Array α).size s.N x y 0).execOn (zeros (0 * 0)) = .ok #[] := by
    unfold kernel_transposed
    rw [forStep_nil (Nat.le_refl _)]
    rfl
  split
  · exact h1
  · rw [if_pos (.inr (by omega))]; exact h2

/-- Repeating a program whose result does not depend on the previous one. -/
theorem nd_repeat {R : Type} (D : ND R) (z : R) (r : Nat) (hr : 0 < r) :
    forStep (m := ND) 0 r 1 z (fun _ _ => D) = D := by
  rw [forStep_eq (by decide), steps_one]
  have hD : ∀ n, ∀ z : R, (List.range (n + 1)).foldlM (fun _ _ => D) z = D := by
    intro n
    generalize hl : List.range (n + 1) = l
    have hne : l ≠ [] := by rw [← hl]; simp
    clear hl
    induction l with
    | nil => exact absurd rfl hne
    | cons a l ih =>
      intro z
      rw [List.foldlM_cons]
      cases l with
      | nil =>
        funext o
        apply propext
        constructor
        · rintro (⟨e, h, rfl⟩ | ⟨x, h, ho⟩)
          · exact h
          · cases ho; exact h
        · intro h
          cases o with
          | ok x => exact .inr ⟨x, h, rfl⟩
          | error e => exact .inl ⟨e, h, rfl⟩
      | cons b l =>
        have ih := ih (by simp)
        simp only [ih]
        funext o
        apply propext
        constructor
        · rintro (⟨e, h, rfl⟩ | ⟨x, h, ho⟩)
          · exact h
          · exact ho
        · intro h
          cases o with
          | ok x => exact .inr ⟨x, h, h⟩
          | error e => exact .inl ⟨e, h, rfl⟩
  obtain ⟨n, rfl⟩ : ∃ n, r = n + 1 := ⟨r - 1, by omega⟩
  exact hD n z

end Verif.Recursive
