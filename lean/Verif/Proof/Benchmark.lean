import Verif.Model.Benchmark
import Verif.Proof.Tiled
import Verif.Props.Allocator
import Verif.Props.OneLocality
import Verif.SpecExperiments
set_option linter.unusedSectionVars false
/-
Lemmas about benchmark.cpp.
-/
namespace Verif.Benchmark
open Experiments
variable {α : Type} [Arith α]

/-! ### filling the matrices -/

theorem foldlM_five {ι σ₁ σ₂ σ₃ σ₄ σ₅ ρ : Type} {mk : σ₁ → σ₂ → σ₃ → σ₄ → σ₅ → ρ} {l : List ι}
    {f₁ : σ₁ → ι → M σ₁} {f₂ : σ₂ → ι → M σ₂} {f₃ : σ₃ → ι → M σ₃} {f₄ : σ₄ → ι → M σ₄}
    {f₅ : σ₅ → ι → M σ₅} {f : ρ → ι → M ρ}
    (h : ∀ i s₁ s₂ s₃ s₄ s₅ r₁ r₂ r₃ r₄ r₅, f₁ s₁ i = .ok r₁ → f₂ s₂ i = .ok r₂ →
      f₃ s₃ i = .ok r₃ → f₄ s₄ i = .ok r₄ → f₅ s₅ i = .ok r₅ →
      f (mk s₁ s₂ s₃ s₄ s₅) i = .ok (mk r₁ r₂ r₃ r₄ r₅)) {s₁ s₂ s₃ s₄ s₅ r₁ r₂ r₃ r₄ r₅}
    (h₁ : l.foldlM f₁ s₁ = .ok r₁) (h₂ : l.foldlM f₂ s₂ = .ok r₂) (h₃ : l.foldlM f₃ s₃ = .ok r₃)
    (h₄ : l.foldlM f₄ s₄ = .ok r₄) (h₅ : l.foldlM f₅ s₅ = .ok r₅) :
    l.foldlM f (mk s₁ s₂ s₃ s₄ s₅) = .ok (mk r₁ r₂ r₃ r₄ r₅) := by
  induction l generalizing s₁ s₂ s₃ s₄ s₅ with
  | nil => cases h₁; cases h₂; cases h₃; cases h₄; cases h₅; rfl
  | cons i l ih =>
    rw [List.foldlM_cons] at h₁ h₂ h₃ h₄ h₅ ⊢
    cases e₁ : f₁ s₁ i with
    | error e => rw [e₁] at h₁; cases h₁
    | ok t₁ =>
    cases e₂ : f₂ s₂ i with
    | error e => rw [e₂] at h₂; cases h₂
    | ok t₂ =>
    cases e₃ : f₃ s₃ i with
    | error e => rw [e₃] at h₃; cases h₃
    | ok t₃ =>
    cases e₄ : f₄ s₄ i with
    | error e => rw [e₄] at h₄; cases h₄
    | ok t₄ =>
    cases e₅ : f₅ s₅ i with
    | error e => rw [e₅] at h₅; cases h₅
    | ok t₅ =>
      rw [e₁] at h₁; rw [e₂] at h₂; rw [e₃] at h₃; rw [e₄] at h₄; rw [e₅] at h₅
      rw [h i _ _ _ _ _ _ _ _ _ _ e₁ e₂ e₃ e₄ e₅]
      exact ih h₁ h₂ h₃ h₄ h₅

/-- Fill an `n × n` matrix with arbitrary contents; `pos` says in which order. -/
theorem fillAny_ok {n : Nat} {body : Nat → Nat → Array α → M (Array α)} {f : Nat → Nat → α}
    {pos : Nat → Nat → Nat × Nat}
    (hpos : ∀ i j, i < n → j < n → (pos i j).1 < n ∧ (pos i j).2 < n)
    (hinv : ∀ i j, i < n → j < n → pos (pos i j).1 (pos i j).2 = (i, j))
    (hb : ∀ i, i < n → ∀ j, j < n →
      MDoes (body i j) [((pos i j).1 * n + (pos i j).2, fun _ => f (pos i j).1 (pos i j).2)])
    {a : Array α} (ha : a.size = n * n) :
    (forStep 0 n 1 a fun i a => forStep 0 n 1 a fun j a => body i j a) = .ok (rect n n f) := by
  have hd := Tiled.nest2_does hb a (fun u hu => by
    obtain ⟨i, hi, j, hj, hu⟩ := Tiled.mem_nest2.1 hu
    rw [List.mem_singleton] at hu
    subst hu
    have := hpos i j hi hj
    rw [ha]
    exact idx_lt (by omega) (by omega))
  refine hd.trans (congrArg Except.ok ?_)
  have hc : Holds a n n fun i j => (a[i * n + j]?).getD Arith.zero := by
    intro i hi j hj
    have := idx_lt hi hj
    simp only [Array.getElem?_eq_getElem (show i * n + j < a.size by omega), Option.getD_some]
  refine applyA_rect ha hc fun i hi j hj => ?_
  have hp := hpos i j hi hj
  rw [Tiled.nest2_cell hp.1 hp.2]
  · simp [hinv i j hi hj]
  · intro i' hi' j' hj' u hu he
    rw [List.mem_singleton] at hu
    subst hu
    have hp' := hpos i' j' hi' hj'
    obtain ⟨e1, e2⟩ := idx_inj (show (pos i' j').2 < n by omega) hj he
    have := hinv i' j' hi' hj'
    rw [e1, e2] at this
    rw [this]; exact ⟨rfl, rfl⟩

/-- The entries of `B`. -/
def delta (e : Env α) (i j : Nat) : α := if i = j then e.one else Arith.zero

theorem fill_ok (e : Env α) (n : Nat) (s : Bufs α) (hA : s.A.size = n * n)
    (hAT : s.ATransposed.size = n * n) (hB : s.B.size = n * n) (hBT : s.BTransposed.size = n * n)
    (hC : s.C.size = n * n) :
    fill e n s = .ok ⟨rect n n fun _ _ => e.two, rect n n fun _ _ => e.two, rect n n (delta e),
      rect n n (delta e), rect n n fun _ _ => Arith.zero⟩ := by
  have hif : ∀ (i j p : Nat), MDoes (wrUnit e i j p)
      [(p, fun _ => delta e i j)] := by
    intro i j p
    unfold delta wrUnit
    split
    · exact MDoes.wr
    · exact MDoes.wr
  have hsym : ∀ i j, delta e j i = delta e i j := fun i j => by unfold delta; simp only [eq_comm]
  have r1 := fillAny_ok (n := n) (pos := fun i j => (i, j)) (f := fun _ _ => e.two)
    (body := fun i j A => wr A (i * n + j) e.two) (fun _ _ h h' => ⟨h, h'⟩) (fun _ _ _ _ => rfl)
    (fun _ _ _ _ => MDoes.wr) hA
  have r2 := fillAny_ok (n := n) (pos := fun i j => (j, i)) (f := fun _ _ => e.two)
    (body := fun i j A => wr A (j * n + i) e.two) (fun _ _ h h' => ⟨h', h⟩) (fun _ _ _ _ => rfl)
    (fun _ _ _ _ => MDoes.wr) hAT
  have r3 := fillAny_ok (n := n) (pos := fun i j => (i, j)) (f := delta e)
    (body := fun i j B => wrUnit e i j (i * n + j) B)
    (fun _ _ h h' => ⟨h, h'⟩) (fun _ _ _ _ => rfl) (fun _ _ _ _ => hif _ _ _) hB
  have r4 := fillAny_ok (n := n) (pos := fun i j => (j, i)) (f := delta e)
    (body := fun i j B => wrUnit e i j (j * n + i) B)
    (fun _ _ h h' => ⟨h', h⟩) (fun _ _ _ _ => rfl) (fun i _ j _ => by
      rw [show delta e ((fun i j => (j, i)) i j).1 ((fun i j => (j, i)) i j).2 = delta e i j from
        hsym i j]
      exact hif _ _ _) hBT
  have r5 := fillAny_ok (n := n) (pos := fun i j => (i, j)) (f := fun _ _ => Arith.zero)
    (body := fun i j C => wr C (i * n + j) Arith.zero) (fun _ _ h h' => ⟨h, h'⟩)
    (fun _ _ _ _ => rfl) (fun _ _ _ _ => MDoes.wr) hC
  unfold fill
  rw [forStep_eq (by decide)] at r1 r2 r3 r4 r5 ⊢
  refine foldlM_five (mk := Bufs.mk) (fun i s₁ s₂ s₃ s₄ s₅ t₁ t₂ t₃ t₄ t₅ h₁ h₂ h₃ h₄ h₅ => ?_)
    r1 r2 r3 r4 r5
  rw [forStep_eq (by decide)] at h₁ h₂ h₃ h₄ h₅ ⊢
  refine foldlM_five (mk := Bufs.mk) (fun j s₁ s₂ s₃ s₄ s₅ t₁ t₂ t₃ t₄ t₅ h₁ h₂ h₃ h₄ h₅ => ?_)
    h₁ h₂ h₃ h₄ h₅
  unfold fillAt
  simp only
  rw [h₁, M_bind_ok, h₂, M_bind_ok, h₃, M_bind_ok, h₄, M_bind_ok, h₅, M_bind_ok]
  rfl

/-! ### the check -/

theorem squares_ok {n : Nat} {C : Array α} {c : Nat → Nat → α} (hC : Holds C n n c) :
    squares n C = .ok ((List.range n).foldl (fun x i => (List.range n).foldl
      (fun x j => Arith.mac x (c i j) (c i j)) x) Arith.zero) := by
  unfold squares
  rw [forStep_eq (by decide), steps_one]
  refine (foldlM_ok (P := fun _ => True) (fun i hi s _ => ⟨?_, trivial⟩) trivial).1
  rw [forStep_eq (by decide), steps_one]
  refine (foldlM_ok (P := fun _ => True) (fun j hj s _ => ⟨?_, trivial⟩) trivial).1
  rw [rd_ok (hC i (List.mem_range.1 hi) j (List.mem_range.1 hj))]
  rfl

/-! ### the pointers -/

theorem pointer_ok (e : Env α) {n b : Nat} (hn : 8 ≤ n) (hb : e.base b + 8 * (n * n + 8) ≤ 2 ^ 64)
    (hs : (e.block b).size = n * n + 8) :
    ∃ p, pointer e n b = .ok p ∧ p / 8 % 4 = 0 ∧ (view e n b p).size = n * n := by
  obtain ⟨p, h, h64, h1, h2⟩ := Props.C63_benchmark n (e.base b) hn hb
  have hnn : 8 * 8 ≤ n * n := Nat.mul_le_mul hn hn
  refine ⟨p, ?_, by omega, ?_⟩
  · unfold pointer
    rw [h]
    show Except.ok (BitVec.ofNat 64 p).toNat = _
    rw [BitVec.toNat_ofNat, Nat.mod_eq_of_lt (by omega)]
  · unfold view
    rw [Array.size_extract, hs]
    omega

/-- The environment of the program: blocks of the requested size inside the address space, automatic
arrays of the declared sizes at addresses divisible by 32. -/
structure Env.Ok (e : Env α) (n : Nat) : Prop where
  base : ∀ b, b < 5 → e.base b + 8 * (n * n + 8) ≤ 2 ^ 64
  block : ∀ b, b < 5 → (e.block b).size = n * n + 8
  stack₁ : (e.stack 128 128).Sized 128 128
  stack₂ : (e.stack 256 256).Sized 256 256
  stack₃ : (e.stack 256 64).Sized 256 64
  oResult : e.oResult % 4 = 0
  oAA : e.oAA % 4 = 0
  oBB : e.oBB % 4 = 0

/-- The matrices after line 60. -/
def filled (e : Env α) (n : Nat) : Bufs α :=
  ⟨rect n n fun _ _ => e.two, rect n n fun _ _ => e.two, rect n n (delta e), rect n n (delta e),
    rect n n fun _ _ => Arith.zero⟩

theorem run_ok (e : Env α) {n : Nat} (hn : 8 ≤ n) (h : e.Ok n) :
    ∃ pA pB pBT pC, pA / 8 % 4 = 0 ∧ pB / 8 % 4 = 0 ∧ pBT / 8 % 4 = 0 ∧ pC / 8 % 4 = 0 ∧
      ∀ argv, run e n argv = select e n (filled e n) pA pB pBT pC argv := by
  obtain ⟨p0, h0, a0, s0⟩ := pointer_ok e hn (h.base 0 (by decide)) (h.block 0 (by decide))
  obtain ⟨p1, h1, a1, s1⟩ := pointer_ok e hn (h.base 1 (by decide)) (h.block 1 (by decide))
  obtain ⟨p2, h2, a2, s2⟩ := pointer_ok e hn (h.base 2 (by decide)) (h.block 2 (by decide))
  obtain ⟨p3, h3, a3, s3⟩ := pointer_ok e hn (h.base 3 (by decide)) (h.block 3 (by decide))
  obtain ⟨p4, h4, a4, s4⟩ := pointer_ok e hn (h.base 4 (by decide)) (h.block 4 (by decide))
  refine ⟨p0, p2, p3, p4, a0, a2, a3, a4, fun argv => ?_⟩
  unfold run
  rw [h0, ND.ofM_ok, ND.pure_bind', h1, ND.ofM_ok, ND.pure_bind', h2, ND.ofM_ok, ND.pure_bind', h3,
    ND.ofM_ok, ND.pure_bind', h4, ND.ofM_ok, ND.pure_bind', fill_ok e n _ s0 s1 s2 s3 s4, ND.ofM_ok,
    ND.pure_bind']
  rfl

/-- The report for a kernel that returns the matrix `c`. -/
def report (e : Env α) (n : Nat) (c : Nat → Nat → α) : Report α :=
  .done (rowMajor n c) (e.sqrt ((List.range n).foldl (fun x i => (List.range n).foldl
    (fun x j => Arith.mac x (c i j) (c i j)) x) Arith.zero))

theorem select_ok {e : Env α} {n : Nat} {s : Bufs α} {pA pB pBT pC : Nat} {prog name : String}
    {rest : List String} {mult : Array α → ND (Array α)} {c : Nat → Nat → α}
    (hk : kernel e n s pA pB pBT pC name = some mult) (hm : mult s.C = ND.pure (rowMajor n c)) :
    select e n s pA pB pBT pC (prog :: name :: rest) = ND.pure (report e n c) := by
  unfold select
  simp only [hk]
  have h1 : (forStep 0 iter 1 s.C fun _ C => mult C) = mult s.C := by
    rw [forStep_eq (by decide)]
    exact Props.bind_pure_nd _
  rw [h1, hm]
  refine (ND.pure_bind _ _).trans ?_
  rw [squares_ok (holds_rect n n c), ND.ofM_ok]
  exact ND.pure_bind _ _

/-! ### sums with at most one term that is not zero -/

theorem fold_once {ι : Type} {z t : α} {l : List ι} {step : α → ι → α} (q : ι → Prop) [DecidablePred q]
    (Q : Prop) [Decidable Q] (hQ : Q ↔ ∃ k ∈ l, q k)
    (hz : ∀ k ∈ l, step z k = if q k then t else z) (ht : ∀ k ∈ l, ¬ q k → step t k = t)
    (hp : l.Pairwise fun a b => ¬ (q a ∧ q b)) :
    l.foldl step z = if Q then t else z := by
  have stay : ∀ l' : List ι, (∀ k ∈ l', k ∈ l ∧ ¬ q k) → l'.foldl step t = t := by
    intro l' h'
    induction l' with
    | nil => rfl
    | cons k l' ih =>
      rw [List.foldl_cons, ht k (h' k (by simp)).1 (h' k (by simp)).2]
      exact ih fun k hk => h' k (by simp [hk])
  induction l generalizing Q with
  | nil => rw [if_neg (by rw [hQ]; simp)]; rfl
  | cons k l ih =>
    rw [List.pairwise_cons] at hp
    rw [List.foldl_cons, hz k (by simp)]
    by_cases hk : q k
    · rw [if_pos hk, if_pos (hQ.2 ⟨k, by simp, hk⟩)]
      exact stay l fun k' hk' => ⟨by simp [hk'], fun hq => hp.1 k' hk' ⟨hk, hq⟩⟩
    · rw [if_neg hk, ih Q (by rw [hQ]; simp [hk]) (fun k hk => hz k (by simp [hk]))
        (fun k hk => ht k (by simp [hk])) hp.2
        fun l' h' => stay l' fun k hk => ⟨by simp [(h' k hk).1], (h' k hk).2⟩]

/-- The few facts about the arithmetic that matter for the matrices of the benchmark; they hold for
IEEE numbers with any rounding, with and without fused operations. -/
structure Env.Laws (e : Env α) : Prop where
  mac_zero_zero : Arith.mac Arith.zero e.two Arith.zero = (Arith.zero : α)
  mac_two_zero : Arith.mac e.two e.two Arith.zero = e.two
  mac_zero_one : Arith.mac Arith.zero e.two e.one = e.two
  add_zero_zero : Arith.add Arith.zero Arith.zero = (Arith.zero : α)
  add_zero_two : Arith.add Arith.zero e.two = e.two
  add_two_zero : Arith.add e.two Arith.zero = e.two

/-- A dot product with a row of the identity matrix. -/
theorem dot_unit {e : Env α} (h : e.Laws) (n : Nat) (g : Nat → α) (q : Nat → Prop) [DecidablePred q]
    (Q : Prop) [Decidable Q] (hQ : Q ↔ ∃ k ∈ List.range n, q k)
    (hg : ∀ k, g k = if q k then e.one else Arith.zero) (hq : ∀ a b, q a → q b → a = b) :
    dot n (fun _ => e.two) g = if Q then e.two else Arith.zero := by
  refine fold_once q Q hQ (step := fun x k => Arith.mac x e.two (g k)) (fun k _ => ?_)
    (fun k _ hk => ?_) ?_
  · rw [hg]
    split
    · exact h.mac_zero_one
    · exact h.mac_zero_zero
  · rw [hg, if_neg hk]
    exact h.mac_two_zero
  · exact List.nodup_range.imp fun hne hab => hne (hq _ _ hab.1 hab.2)

theorem dot_delta {e : Env α} (h : e.Laws) {n j : Nat} (hj : j < n) :
    dot n (fun _ => e.two) (delta e j) = e.two :=
  (dot_unit h n (delta e j) (fun k => j = k) True (by simpa using hj) (fun _ => rfl)
    (fun a b h h' => h.symm.trans h')).trans (if_pos trivial)

theorem dot_delta' {e : Env α} (h : e.Laws) {n j : Nat} (hj : j < n) :
    dot n (fun _ => e.two) (fun k => delta e k j) = e.two :=
  (dot_unit h n (fun k => delta e k j) (fun k => k = j) True (by simpa using hj) (fun _ => rfl)
    (fun a b h h' => h.trans h'.symm)).trans (if_pos trivial)

theorem quarterDot_unit {e : Env α} (h : e.Laws) (m o l j : Nat) (hl : l < 4) :
    quarterDot (4 * m) (fun _ => e.two) (fun k => delta e j (o + k)) l =
      if o ≤ j ∧ j < o + 4 * m ∧ (j - o) % 4 = l then e.two else Arith.zero := by
  refine dot_unit h _ _ (fun t => j = o + (4 * t + l)) _ ?_ (fun _ => rfl) (fun a b h h' => by omega)
  simp only [List.mem_range]
  constructor
  · rintro ⟨h1, h2, h3⟩
    exact ⟨(j - o) / 4, by omega, by omega⟩
  · rintro ⟨t, h1, rfl⟩
    omega

theorem addQuarters_unit {e : Env α} (h : e.Laws) (m o j : Nat) :
    addQuarters (4 * m) (fun _ => e.two) (fun k => delta e j (o + k)) Arith.zero =
      if o ≤ j ∧ j < o + 4 * m then e.two else Arith.zero := by
  refine fold_once (l := List.range 4) (fun l => o ≤ j ∧ j < o + 4 * m ∧ (j - o) % 4 = l) _ ?_
    (step := fun x l =>
      Arith.add x (quarterDot (4 * m) (fun _ => e.two) (fun k => delta e j (o + k)) l))
    (fun l hl => ?_) (fun l hl hq => ?_) ?_
  · simp only [List.mem_range]
    constructor
    · rintro ⟨h1, h2⟩
      exact ⟨(j - o) % 4, by omega, h1, h2, rfl⟩
    · rintro ⟨l, _, h1, h2, _⟩
      exact ⟨h1, h2⟩
  · rw [quarterDot_unit h _ _ _ _ (List.mem_range.1 hl)]
    split
    · exact h.add_zero_two
    · exact h.add_zero_zero
  · rw [quarterDot_unit h _ _ _ _ (List.mem_range.1 hl), if_neg hq]
    exact h.add_two_zero
  · exact List.nodup_range.imp fun hne hab => hne (hab.1.2.2.symm.trans hab.2.2.2)

theorem addQuarters_none {e : Env α} (h : e.Laws) (m o j : Nat) (hj : ¬ (o ≤ j ∧ j < o + 4 * m)) :
    addQuarters (4 * m) (fun _ => e.two) (fun k => delta e j (o + k)) e.two = e.two := by
  have hq : ∀ l, l < 4 → quarterDot (4 * m) (fun _ => e.two) (fun k => delta e j (o + k)) l =
      Arith.zero := fun l hl => by
    rw [quarterDot_unit h _ _ _ _ hl, if_neg fun ht => hj ⟨ht.1, ht.2.1⟩]
  unfold addQuarters
  rw [hq 0 (by decide), hq 1 (by decide), hq 2 (by decide), hq 3 (by decide)]
  simp only [h.add_two_zero]

theorem addQuarters_delta {e : Env α} (h : e.Laws) {n j : Nat} (hn : 4 ∣ n) (hj : j < n) :
    addQuarters n (fun _ => e.two) (delta e j) Arith.zero = e.two := by
  obtain ⟨m, rfl⟩ := hn
  have := addQuarters_unit h m 0 j
  simp only [Nat.zero_add] at this
  exact this.trans (if_pos ⟨Nat.zero_le _, hj⟩)

theorem quarterBlocks_delta {e : Env α} (h : e.Laws) {n m j : Nat} (hm : 0 < m) (hn : 4 * m ∣ n)
    (hj : j < n) :
    quarterBlocksDot n (4 * m) (fun _ => e.two) (delta e j) = e.two := by
  have hq : ∀ t, (t * (4 * m) ≤ j ∧ j < t * (4 * m) + 4 * m) ↔ j / (4 * m) = t := fun t => by
    rw [Nat.div_eq_iff (by omega)]
    omega
  refine (fold_once (l := List.range (n / (4 * m))) (fun t => j / (4 * m) = t) True ?_
    (step := fun x t => addQuarters (4 * m) (fun _ => e.two) (fun k => delta e j (t * (4 * m) + k)) x)
    (fun t _ => ?_) (fun t _ ht => addQuarters_none h _ _ _ ((hq t).not.2 ht))
    (List.nodup_range.imp fun hne hab => hne (hab.1.symm.trans hab.2))).trans (if_pos trivial)
  · simp only [true_iff]
    exact ⟨_, List.mem_range.2 (Nat.div_lt_div_of_lt_of_dvd hn hj), rfl⟩
  · rw [addQuarters_unit h]
    exact if_congr (hq t) rfl rfl

end Verif.Benchmark
