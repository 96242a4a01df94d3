import Verif.Model.Allocator
import Verif.Core.Loop
import Mathlib.Data.Nat.Bitwise
/-
Properties C53, C63: aligned storage.
-/
namespace Verif.Props
open Verif.Allocator

theorem le_ceilDiv_mul (n : Nat) {d : Nat} (hd : 0 < d) : n ≤ ceilDiv n d * d := by
  by_contra h
  have := (lt_ceilDiv (t := ceilDiv n d) (n := n) hd).2 (by omega)
  omega

theorem ceilDiv_mul_lt (n : Nat) {d : Nat} (hd : 0 < d) : ceilDiv n d * d < n + d := by
  unfold ceilDiv
  have := Nat.div_mul_le_self (n + d - 1) d
  omega

theorem ceilDiv_mul_le {n d x : Nat} (hd : 0 < d) (hx : d ∣ x) (hn : n ≤ x) :
    ceilDiv n d * d ≤ x := by
  obtain ⟨c, rfl⟩ := hx
  have : ceilDiv n d < c + 1 := by
    unfold ceilDiv
    rw [Nat.div_lt_iff_lt_mul hd]
    have : (c + 1) * d = d * c + d := by rw [Nat.add_mul, Nat.mul_comm c, Nat.one_mul]
    omega
  calc ceilDiv n d * d ≤ c * d := Nat.mul_le_mul_right _ (by omega)
    _ = d * c := Nat.mul_comm _ _

/-- **C53.** The first `alloc` for at least one element succeeds for every address returned by
`new[]`: the result is the first multiple of `alignment` in the new block, and all `size`
elements starting there lie inside the block, apart from everything else in use. -/
theorem C53_alloc {sizeofT size alignment base : Nat} {h : Heap} (hs : 0 < size)
    (ha : 0 < alignment) (hf : Fresh h base (sizeofT * size + alignment)) :
    ∃ p s', alloc sizeofT size alignment base Aligned.init h =
        .ok (p, s', (base, sizeofT * size + alignment) :: h) ∧
      alignment ∣ p ∧ base ≤ p ∧ p + sizeofT * size < base + (sizeofT * size + alignment) ∧
      (∀ q, base ≤ q → alignment ∣ q → p ≤ q) ∧ p + sizeofT * size < 2 ^ 64 ∧
      ∀ b ∈ h, p + sizeofT * size ≤ b.1 ∨ b.1 + b.2 ≤ p := by
  have h1 := le_ceilDiv_mul base ha
  have h2 := ceilDiv_mul_lt base ha
  have h3 : sizeofT ≤ sizeofT * size := Nat.le_mul_of_pos_right _ hs
  refine ⟨ceilDiv base alignment * alignment, ⟨some base, some (ceilDiv base alignment * alignment)⟩,
    ?_, Nat.dvd_mul_left _ _, h1, by omega, fun q hq hd => ceilDiv_mul_le ha hd hq,
    by have := hf.fits; omega, fun b hb => ?_⟩
  · unfold alloc std_align
    simp only [Aligned.init, Option.isSome_none, Bool.false_eq_true, if_false]
    rw [if_pos (by omega)]
    rfl
  · rcases hf.disjoint b hb with h | h
    · left; omega
    · right; omega

/-- **C53.** Each object hands out storage at most once: a second `alloc` ends the program. -/
theorem C53_once {sizeofT size alignment base : Nat} {h h' : Heap} {p : Nat} {s s' : Aligned}
    (h1 : alloc sizeofT size alignment base s h = .ok (p, s', h'))
    (sizeofT' size' alignment' base' : Nat) (h'' : Heap) :
    alloc sizeofT' size' alignment' base' s' h'' = .error .terminate := by
  unfold alloc at h1
  split at h1
  · cases h1
  · simp only at h1
    split at h1
    · cases h1
    · cases h1
      rfl

/-- **C53.** For no elements `alloc` still asks `std::align` for room for one element, so it ends
the program whenever the alignment leaves too little room behind the first aligned address. -/
theorem C53_empty {sizeofT alignment base : Nat} {h : Heap} :
    alloc sizeofT 0 alignment base Aligned.init h =
      if ceilDiv base alignment * alignment + sizeofT ≤ base + alignment then
        .ok (ceilDiv base alignment * alignment,
          ⟨some base, some (ceilDiv base alignment * alignment)⟩, (base, alignment) :: h)
      else .error .terminate := by
  unfold alloc std_align
  simp only [Aligned.init, Option.isSome_none, Bool.false_eq_true, if_false, Nat.mul_zero,
    Nat.zero_add]
  by_cases hc : ceilDiv base alignment * alignment + sizeofT ≤ base + alignment
  · simp only [if_pos hc]; rfl
  · simp only [if_neg hc]; rfl

/-- **C53.** The destructor returns exactly the block obtained by `alloc`, so the heap is as
before; without `alloc` it does nothing. -/
theorem C53_destroy {sizeofT size alignment base : Nat} {h h' : Heap} {p : Nat} {s' : Aligned}
    (hf : Fresh h base (sizeofT * size + alignment))
    (h1 : alloc sizeofT size alignment base Aligned.init h = .ok (p, s', h')) :
    s'.destroy h' = .ok h ∧ Aligned.init.destroy h = .ok h := by
  refine ⟨?_, rfl⟩
  unfold alloc at h1
  simp only [Aligned.init, Option.isSome_none, Bool.false_eq_true, if_false] at h1
  split at h1
  · cases h1
  · cases h1
    unfold Aligned.destroy delete
    simp only [List.any_cons, decide_true, Bool.true_or, if_true, List.filter_cons, ne_eq,
      not_true_eq_false, decide_false, Bool.false_eq_true, if_false]
    refine congrArg Except.ok (List.filter_eq_self.2 fun b hb => ?_)
    have := hf.distinct b hb
    simp only [decide_eq_true_eq]
    exact fun h => this h.symm

/-- **C64.** An allocator that was used must not be copied: destroying the object and its copy
deletes the block twice. -/
theorem C64_copy_double_free {sizeofT size alignment base : Nat} {h h' : Heap} {p : Nat}
    {s' : Aligned} (hf : Fresh h base (sizeofT * size + alignment))
    (h1 : alloc sizeofT size alignment base Aligned.init h = .ok (p, s', h')) :
    (s'.copy.destroy h' >>= fun h'' => s'.destroy h'') = .error .badFree := by
  rw [show s'.copy = s' from rfl, (C53_destroy hf h1).1, M_bind_ok]
  unfold alloc at h1
  simp only [Aligned.init, Option.isSome_none, Bool.false_eq_true, if_false] at h1
  split at h1
  · cases h1
  · cases h1
    show delete base h = _
    unfold delete
    rw [if_neg]
    · rfl
    · simp only [List.any_eq_true, not_exists, not_and, decide_eq_true_eq]
      exact fun b hb he => hf.distinct b hb he.symm

theorem and_neg_two_pow {x k : Nat} (hx : x < 2 ^ 64) (hk : k < 64) :
    x &&& (2 ^ 64 - 2 ^ k) = x / 2 ^ k * 2 ^ k := by
  have hp : 2 ^ k < 2 ^ 64 := Nat.pow_lt_pow_right (by decide) hk
  have h1 := Nat.two_pow_pos k
  apply Nat.eq_of_testBit_eq
  intro i
  rw [Nat.testBit_and, show 2 ^ 64 - 2 ^ k = 2 ^ 64 - ((2 ^ k - 1) + 1) by omega,
    Nat.testBit_two_pow_sub_succ (by omega), Nat.testBit_two_pow_sub_one, Nat.testBit_mul_two_pow,
    Nat.testBit_div_two_pow]
  by_cases hi : k ≤ i
  · have e : i - k + k = i := by omega
    by_cases hi' : i < 64
    · simp [hi, hi', e]
    · have : x.testBit i = false :=
        Nat.testBit_lt_two_pow (lt_of_lt_of_le hx (Nat.pow_le_pow_right (by decide) (by omega)))
      simp [hi, e, this]
  · simp [hi]; omega

/-- **C63.** The `align` of the benchmark: for a power of two as alignment and an address that can be
rounded up inside the address space, its bit trick is rounding up to the next multiple; the null
pointer is returned exactly if the padding plus one element exceed `space`. -/
theorem C63_align (k : Nat) (hk : k < 64) (size ptr space : Nat) (hp : ptr + 2 ^ k ≤ 2 ^ 64)
    (hs : size + 2 ^ k ≤ 2 ^ 64) (hsp : space < 2 ^ 64) :
    align (BitVec.ofNat 64 (2 ^ k)) (BitVec.ofNat 64 size) (BitVec.ofNat 64 ptr)
        (BitVec.ofNat 64 space) =
      if space < size + (ceilDiv ptr (2 ^ k) * 2 ^ k - ptr) then none
      else some (BitVec.ofNat 64 (ceilDiv ptr (2 ^ k) * 2 ^ k)) := by
  have hp2 : 2 ^ k < 2 ^ 64 := Nat.pow_lt_pow_right (by decide) hk
  have h1 := Nat.two_pow_pos k
  have h2 := le_ceilDiv_mul ptr h1
  have h3 := ceilDiv_mul_lt ptr h1
  have ha : ((BitVec.ofNat 64 ptr + BitVec.ofNat 64 (2 ^ k) - 1) &&& (-BitVec.ofNat 64 (2 ^ k))) =
      BitVec.ofNat 64 (ceilDiv ptr (2 ^ k) * 2 ^ k) := by
    apply BitVec.eq_of_toNat_eq
    rw [BitVec.toNat_and, BitVec.toNat_neg, BitVec.toNat_sub, BitVec.toNat_add]
    simp only [BitVec.toNat_ofNat]
    rw [Nat.mod_eq_of_lt hp2, Nat.mod_eq_of_lt (a := 2 ^ 64 - 2 ^ k) (by omega),
      Nat.mod_eq_of_lt (a := ceilDiv ptr (2 ^ k) * 2 ^ k) (by omega)]
    have e : (2 ^ 64 - 1 + (ptr % 2 ^ 64 + 2 ^ k) % 2 ^ 64) % 2 ^ 64 = ptr + 2 ^ k - 1 := by
      omega
    rw [show BitVec.toNat (1 : BitVec 64) = 1 from rfl, e]
    rw [and_neg_two_pow (by omega) hk]
    rfl
  unfold align
  simp only [ha]
  have hl : (BitVec.ofNat 64 space < BitVec.ofNat 64 size +
      (BitVec.ofNat 64 (ceilDiv ptr (2 ^ k) * 2 ^ k) - BitVec.ofNat 64 ptr)) ↔
      space < size + (ceilDiv ptr (2 ^ k) * 2 ^ k - ptr) := by
    rw [BitVec.lt_def, BitVec.toNat_add, BitVec.toNat_sub]
    simp only [BitVec.toNat_ofNat]
    omega
  by_cases hc : space < size + (ceilDiv ptr (2 ^ k) * 2 ^ k - ptr)
  · rw [if_pos (hl.2 hc), if_pos hc]
  · rw [if_neg (fun h => hc (hl.1 h)), if_neg hc]

/-- **C63.** The buffers of the benchmark (`new double[n * n + 8]`, aligned to 64 bytes, with the
number of *elements* passed as `space`): from `n = 8` on (the benchmark uses 4096), for every
address returned by `new[]`, the pointer is a multiple of 64 and `n * n` doubles starting there
lie inside the block. -/
theorem C63_benchmark (n base : Nat) (hn : 8 ≤ n) (hb : base + 8 * (n * n + 8) ≤ 2 ^ 64) :
    ∃ p, align 64 8 (BitVec.ofNat 64 base) (BitVec.ofNat 64 (n * n + 8)) =
        some (BitVec.ofNat 64 p) ∧
      64 ∣ p ∧ base ≤ p ∧ p + 8 * (n * n) ≤ base + 8 * (n * n + 8) := by
  have hnn : 8 * 8 ≤ n * n := Nat.mul_le_mul hn hn
  have h := C63_align 6 (by decide) 8 base (n * n + 8) (by omega) (by omega) (by omega)
  have h2 := le_ceilDiv_mul base (d := 64) (by decide)
  have h3 := ceilDiv_mul_lt base (d := 64) (by decide)
  refine ⟨ceilDiv base 64 * 64, ?_, Nat.dvd_mul_left _ _, h2, by omega⟩
  refine Eq.trans h ?_
  rw [if_neg]
  · rfl
  · show ¬ n * n + 8 < 8 + (ceilDiv base 64 * 64 - base)
    omega

/-- **C63.** For a smaller matrix the mixture of elements and bytes shows: with a block that is 8
bytes past a multiple of 64 the function returns the null pointer for every `n < 8`, although
`n * n` doubles would fit. -/
theorem C63_small (n q : Nat) (hn : n < 8) (hq : 64 * q + 8 * (n * n + 8) + 64 ≤ 2 ^ 64) :
    align 64 8 (BitVec.ofNat 64 (64 * q + 8)) (BitVec.ofNat 64 (n * n + 8)) = none := by
  have hnn : n * n ≤ 7 * 7 := Nat.mul_le_mul (by omega) (by omega)
  have h := C63_align 6 (by decide) 8 (64 * q + 8) (n * n + 8) (by omega) (by omega) (by omega)
  refine Eq.trans h ?_
  rw [if_pos]
  show n * n + 8 < 8 + (ceilDiv (64 * q + 8) 64 * 64 - (64 * q + 8))
  unfold ceilDiv
  omega

/-! Non-vacuity. -/
section Examples

/-- three doubles aligned to 32 bytes in a block at address 1000 -/
example : alloc 8 3 32 1000 Aligned.init [] =
    .ok (1024, ⟨some 1000, some 1024⟩, [(1000, 56)]) := rfl

example : Fresh [] 1000 (8 * 3 + 32) := ⟨by decide, by decide, by simp, by simp⟩

/-- no elements, not enough room: the program ends -/
example : alloc 8 0 8 1004 Aligned.init [] = .error .terminate := rfl

example : align 64 8 1000 4096 = some 1024 := by decide

end Examples

end Verif.Props
