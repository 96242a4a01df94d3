import Verif.Proof.Size64
import Verif.Props.Naive
import Verif.Props.Util
import Verif.Props.DriverFloat
/-
C100: matrix sizes and `size_t` arithmetic modulo 2^64.
-/
namespace Verif.Props
open Driver
variable {α : Type} [Arith α]

/-! ### up to 2^32 - 1 -/

/-- **C100.** Below 2^32 the reference computes the product, although its index arithmetic is modulo
2^64. -/
theorem C100_naive (N : Nat) (hN : N < 2 ^ 32) (A B : Array α) (a b : Nat → Nat → α)
    (hA : Holds A N N a) (hB : Holds B N N b) :
    Size64.naive_matrix_multiply N A B false =
      ND.pure (rowMajor N fun i j => dot N (a i) (fun k => b k j)) :=
  (Size64.naive_eq hN A B).trans (C01_naive N A B a b hA hB)

/-- **C100.** The same for the reference with transposed second matrix. -/
theorem C100_naive_transposed (N : Nat) (hN : N < 2 ^ 32) (A Bt : Array α) (a b : Nat → Nat → α)
    (hA : Holds A N N a) (hB : Holds Bt N N b) :
    Size64.naive_matrix_multiply N A Bt true =
      ND.pure (rowMajor N fun i j => dot N (a i) (fun k => b j k)) :=
  (Size64.naiveT_eq hN A Bt).trans (C02_naive_transposed N A Bt a b hA hB)

/-- **C100.** The same for the transposition. -/
theorem C100_transpose (N : Nat) (hN : N < 2 ^ 32) (org : Array α) (f : Nat → Nat → α)
    (h : Holds org N N f) : Size64.transpose_matrix N org = .ok (rowMajor N fun i j => f j i) :=
  (Size64.transpose_eq hN org).trans (C48_transpose N org f h)

/-- **C100.** Below 2^32 and for every combination of options, the program has the outcomes it has
with natural numbers. -/
theorem C100_driver (e : Env α) (o : Opts) (hN : o.N < 2 ^ 32) : Size64.main e o = Driver.main e o :=
  Size64.main_eq e o hN

/-- **C100.** So a checked run with admissible options passes. -/
theorem C100_check_passes (e : Env α) (hx : ExactForIdentity e)
    (hcl : ∀ p, e.close (e.rand p) (e.rand p) = true) (o : Opts) (hh : o.help = false)
    (h : Admissible e o) (hN : o.N < 2 ^ 32) :
    Size64.main e o = ND.pure (passed e o (rowMajor o.N (entryA e o.N))) :=
  (C100_driver e o hN).trans (C84_check_passes e hx hcl o hh h)

/-! ### from 2^32 on -/

/-- **C100.** From 2^32 on `N * N` wraps, `C` is too short, and every execution of either reference
raises `std::out_of_range`, whatever is passed. -/
theorem C100_naive_large (N : Nat) (hN : 2 ^ 32 ≤ N) (A B : Array α) (t : Bool) :
    (∃ o, Size64.naive_matrix_multiply N A B t o) ∧
      ∀ o, Size64.naive_matrix_multiply N A B t o → o = .error .outOfRange := by
  refine ⟨runOn_exists _ _, fun o ho => ?_⟩
  have h := Size64.naive_fails hN A B t
  rcases h o ho with ⟨_, hf, _⟩ | ⟨_, rfl, he⟩
  · exact hf.elim
  · exact he

/-- **C100.** From 2^32 on the transposition, which does not check its indices, accesses elements
outside of its vectors. -/
theorem C100_transpose_large (N : Nat) (hN : 2 ^ 32 ≤ N) (org : Array α) :
    Size64.transpose_matrix N org = .error .oob := Size64.transpose_fails hN org

/-- **C100.** From 2^32 on the program always ends with `std::out_of_range`, whichever algorithm and
options are chosen (unless help is requested). -/
theorem C100_driver_large (e : Env α) (o : Opts) (hh : o.help = false) (hN : 2 ^ 32 ≤ o.N) :
    Size64.main e o = ND.fail .outOfRange := Size64.main_fails e o hh hN

/-- **C100.** The bound is sharp: exactly from 2^32 on, the vectors are shorter than the matrix. -/
theorem C100_sharp (N : Nat) : Size64.u64 (N * N) = N * N ↔ N < 2 ^ 32 := by
  refine ⟨fun h => ?_, fun h => Size64.u64_eq (Size64.sq_lt h)⟩
  rcases Nat.lt_or_ge N (2 ^ 32) with h' | h'
  · exact h'
  have h1 : 2 ^ 32 * 2 ^ 32 ≤ N * N := Nat.mul_le_mul h' h'
  have h2 : Size64.u64 (N * N) < 2 ^ 64 := Nat.mod_lt _ (by decide)
  omega

/-! Non-vacuity. -/
section Examples
@[reducible] private def ints : Arith Int := exact Int

private def env : Env Int where
  one := 1
  rand k := 7 * k + 3
  close x y := x == y
  absDiff x y := (x - y).natAbs
  root := true
  localities := 1
  relOk _ _ := true
  junk _ := #[]

private theorem env_exact : @ExactForIdentity Int ints env :=
  @ExactForIdentity.mk Int ints env (fun p => by simp [env, Arith.mac, Arith.zero])
    (fun x y _ _ => by simp [Arith.mac, Arith.zero])
    (fun x _ => by simp [Arith.add, Arith.zero]) (fun x _ => by simp [Arith.add, Arith.zero])

section
attribute [local instance] exact

example : Size64.naive_matrix_multiply 2 #[1, 2, 3, 4] #[5, 6, 7, 8] false = ND.pure #[19, 22, 43, 50] := by
  have hA : Holds #[1, 2, 3, 4] 2 2 (fun i j => 2 * i + j + 1) := by
    have := holds_rect 2 2 (fun i j => 2 * i + j + 1); exact this
  have hB : Holds #[5, 6, 7, 8] 2 2 (fun i j => 2 * i + j + 5) := by
    have := holds_rect 2 2 (fun i j => 2 * i + j + 5); exact this
  rw [C100_naive 2 (by decide) _ _ _ _ hA hB]
  rfl

example : Size64.transpose_matrix 2 #[1, 2, 3, 4] = .ok #[1, 3, 2, 4] := by
  have hA : Holds #[1, 2, 3, 4] 2 2 (fun i j => 2 * i + j + 1) := by
    have := holds_rect 2 2 (fun i j => 2 * i + j + 1); exact this
  rw [C100_transpose 2 (by decide) _ _ hA]
  rfl
end

-- the largest size
example (a b : Nat → Nat → Int) : @Size64.naive_matrix_multiply Int ints 4294967295
    (rowMajor 4294967295 a) (rowMajor 4294967295 b) true =
    ND.pure (rowMajor 4294967295 fun i j => @dot Int ints 4294967295 (a i) (fun k => b j k)) :=
  @C100_naive_transposed Int ints _ (by decide) _ _ a b (holds_rect _ _ a) (holds_rect _ _ b)

example : let _ := ints
    Size64.main env { N := 128, check := true } =
      ND.pure (passed env { N := 128, check := true } (rowMajor 128 (entryA env 128))) :=
  @C100_check_passes Int ints env env_exact (fun p => by simp [env]) _ rfl
    (.single rfl ⟨7, rfl⟩ (by decide) (.inr ⟨1, rfl⟩) (by decide)) (by decide)

-- `N * N` wraps to 0 and to 2^33 + 1
example : Size64.u64 (4294967296 * 4294967296) = 0 ∧
    Size64.u64 (4294967297 * 4294967297) = 8589934593 := by decide

example : let _ := ints
    Size64.main env { N := 4294967296, algorithm := "semi" } = ND.fail .outOfRange :=
  @C100_driver_large Int ints env _ rfl (by decide)

example (org : Array Int) : @Size64.transpose_matrix Int ints 4294967297 org = .error .oob :=
  @C100_transpose_large Int ints _ (by decide) org

end Examples
end Verif.Props
