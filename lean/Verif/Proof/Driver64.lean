import Verif.Model.Driver64
import Verif.Proof.Tiled64
set_option linter.unusedSectionVars false
/-
The driver with arithmetic modulo 2^64 everywhere.
-/
namespace Verif.Size64
open Driver
variable {α : Type} [Arith α]

/-- Options for which no computation with `size_t` wraps around. -/
structure NoWrap (o : Opts) : Prop where
  size : o.N < 2 ^ 31
  result : o.block_result < 2 ^ 31
  input : o.block_input < 2 ^ 31
  blocks : o.algorithm = "looped" →
    o.N / o.block_result * (o.N / o.block_result) * (o.N / o.block_input) < 2 ^ 64
  inside : o.algorithm = "looped" → o.block_result * o.block_result * o.block_input < 2 ^ 64

theorem single_eq {o : Opts} (h : NoWrap o) (A B : Array α) : single o A B = Driver.single o A B := by
  unfold single Driver.single
  refine forStep_congr (fun i _ s => ?_) _
  exact Recursive.distribute_eq h.size (Recursive.mult_eq (s := ⟨o.N, A, B, o.transposed, o.block_input⟩)
    h.size h.input) o.N 0 0 (by omega) (by omega)

theorem dispatch_eq {o : Opts} (h : NoWrap o) (e : Env α) (A B : Array α) :
    dispatch64 e o A B = dispatch e o A B := by
  unfold dispatch64 dispatch
  split
  · rw [single_eq h]
  split
  · rw [StaticImproved.matrix_multiply_eq h.size h.input]
  split
  · split
    · rfl
    · rw [Algorithms.matrix_multiply_eq h.size h.result h.input]
  split
  · rename_i ha
    split
    · rfl
    · rw [Looped.matrix_multiply_eq A B h.size h.result h.input (h.blocks ha) (h.inside ha)]
  split
  · split
    · rfl
    · rw [Semi.matrix_multiply_eq h.size h.input]
  split
  · split
    · rfl
    · rw [Combined.matrix_multiply_eq Tiled.small_combined h.size]
  rfl

theorem lt32 {o : Opts} (h : NoWrap o) : o.N < 2 ^ 32 := by
  have := h.size
  omega

theorem hpx_main_eq {o : Opts} (h : NoWrap o) (e : Env α) : hpx_main64 e o = Driver.hpx_main e o := by
  have h' := lt32 h
  unfold hpx_main64 Driver.hpx_main printB Driver.printB
  simp only [createA_eq h', createB_eq h', print_eq h', printT_eq h', dispatch_eq h]
  rfl

theorem of_bind {R S : Type} {x : ND R} {f : R → ND S} {s : S} (h : (x >>= f) (.ok s)) :
    ∃ r, x (.ok r) ∧ f r (.ok s) := by
  rcases h with ⟨_, _, h⟩ | h
  · exact nomatch h
  · exact h

/-- The options stay what they are. -/
theorem hpx_main_opts {o : Opts} {e : Env α} {g : Globals α} (h : Driver.hpx_main e o (.ok g)) : g.o = o := by
  unfold Driver.hpx_main at h
  split at h
  · obtain rfl := Except.ok.inj h
    rfl
  · obtain ⟨A, -, h⟩ := of_bind h
    obtain ⟨_, -, h⟩ := of_bind h
    obtain ⟨B, -, h⟩ := of_bind h
    obtain ⟨_, -, h⟩ := of_bind h
    obtain ⟨C, -, h⟩ := of_bind h
    rcases C with _ | C
    · obtain rfl := Except.ok.inj h
      rfl
    · obtain ⟨_, -, h⟩ := of_bind h
      obtain rfl := Except.ok.inj h
      rfl

theorem kernels_eq {g : Globals α} (h : g.o.N < 2 ^ 31) : kernels64 g = kernels g := by
  have h' : g.o.N < 2 ^ 32 := by omega
  unfold kernels64 kernels
  simp only [KernelTest.matrix_multiply_eq h, KernelTiled.matrix_multiply_eq Tiled.small_tiled h, print_eq h']

theorem show_diff_eq {o : Opts} (h : o.N < 2 ^ 32) (e : Env α) (C Cref : Array α) :
    show_diff e o C Cref = Driver.show_diff e o C Cref := by
  unfold show_diff Driver.show_diff diff_matrix Driver.diff_matrix
  simp only [print_eq h, u64_eq (sq_lt h)]

theorem check_eq {g : Globals α} (h : g.o.N < 2 ^ 32) (e : Env α) (C : Array α) :
    check64 e g C = check e g C := by
  unfold check64 check compute_ref
  simp only [show_diff_eq h, print_eq h]
  cases ht : g.o.transposed with
  | false => rw [naive_eq h]; rfl
  | true => rw [naiveT_eq h]; rfl

theorem after_hpx_eq {g : Globals α} (h : g.o.N < 2 ^ 31) (e : Env α) : after_hpx64 e g = after_hpx e g := by
  unfold after_hpx64 after_hpx
  simp only [kernels_eq h, check_eq (show g.o.N < 2 ^ 32 by omega)]
  rfl

theorem main64_eq {o : Opts} (h : NoWrap o) (e : Env α) : main64 e o = Driver.main e o := by
  unfold main64 Driver.main
  rw [hpx_main_eq h]
  refine StaticImproved.nd_bind_congr fun g hg => after_hpx_eq ?_ e
  rw [hpx_main_opts hg]
  exact h.size

theorem main64_fails (e : Env α) (o : Opts) (hh : o.help = false) (h : 2 ^ 32 ≤ o.N) :
    main64 e o = ND.fail .outOfRange := by
  unfold main64 hpx_main64
  obtain ⟨A, hA⟩ := createA_ok e o.N
  rw [if_neg (by simp [hh]), hA, ND.ofM_ok, ND.pure_bind']
  rcases printIf_either o.verbose o.N A with hp | hp
  · rw [hp, ND.pure_bind', createB_fails h, show (ND.ofM (.error .outOfRange) : ND (Array α)) =
      ND.fail .outOfRange from rfl, ND.fail_bind, ND.fail_bind]
  · rw [hp, ND.fail_bind, ND.fail_bind]

end Verif.Size64
