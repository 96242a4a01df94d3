import Verif.Proof.Proposal
import Verif.Props.KernelTiled
/-
Algorithm `proposal`: property C47; padding: C40.
-/
namespace Verif.Props
open Verif.Proposal Tiled MemoryLayout
variable {α : Type} [Arith α]

/-- **C40.** The constructor of `proposal`: if it completes, the padded sizes are the smallest
multiples of the L3 block sizes. -/
theorem C40_proposal_padding (b : Blocking) (hb : b.Valid) (N : Nat) (A B : Array α) (o : Obj α)
    (h : Proposal.new b N A B = .ok o) : SmallestMultiple b.L3_X N o.X_size ∧
      SmallestMultiple b.L3_Y N o.Y_size ∧ SmallestMultiple b.L3_K_STEP N o.K_size := by
  obtain ⟨h1, h2, h3⟩ := new_sizes hb h
  rw [h1, h2, h3]
  exact ⟨padded_smallest hb.x3, padded_smallest hb.y3, padded_smallest hb.k3⟩

/-- **C40.** … it completes exactly if both vectors have at least `N * N` elements, and raises
`std::out_of_range` otherwise. -/
theorem C40_proposal_completes (b : Blocking) (hb : b.Valid) (N : Nat) (A B : Array α) :
    (N * N ≤ A.size ∧ N * N ≤ B.size → ∃ o, Proposal.new b N A B = .ok o) ∧
      (¬ (N * N ≤ A.size ∧ N * N ≤ B.size) → Proposal.new b N A B = .error .outOfRange) :=
  ⟨fun h => ⟨_, new_ok hb (Util.vec_holds h.1) (Util.vec_holds h.2)⟩,
    fun h => new_short hb (by omega)⟩

/-- **C40.** The block sizes in proposal.cpp pass `verify_blocking_setup`. -/
theorem C40_proposal_verify : verify_blocking_setup Proposal.blocking = .ok () := verify_ok valid

/-- **C47.** `matrix_multiply` never returns, whatever the state of the object, the block sizes and
the uninitialised memory. -/
theorem C47_never_returns (b : Blocking) (junk : Nat → Array Nat) (o : Obj α) (C : Array α) :
    Proposal.matrix_multiply b junk o ≠ .ok C := by
  intro h
  unfold Proposal.matrix_multiply at h
  obtain ⟨_, _, h⟩ := bind_ok' h
  obtain ⟨_, _, h⟩ := bind_ok' h
  obtain ⟨_, h', _⟩ := bind_ok' h
  unfold undo_tiling at h'
  obtain ⟨_, _, h'⟩ := bind_ok' h'
  cases h'

/-- **C47.** What happens for every size, with the block sizes of proposal.cpp: an access out of
bounds for `N ≤ 256`, the end of `undo_tiling` without return value for larger `N`. -/
theorem C47_outcome (junk : Nat → Array Nat) (hj : ∀ n, (junk n).size = 2) (N : Nat) (A B : Array α)
    (hA : N * N ≤ A.size) (hB : N * N ≤ B.size) :
    Proposal.run Proposal.blocking junk N A B =
      if N ≤ 256 then .error .oob else .error .noReturn := by
  unfold Proposal.run
  rw [new_ok valid (Util.vec_holds hA) (Util.vec_holds hB), M_bind_ok]
  unfold Proposal.matrix_multiply
  simp only
  rcases Nat.eq_zero_or_pos N with rfl | hN
  · rw [if_pos (by omega)]
    have e : (rect (K blocking 0) (X blocking 0)
        (tr (pad 0 fun i j => A.getD (i * 0 + j) Arith.zero)) : Array α) = #[] := by
      apply Array.eq_empty_of_size_eq_zero
      rw [rect_size]
      rfl
    rw [e, make_tiled_empty (by decide) (by decide) (by decide) (by decide) (hj _) (hj _)]
    rfl
  · have hX : 420 ≤ X blocking N := ceil_ge (L := 420) (by omega) hN
    have hK : 256 ≤ K blocking N := ceil_ge (L := 256) (by omega) hN
    have hY : 256 ≤ Y blocking N := ceil_ge (L := 256) (by omega) hN
    have hKX : 256 * 420 ≤ K blocking N * X blocking N := Nat.mul_le_mul hK hX
    have hXY : 420 * 256 ≤ X blocking N * Y blocking N := Nat.mul_le_mul hX hY
    obtain ⟨v, hv⟩ := make_tiled_big (α := α) (t0 := tile_size) (t1 := tile_size)
      (s0 := blocking.L3_X) (s1 := blocking.L3_K_STEP) (by decide) (by decide) (hj 0) (hj 1)
      (org := rect (K blocking N) (X blocking N)
        (tr (pad N fun i j => A.getD (i * N + j) Arith.zero))) (by
          rw [rect_size, Nat.mul_comm]; exact hKX)
    obtain ⟨w, hw⟩ := make_tiled_big (α := α) (t0 := tile_size) (t1 := tile_size)
      (s0 := blocking.L3_Y) (s1 := blocking.L3_K_STEP) (by decide) (by decide) (hj 2) (hj 3)
      (org := rect (K blocking N) (X blocking N)
        (tr (pad N fun i j => A.getD (i * N + j) Arith.zero))) (by
          rw [rect_size]
          exact Nat.le_trans (Nat.mul_le_mul_left _ (by decide)) hKX)
    rw [hv, M_bind_ok, hw, M_bind_ok]
    have hsz : (blocking.L3_X / tile_size * tile_size - 1) * blocking.L3_X +
        blocking.L3_Y / tile_size * tile_size = 161116 := by decide
    split
    · next h =>
      rw [undo_small (by decide) (by decide) (by decide) (by decide) (hj _) (hj _)]
      · rfl
      · rw [zeros_size]; exact hXY
      · rw [zeros_size, hsz]
        have e1 : X blocking N = 420 := ceil_one (L := 420) hN (by omega)
        have e2 : Y blocking N = 256 := ceil_one hN h
        rw [e1, e2]
        decide
    · next h =>
      rw [undo_big (by decide) (by decide) (hj _) (hj _)]
      · rfl
      · rw [zeros_size]; exact hXY
      · rw [zeros_size, hsz]
        have e2 : 2 * 256 ≤ Y blocking N := ceil_two (L := 256) (by omega) (by omega)
        have : 420 * (2 * 256) ≤ X blocking N * Y blocking N := Nat.mul_le_mul hX e2
        omega

/-- **C47.** With vectors that are too short the constructor raises `std::out_of_range`. -/
theorem C47_short (junk : Nat → Array Nat) (N : Nat) (A B : Array α)
    (h : A.size < N * N ∨ B.size < N * N) :
    Proposal.run Proposal.blocking junk N A B = .error .outOfRange := by
  unfold Proposal.run
  rw [new_short valid h]
  rfl

/-- **C47.** Had `undo_tiling` returned any matrix: the value returned would be all zeros. -/
theorem C47_zeros (N Y : Nat) (C_untiled_padded r : Array α)
    (h : Proposal.finish N Y C_untiled_padded = .ok r) : r = zeros (N * N) := by
  unfold Proposal.finish at h
  obtain ⟨v, hv, h⟩ := bind_ok' h
  injection h with h
  have hsz : v.size = N * N := by
    rw [forStep_eq (by decide)] at hv
    refine (foldlM_err (P := fun v : Array α => v.size = N * N) (E := fun _ => True)
      (fun x _ s hs => ⟨fun s' hs' => ?_, fun _ _ => trivial⟩) (zeros_size _)).1 v hv
    rw [forStep_eq (by decide)] at hs'
    refine (foldlM_err (P := fun v : Array α => v.size = N * N) (E := fun _ => True)
      (fun y _ t ht => ⟨fun t' ht' => ?_, fun _ _ => trivial⟩) hs).1 s' hs'
    obtain ⟨c, _, ht'⟩ := bind_ok' ht'
    unfold wr at ht'
    split at ht'
    · injection ht' with ht'
      rw [← ht', Array.size_setIfInBounds, ht]
    · cases ht'
  rw [← h, hsz]

section Examples
attribute [local instance] exact

/-- Vectors and uninitialised arrays as required exist for every size. -/
example (N : Nat) : Proposal.run Proposal.blocking (fun n => #[n, 77]) N
    (rowMajor N fun i j => i + j) (rowMajor N fun i j => i * j) =
      if N ≤ 256 then .error .oob else .error .noReturn :=
  C47_outcome _ (fun _ => rfl) N _ _ (by simp) (by simp)

example : Proposal.run Proposal.blocking (fun _ => #[0, 0]) 2 #[1, 2, 3] #[1, 2, 3, 4] =
    .error .outOfRange := C47_short _ 2 _ _ (.inl (by decide))

example : Proposal.finish 1 1 #[7] = .ok #[0] := rfl

example : ∃ o, Proposal.new Proposal.blocking 2 #[1, 2, 3, 4] #[1, 2, 3, 4] = .ok o :=
  (C40_proposal_completes _ valid 2 _ _).1 ⟨by decide, by decide⟩

end Examples

end Verif.Props
