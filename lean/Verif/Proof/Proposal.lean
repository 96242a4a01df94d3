import Verif.Model.Proposal
import Verif.Proof.Combined
import Verif.Proof.MemoryLayout
import Verif.Proof.Util
/-
Helper lemmas about proposal.cpp.
-/
set_option linter.unusedSectionVars false
namespace Verif.Proposal
open Tiled MemoryLayout
variable {α : Type} [Arith α]

theorem valid : blocking.Valid := by
  constructor <;> decide

theorem new_ok {b : Blocking} (h : b.Valid) {N : Nat} {A B : Array α} {f g : Nat → Nat → α}
    (hA : Holds A N N f) (hB : Holds B N N g) :
    new b N A B = .ok ⟨N, X b N, Y b N, K b N, rect (K b N) (X b N) (tr (pad N f)),
      rect (K b N) (Y b N) (pad N g)⟩ := by
  unfold new
  simp only [padOf_eq h.x3, padOf_eq h.y3, padOf_eq h.k3]
  have e1 := fill_ok (N := N) (R := X b N) (C := K b N) (f := f) (pos := fun i j => (i, j))
    (body := fun x k A' => rdAt A (x * N + k) >>= fun v => wrAt A' (x * K b N + k) v)
    (le_padded h.x3) (le_padded h.k3) (fun _ _ h h' => ⟨h, h'⟩) (fun _ _ _ _ => rfl)
    (fun i hi j hj => MDoes.read (hA.rdAt hi hj) MDoes.wrAt)
  have e2 := fill_ok (N := N) (R := K b N) (C := Y b N) (f := g) (pos := fun i j => (j, i))
    (body := fun y k B' => rdAt B (k * N + y) >>= fun v => wrAt B' (k * Y b N + y) v)
    (le_padded h.k3) (le_padded h.y3) (fun _ _ h h' => ⟨h', h⟩) (fun _ _ _ _ => rfl)
    (fun i hi j hj => MDoes.read (hB.rdAt hj hi) MDoes.wrAt)
  rw [Nat.mul_comm (X b N)] at e1
  rw [verify_ok h, M_bind_ok]
  refine (congrArg (fun x => x >>= _) e1).trans ?_
  rw [M_bind_ok, show Util.transpose_rect (ceilDiv N b.L3_K_STEP * b.L3_K_STEP)
    (ceilDiv N b.L3_X * b.L3_X) (rect (X b N) (K b N) (pad N f)) = _ from
    Util.transpose_ok (holds_rect (X b N) (K b N) (pad N f)), M_bind_ok]
  exact (congrArg (fun x => x >>= _) e2).trans rfl

/-- If the constructor completes, the sizes are the padded ones. -/
theorem new_sizes {b : Blocking} (h : b.Valid) {N : Nat} {A B : Array α} {o : Obj α}
    (hn : new b N A B = .ok o) : o.X_size = X b N ∧ o.Y_size = Y b N ∧ o.K_size = K b N := by
  unfold new at hn
  rw [verify_ok h, M_bind_ok] at hn
  obtain ⟨_, _, hn⟩ := bind_ok' hn
  obtain ⟨_, _, hn⟩ := bind_ok' hn
  obtain ⟨_, _, hn⟩ := bind_ok' hn
  injection hn with hn
  rw [← hn]
  exact ⟨padOf_eq h.x3, padOf_eq h.y3, padOf_eq h.k3⟩

theorem copy_short {N : Nat} {A : Array α} {a0 : Array α} {pos : Nat → Nat → Nat}
    {pos' : Nat → Nat → Nat} (hp : ∃ i, i < N ∧ ∃ j, j < N ∧ A.size ≤ pos i j) :
    (forStep 0 N 1 a0 fun x a => forStep 0 N 1 a fun k a =>
      rdAt A (pos x k) >>= fun v => wrAt a (pos' x k) v) = .error .outOfRange := by
  obtain ⟨i, hi, j, hj, hlt⟩ := hp
  have he : MErrs (· = .outOfRange) (forStep 0 N 1 a0 fun x a => forStep 0 N 1 a fun k a =>
      rdAt A (pos x k) >>= fun v => wrAt a (pos' x k) v) := by
    refine MErrs.forStep Nat.one_pos (fun i s => ?_) _
    refine MErrs.forStep Nat.one_pos (fun j s => ?_) _
    exact .bind (.rdAt (by rfl) _ _) fun x => .wrAt (by rfl) _ _ _
  have hn : ∀ r, (forStep 0 N 1 a0 fun x a => forStep 0 N 1 a fun k a =>
      rdAt A (pos x k) >>= fun v => wrAt a (pos' x k) v) ≠ .ok r := by
    intro r
    rw [forStep_eq (by decide), steps_one]
    refine foldlM_not_ok (i0 := i) (List.mem_range.2 hi) (fun s s' => ?_) _ _
    rw [forStep_eq (by decide), steps_one]
    refine foldlM_not_ok (i0 := j) (List.mem_range.2 hj) (fun t t' => ?_) _ _
    rw [rdAt_err hlt]
    nofun
  generalize (forStep 0 N 1 a0 fun x a => forStep 0 N 1 a fun k a =>
      rdAt A (pos x k) >>= fun v => wrAt a (pos' x k) v) = r at he hn
  cases r with
  | ok r => exact absurd rfl (hn r)
  | error e => rw [he e rfl]

theorem short_pos {N : Nat} {A : Array α} (h : A.size < N * N) :
    ∃ i, i < N ∧ ∃ j, j < N ∧ A.size ≤ i * N + j := by
  have hN : 0 < N := Nat.pos_of_ne_zero fun h0 => by rw [h0] at h; omega
  refine ⟨N - 1, by omega, N - 1, by omega, ?_⟩
  have : (N - 1) * N + N = N * N := by rw [← Nat.succ_mul]; congr 1; omega
  omega

theorem new_short {b : Blocking} (h : b.Valid) {N : Nat} {A B : Array α}
    (hs : A.size < N * N ∨ B.size < N * N) : new b N A B = .error .outOfRange := by
  unfold new
  simp only [padOf_eq h.x3, padOf_eq h.y3, padOf_eq h.k3]
  rw [verify_ok h, M_bind_ok]
  by_cases hA : A.size < N * N
  · rw [copy_short (short_pos hA)]
    rfl
  · have hA := Util.vec_holds (v := A) (m := N) (n := N) (by omega)
    have e1 := fill_ok (N := N) (R := X b N) (C := K b N) (pos := fun i j => (i, j))
      (f := fun i j => A.getD (i * N + j) Arith.zero)
      (body := fun x k A' => rdAt A (x * N + k) >>= fun v => wrAt A' (x * K b N + k) v)
      (le_padded h.x3) (le_padded h.k3) (fun _ _ h h' => ⟨h, h'⟩) (fun _ _ _ _ => rfl)
      (fun i hi j hj => MDoes.read (hA.rdAt hi hj) MDoes.wrAt)
    rw [Nat.mul_comm (X b N)] at e1
    refine (congrArg (fun x => x >>= _) e1).trans ?_
    rw [M_bind_ok, show Util.transpose_rect (ceilDiv N b.L3_K_STEP * b.L3_K_STEP)
      (ceilDiv N b.L3_X * b.L3_X) (rect (X b N) (K b N) (pad N _)) = _ from
      Util.transpose_ok (holds_rect (X b N) (K b N) (pad N _)), M_bind_ok]
    obtain ⟨i, hi, j, hj, hlt⟩ := short_pos (hs.resolve_left (by assumption))
    rw [copy_short (pos := fun y k => k * N + y) ⟨j, hj, i, hi, hlt⟩]
    rfl

/-! ### tilings that need not fit -/

variable {t0 t1 s0 s1 : Nat}

theorem pos_two' (h0 : 0 < t0) (h1 : 0 < t1) : Pos #[⟨t0, s0⟩, ⟨t1, s1⟩] := by
  intro d hd
  show 0 < [t0, t1].getD d 0
  match d, hd with
  | 0, _ => exact h0
  | 1, _ => exact h1

theorem join_two {q : List Nat × List Nat}
    (h : q ∈ (coords (num #[⟨t0, s0⟩, ⟨t1, s1⟩])).flatMap fun t =>
      (coords (MemoryLayout.tile #[⟨t0, s0⟩, ⟨t1, s1⟩])).map fun i => (t, i)) :
    ∃ x y, joinIdx [t0, t1] q.1 q.2 = [x, y] ∧ x < s0 / t0 * t0 ∧ y < s1 / t1 * t1 := by
  obtain ⟨ha, hb⟩ := mem_pairs.1 h
  obtain ⟨t, i⟩ := q
  match t, ha, i, hb with
  | [a, b], ⟨ha, hb, _⟩, [c, d], ⟨hc, hd, _⟩ =>
    exact ⟨a * t0 + c, b * t1 + d, rfl, idx_lt ha hc, idx_lt hb hd⟩

theorem dst_two {q : List Nat × List Nat}
    (h : q ∈ (coords (num #[⟨t0, s0⟩, ⟨t1, s1⟩])).flatMap fun t =>
      (coords (MemoryLayout.tile #[⟨t0, s0⟩, ⟨t1, s1⟩])).map fun i => (t, i)) :
    dst #[⟨t0, s0⟩, ⟨t1, s1⟩] q.1 q.2 < s0 * s1 := by
  obtain ⟨ha, hb⟩ := mem_pairs.1 h
  refine Nat.lt_of_lt_of_le (dst_lt ha hb) ?_
  have e : (num #[⟨t0, s0⟩, ⟨t1, s1⟩]).prod * (MemoryLayout.tile #[⟨t0, s0⟩, ⟨t1, s1⟩]).prod =
      (s0 / t0 * t0) * (s1 / t1 * t1) := by
    show [s0 / t0, s1 / t1].prod * [t0, t1].prod = _
    simp only [List.prod_cons, List.prod_nil, Nat.mul_one]
    ac_rfl
  rw [e]
  exact Nat.mul_le_mul (Nat.div_mul_le_self _ _) (Nat.div_mul_le_self _ _)

theorem make_tiled_big (h0 : 0 < t0) (h1 : 0 < t1) {junk junk' : Array Nat} (hj : junk.size = 2)
    (hj' : junk'.size = 2) {org : Array α} (h : s0 * s1 ≤ org.size) :
    ∃ v, make_tiled 2 junk junk' org #[⟨t0, s0⟩, ⟨t1, s1⟩] = .ok v := by
  rw [make_tiled_eq (dim := 2) rfl hj hj' (pos_two' h0 h1)]
  obtain ⟨w, hw, _⟩ := foldlM_wr (org := org) (v := zeros org.size)
    (s := fun q : List Nat × List Nat => src #[⟨t0, s0⟩, ⟨t1, s1⟩] q.1 q.2)
    (d := fun q : List Nat × List Nat => dst #[⟨t0, s0⟩, ⟨t1, s1⟩] q.1 q.2)
    (fun q hq => by
      obtain ⟨x, y, e, hx, hy⟩ := join_two hq
      show flatPos [s0, s1] (joinIdx [t0, t1] q.1 q.2) < _
      rw [e, flatPos_two]
      refine Nat.lt_of_lt_of_le (idx_lt ?_ ?_) h
      · exact Nat.lt_of_lt_of_le hx (Nat.div_mul_le_self _ _)
      · exact Nat.lt_of_lt_of_le hy (Nat.div_mul_le_self _ _))
    (fun q hq => by
      rw [zeros_size]
      exact Nat.lt_of_lt_of_le (dst_two hq) h)
  exact ⟨w, hw⟩

theorem pair_mem {a b c d : Nat} (ha : a < s0 / t0) (hb : b < s1 / t1) (hc : c < t0) (hd : d < t1) :
    ([a, b], [c, d]) ∈ (coords (num #[⟨t0, s0⟩, ⟨t1, s1⟩])).flatMap fun t =>
      (coords (MemoryLayout.tile #[⟨t0, s0⟩, ⟨t1, s1⟩])).map fun i => (t, i) :=
  mem_pairs.2 ⟨⟨ha, hb, trivial⟩, ⟨hc, hd, trivial⟩⟩

theorem make_tiled_empty (h0 : 0 < t0) (h1 : 0 < t1) (hs0 : 0 < s0 / t0) (hs1 : 0 < s1 / t1)
    {junk junk' : Array Nat} (hj : junk.size = 2) (hj' : junk'.size = 2) :
    make_tiled 2 junk junk' (#[] : Array α) #[⟨t0, s0⟩, ⟨t1, s1⟩] = .error .oob := by
  rw [make_tiled_eq (dim := 2) rfl hj hj' (pos_two' h0 h1)]
  have hm := pair_mem hs0 hs1 h0 h1
  generalize ((coords (num #[⟨t0, s0⟩, ⟨t1, s1⟩])).flatMap fun t =>
      (coords (MemoryLayout.tile #[⟨t0, s0⟩, ⟨t1, s1⟩])).map fun i => (t, i)) = l at hm
  cases l with
  | nil => cases hm
  | cons q l =>
    rw [List.foldlM_cons, rd_oob (by simp)]
    rfl

theorem undo_big (h0 : 0 < t0) (h1 : 0 < t1) {junk junk' : Array Nat} (hj : junk.size = 2)
    (hj' : junk'.size = 2) {tiled : Array α} (h : s0 * s1 ≤ tiled.size)
    (h' : (s0 / t0 * t0 - 1) * s0 + s1 / t1 * t1 ≤ tiled.size) :
    undo_tiling junk junk' tiled #[⟨t0, s0⟩, ⟨t1, s1⟩] = .error .noReturn := by
  unfold undo_tiling
  rw [undo_eq rfl hj hj' (pos_two' h0 h1)]
  obtain ⟨w, hw, _⟩ := foldlM_wr (org := tiled) (v := zeros tiled.size)
    (s := fun q : List Nat × List Nat => dst #[⟨t0, s0⟩, ⟨t1, s1⟩] q.1 q.2)
    (d := fun q : List Nat × List Nat => undst #[⟨t0, s0⟩, ⟨t1, s1⟩] q.1 q.2)
    (fun q hq => Nat.lt_of_lt_of_le (dst_two hq) h)
    (fun q hq => by
      obtain ⟨x, y, e, hx, hy⟩ := join_two hq
      show flatBad [s0, s1] (joinIdx [t0, t1] q.1 q.2) < _
      rw [e, flatBad_two, zeros_size]
      have : x * s0 ≤ (s0 / t0 * t0 - 1) * s0 := Nat.mul_le_mul_right _ (by omega)
      omega)
  exact (congrArg (fun x => x >>= _) hw).trans rfl

theorem undo_small (h0 : 0 < t0) (h1 : 0 < t1) (hs0 : 0 < s0 / t0) (hs1 : 0 < s1 / t1)
    {junk junk' : Array Nat} (hj : junk.size = 2) (hj' : junk'.size = 2) {tiled : Array α}
    (h : s0 * s1 ≤ tiled.size) (h' : tiled.size < (s0 / t0 * t0 - 1) * s0 + s1 / t1 * t1) :
    undo_tiling junk junk' tiled #[⟨t0, s0⟩, ⟨t1, s1⟩] = .error .oob := by
  unfold undo_tiling
  rw [undo_eq rfl hj hj' (pos_two' h0 h1)]
  have hm := pair_mem (a := s0 / t0 - 1) (b := s1 / t1 - 1) (c := t0 - 1) (d := t1 - 1)
    (t0 := t0) (t1 := t1) (s0 := s0) (s1 := s1) (by omega) (by omega) (by omega) (by omega)
  have hl : ∀ n t : Nat, 0 < n → 0 < t → (n - 1) * t + (t - 1) = n * t - 1 := by
    intro n t hn ht
    have : (n - 1) * t + t = n * t := by rw [← Nat.succ_mul]; congr 1; omega
    omega
  rw [foldlM_oob (q0 := ([s0 / t0 - 1, s1 / t1 - 1], [t0 - 1, t1 - 1]))
    (fun q hq => Nat.lt_of_lt_of_le (dst_two hq) h) hm]
  · rfl
  · show _ ≤ flatBad [s0, s1] [(s0 / t0 - 1) * t0 + (t0 - 1), (s1 / t1 - 1) * t1 + (t1 - 1)]
    rw [flatBad_two, hl _ _ hs0 h0, hl _ _ hs1 h1, zeros_size]
    have : 0 < s1 / t1 * t1 := Nat.mul_pos hs1 h1
    omega

theorem ceil_one {N L : Nat} (h : 1 ≤ N) (h' : N ≤ L) : ceilDiv N L * L = L := by
  have : ceilDiv N L = 1 := by
    unfold ceilDiv
    rw [Nat.div_eq_iff (by omega)]
    omega
  rw [this, Nat.one_mul]

theorem ceil_two {N L : Nat} (hL : 0 < L) (h : L < N) : 2 * L ≤ ceilDiv N L * L := by
  have : 1 < ceilDiv N L := (lt_ceilDiv hL).2 (by omega)
  exact Nat.mul_le_mul_right _ this

theorem ceil_ge {N L : Nat} (hL : 0 < L) (h : 1 ≤ N) : L ≤ ceilDiv N L * L := by
  have : 0 < ceilDiv N L := (lt_ceilDiv hL).2 (by omega)
  exact Nat.le_mul_of_pos_left _ this

end Verif.Proposal
