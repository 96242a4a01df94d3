import Verif.SpecLayout
import Verif.Core.Mat
/-
Row-major positions.
-/
namespace Verif

theorem InRange.length : ∀ {idx ext : List Nat}, InRange idx ext → idx.length = ext.length
  | [], [], _ => rfl
  | _ :: _, _ :: _, h => by simp [InRange.length h.2]

theorem InRange.get : ∀ {idx ext : List Nat}, InRange idx ext → ∀ d, d < ext.length →
    idx.getD d 0 < ext.getD d 0
  | [], [], _, d, hd => by simp at hd
  | i :: is, n :: ns, h, 0, _ => by simpa using h.1
  | i :: is, n :: ns, h, d + 1, hd => by simpa using h.2.get d (by simpa using hd)

theorem inRange_iff : ∀ {idx ext : List Nat}, InRange idx ext ↔
    idx.length = ext.length ∧ ∀ d, d < ext.length → idx.getD d 0 < ext.getD d 0 := by
  intro idx ext
  refine ⟨fun h => ⟨h.length, h.get⟩, ?_⟩
  induction idx generalizing ext with
  | nil => cases ext with
    | nil => exact fun _ => trivial
    | cons n ns => intro h; simp at h
  | cons i is ih => cases ext with
    | nil => intro h; simp at h
    | cons n ns =>
      rintro ⟨h, h'⟩
      refine ⟨by simpa using h' 0 (by simp), ih ⟨by simpa using h, fun d hd => ?_⟩⟩
      simpa using h' (d + 1) (by simpa using hd)

theorem mem_coords : ∀ {ext c : List Nat}, c ∈ coords ext ↔ InRange c ext
  | [], [] => by simp [coords, InRange]
  | [], _ :: _ => by simp [coords, InRange]
  | n :: ns, [] => by simp [coords, InRange]
  | n :: ns, i :: is => by
    simp only [coords, List.mem_flatMap, List.mem_range, List.mem_map, InRange]
    constructor
    · rintro ⟨i', hi, c, hc, e⟩
      cases e
      exact ⟨hi, mem_coords.1 hc⟩
    · rintro ⟨hi, hc⟩
      exact ⟨i, hi, is, mem_coords.2 hc, rfl⟩

theorem flatPos_lt : ∀ {ext c : List Nat}, InRange c ext → flatPos ext c < ext.prod
  | [], [], _ => by simp [flatPos]
  | n :: ns, i :: is, h => by
    rw [List.prod_cons]
    exact idx_lt h.1 (flatPos_lt h.2)

theorem flatPos_inj : ∀ {ext c c' : List Nat}, InRange c ext → InRange c' ext →
    flatPos ext c = flatPos ext c' → c = c'
  | [], [], [], _, _, _ => rfl
  | n :: ns, i :: is, i' :: is', h, h', e => by
    obtain ⟨e1, e2⟩ := idx_inj (flatPos_lt h.2) (flatPos_lt h'.2) e
    rw [e1, flatPos_inj h.2 h'.2 e2]

theorem coords_map : ∀ ext : List Nat, (coords ext).map (flatPos ext) = List.range ext.prod
  | [] => rfl
  | n :: ns => by
    have ih := coords_map ns
    rw [coords, List.map_flatMap, List.prod_cons]
    have : ∀ i, ((coords ns).map (i :: ·)).map (flatPos (n :: ns)) =
        (List.range ns.prod).map (i * ns.prod + ·) := by
      intro i
      rw [← ih, List.map_map, List.map_map]
      rfl
    simp only [this]
    generalize ns.prod = P
    clear this ih
    induction n with
    | zero => simp
    | succ n ih =>
      rw [List.range_succ, List.flatMap_append, ih, Nat.add_mul, Nat.one_mul, List.range_add]
      simp

theorem coords_nodup (ext : List Nat) : (coords ext).Nodup := by
  have h : ((coords ext).map (flatPos ext)).Nodup := by rw [coords_map]; exact List.nodup_range
  exact (List.pairwise_map.1 h).imp fun hne e => hne (by rw [e])

/-! ### tiles -/

/-- Index of an element of a tile. -/
def joinIdx : (tile t i : List Nat) → List Nat
  | m :: ms, t :: ts, i :: is => (t * m + i) :: joinIdx ms ts is
  | _, _, _ => []

theorem joinIdx_inRange : ∀ {tile n t i : List Nat}, InRange t n → InRange i tile →
    tile.length = n.length → InRange (joinIdx tile t i) (n.zipWith (· * ·) tile)
  | [], [], [], [], _, _, _ => trivial
  | m :: ms, n :: ns, t :: ts, i :: is, h, h', hl =>
    ⟨idx_lt h.1 h'.1, joinIdx_inRange h.2 h'.2 (by simpa using hl)⟩

theorem joinIdx_div : ∀ {tile n t i : List Nat}, InRange t n → InRange i tile →
    tile.length = n.length → (joinIdx tile t i).zipWith (· / ·) tile = t
  | [], [], [], [], _, _, _ => rfl
  | m :: ms, n :: ns, t :: ts, i :: is, h, h', hl => by
    rw [joinIdx, List.zipWith_cons_cons, joinIdx_div h.2 h'.2 (by simpa using hl), idx_div h'.1]

theorem joinIdx_mod : ∀ {tile n t i : List Nat}, InRange t n → InRange i tile →
    tile.length = n.length → (joinIdx tile t i).zipWith (· % ·) tile = i
  | [], [], [], [], _, _, _ => rfl
  | m :: ms, n :: ns, t :: ts, i :: is, h, h', hl => by
    rw [joinIdx, List.zipWith_cons_cons, joinIdx_mod h.2 h'.2 (by simpa using hl), idx_mod h'.1]

theorem joinIdx_divMod : ∀ {tile n c : List Nat}, InRange c (n.zipWith (· * ·) tile) →
    tile.length = n.length →
    InRange (c.zipWith (· / ·) tile) n ∧ InRange (c.zipWith (· % ·) tile) tile ∧
      joinIdx tile (c.zipWith (· / ·) tile) (c.zipWith (· % ·) tile) = c
  | [], [], [], _, _ => ⟨trivial, trivial, rfl⟩
  | m :: ms, n :: ns, c :: cs, h, hl => by
    obtain ⟨h1, h2, h3⟩ := joinIdx_divMod h.2 (by simpa using hl)
    have hc : c < n * m := h.1
    have hm : 0 < m := Nat.pos_of_ne_zero fun e => by subst e; simp at hc
    refine ⟨⟨Nat.div_lt_of_lt_mul (Nat.mul_comm n m ▸ hc), h1⟩, ⟨Nat.mod_lt _ hm, h2⟩, ?_⟩
    show (c / m * m + c % m) :: joinIdx ms _ _ = c :: cs
    rw [h3, Nat.div_add_mod']

theorem Fits.length : ∀ {tile ext : List Nat}, Fits tile ext → tile.length = ext.length
  | [], [], _ => rfl
  | _ :: _, _ :: _, h => by simp [Fits.length h.2]

theorem Fits.get : ∀ {tile ext : List Nat}, Fits tile ext → ∀ d, d < tile.length →
    0 < tile.getD d 0 ∧ tile.getD d 0 ∣ ext.getD d 0
  | [], [], _, d, hd => by simp at hd
  | m :: ms, n :: ns, h, 0, _ => by simpa using h.1
  | m :: ms, n :: ns, h, d + 1, hd => by simpa using Fits.get h.2 d (by simpa using hd)

theorem zipWith_mul_div : ∀ {ext tile : List Nat}, ext.length = tile.length →
    (∀ d, d < tile.length → tile.getD d 0 ∣ ext.getD d 0) →
    (ext.zipWith (· / ·) tile).zipWith (· * ·) tile = ext
  | [], [], _, _ => rfl
  | e :: es, m :: ms, hl, h => by
    rw [List.zipWith_cons_cons, List.zipWith_cons_cons,
      zipWith_mul_div (by simpa using hl) fun d hd => by
        simpa using h (d + 1) (by simpa using hd),
      Nat.div_mul_cancel (by simpa using h 0 (by simp))]

theorem prod_zipWith_mul : ∀ {a b : List Nat}, a.length = b.length →
    (a.zipWith (· * ·) b).prod = a.prod * b.prod
  | [], [], _ => rfl
  | a :: as, b :: bs, h => by
    rw [List.zipWith_cons_cons, List.prod_cons, List.prod_cons, List.prod_cons,
      prod_zipWith_mul (by simpa using h)]
    ac_rfl

end Verif
