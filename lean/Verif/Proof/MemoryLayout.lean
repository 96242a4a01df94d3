import Verif.Model.MemoryLayout
import Verif.Proof.Layout
import Verif.Core.Errs
/-
Helper lemmas about src/memory_layout.
-/
set_option linter.unusedSectionVars false
namespace Verif.MemoryLayout
variable {α σ : Type}

/-! ### loops -/

/-- A loop nest over `0 ≤ i_d < n_d` makes its calls in row-major order. -/
theorem nest_eq {dim : Nat} {bounds : Nat → M (Nat × Nat × Nat)} {f : Array Nat → σ → M σ} :
    ∀ (rem : Nat) (ns pre : List Nat) (p : Array Nat), rem ≤ dim → ns.length = rem →
      pre.length = dim - rem → p.size = dim → p.toList.take (dim - rem) = pre →
      (∀ d, d < rem → bounds (dim - rem + d) = .ok (0, ns.getD d 0, 1)) →
      ∃ p' : Array Nat, p'.size = dim ∧ p'.toList.take (dim - rem) = pre ∧
        ∀ s, nestLoop dim bounds f rem (p, s) =
          ((coords ns).foldlM (fun s c => f (pre ++ c).toArray s) s >>= fun r => pure (p', r)) := by
  intro rem
  induction rem with
  | zero =>
    intro ns pre p _ hns hpre hp ht _
    obtain rfl := List.eq_nil_of_length_eq_zero hns
    refine ⟨p, hp, ht, fun s => ?_⟩
    have e : (pre ++ []).toArray = p := by
      rw [List.append_nil, ← ht, Nat.sub_zero, List.take_of_length_le (by simp [hp])]
    simp only [coords, List.foldlM_cons, List.foldlM_nil, e]
    unfold nestLoop
    cases f p s <;> rfl
  | succ rem ih =>
    intro ns pre p hr hns hpre hp ht hb
    obtain ⟨n, ns, rfl⟩ : ∃ n ns', ns = n :: ns' := by
      cases ns with
      | nil => simp at hns
      | cons n ns => exact ⟨n, ns, rfl⟩
    have hns : ns.length = rem := by simpa using hns
    have key : ∀ (l : List Nat) (p : Array Nat), p.size = dim →
        p.toList.take (dim - (rem + 1)) = pre →
        ∃ p' : Array Nat, p'.size = dim ∧ p'.toList.take (dim - (rem + 1)) = pre ∧ ∀ s,
          l.foldlM (fun (s : Array Nat × σ) cur => wr s.1 (dim - (rem + 1)) cur >>= fun q =>
            nestLoop dim bounds f rem (q, s.2)) (p, s) =
          ((l.flatMap fun i => (coords ns).map (i :: ·)).foldlM
            (fun s c => f (pre ++ c).toArray s) s >>= fun r => pure (p', r)) := by
      intro l
      induction l with
      | nil => exact fun p hp ht => ⟨p, hp, ht, fun s => rfl⟩
      | cons i l ihl =>
        intro p hp ht
        have hlt : dim - (rem + 1) < p.size := by omega
        have e1 : dim - rem = dim - (rem + 1) + 1 := by omega
        have htake : (p.setIfInBounds (dim - (rem + 1)) i).toList.take (dim - (rem + 1)) = pre := by
          rw [Array.toList_setIfInBounds, List.take_set_of_le (Nat.le_refl _), ht]
        have htake1 : (p.setIfInBounds (dim - (rem + 1)) i).toList.take (dim - rem) =
            pre ++ [i] := by
          rw [e1, List.take_add_one, htake, Array.toList_setIfInBounds]
          simp [hlt]
        obtain ⟨p1, hp1, ht1, h1⟩ := ih ns (pre ++ [i]) (p.setIfInBounds (dim - (rem + 1)) i)
          (by omega) hns (by simp [hpre]; omega) (by simp [hp]) htake1 fun d hd => by
            have := hb (d + 1) (by omega)
            rw [show dim - (rem + 1) + (d + 1) = dim - rem + d by omega] at this
            simpa using this
        have ht1' : p1.toList.take (dim - (rem + 1)) = pre := by
          have := congrArg (List.take (dim - (rem + 1))) ht1
          rw [List.take_take, Nat.min_eq_left (by omega), List.take_append_of_le_length (by omega),
            List.take_of_length_le (l := pre) (by omega)] at this
          exact this
        obtain ⟨p2, hp2, ht2, h2⟩ := ihl p1 hp1 ht1'
        refine ⟨p2, hp2, ht2, fun s => ?_⟩
        rw [List.foldlM_cons]
        show (wr p (dim - (rem + 1)) i >>= fun q => nestLoop dim bounds f rem (q, s)) >>= _ = _
        rw [wr, if_pos hlt, M_bind_ok, h1 s, List.flatMap_cons, List.foldlM_append, List.foldlM_map]
        simp only [List.append_assoc, List.singleton_append]
        cases (coords ns).foldlM (fun s c => f (pre ++ i :: c).toArray s) s with
        | error e => rfl
        | ok r => exact h2 r
    obtain ⟨p', hp', ht', h⟩ := key (List.range n) p hp ht
    refine ⟨p', hp', ht', fun s => ?_⟩
    unfold nestLoop
    have hb0 := hb 0 (by omega)
    rw [Nat.add_zero, List.getD_cons_zero] at hb0
    simp only [hb0, M_bind_ok]
    rw [forStep_eq (by decide), steps_one]
    exact h s

theorem nest_ok {dim : Nat} {bounds : Nat → M (Nat × Nat × Nat)} {f : Array Nat → σ → M σ}
    {ns : List Nat} {junk : Array Nat} (hns : ns.length = dim) (hj : junk.size = dim)
    (hb : ∀ d, d < dim → bounds d = .ok (0, ns.getD d 0, 1)) (s : σ) :
    (nestLoop dim bounds f dim (junk, s) >>= fun r => pure r.2) =
      (coords ns).foldlM (fun s c => f c.toArray s) s := by
  obtain ⟨p', _, _, h⟩ := nest_eq (f := f) dim ns [] junk (Nat.le_refl _) hns (by simp) hj
    (by simp) (by simpa using hb)
  rw [h s]
  simp only [List.nil_append]
  cases (coords ns).foldlM (fun s c => f c.toArray s) s <;> rfl

theorem rd_getD {v : List Nat} {d : Nat} (h : d < v.length) : rd v.toArray d = .ok (v.getD d 0) := by
  apply rd_ok
  simp [h]

theorem loop_nest_ok {dim : Nat} {junk mx : Array Nat} {f : Array Nat → σ → M σ} {ns : List Nat}
    (hns : ns.length = dim) (hj : junk.size = dim) (hmx : mx = ns.toArray) (s : σ) :
    loop_nest dim junk (Array.replicate dim 0) mx (Array.replicate dim 1) f s =
      (coords ns).foldlM (fun s c => f c.toArray s) s := by
  unfold loop_nest
  refine nest_ok hns hj (fun d hd => ?_) s
  rw [rd_ok (v := Array.replicate dim 0) (x := 0) (by simp [hd]),
    rd_ok (v := Array.replicate dim 1) (x := 1) (by simp [hd]), hmx, rd_getD (by omega)]
  rfl

theorem range_loop {σ : Type} {n : Nat} {body : Nat → σ → M σ} {g : σ → Nat → σ} (s : σ)
    (h : ∀ d, d < n → ∀ s, body d s = .ok (g s d)) :
    forStep 0 n 1 s body = .ok ((List.range n).foldl g s) := by
  rw [forStep_ok (by decide) (fun d hd s => h d (List.mem_range.1 (steps_one n ▸ hd)) s) s,
    steps_one]

theorem flatRev_fold : ∀ (e a : List Nat), a.length = e.length → ∀ n, n = e.length →
    (List.range n).foldl (fun (s : Nat × Nat) d =>
      (s.1 + a.getD (n - 1 - d) 0 * s.2, s.2 * e.getD (n - 1 - d) 0)) (0, 1) =
    (flatPos e a, e.prod)
  | [], [], _, n, hn => by subst hn; rfl
  | m :: e, x :: a, h, n, hn => by
    subst hn
    rw [List.length_cons, List.range_succ, List.foldl_append]
    have : (List.range e.length).foldl (fun (s : Nat × Nat) d =>
        (s.1 + (x :: a).getD (e.length + 1 - 1 - d) 0 * s.2,
          s.2 * (m :: e).getD (e.length + 1 - 1 - d) 0)) (0, 1) =
        (List.range e.length).foldl (fun (s : Nat × Nat) d =>
        (s.1 + a.getD (e.length - 1 - d) 0 * s.2, s.2 * e.getD (e.length - 1 - d) 0)) (0, 1) := by
      refine foldl_congr' (fun d hd s => ?_) _
      have hd := List.mem_range.1 hd
      rw [show e.length + 1 - 1 - d = (e.length - 1 - d) + 1 by omega]
      simp
    rw [this, flatRev_fold e a (by simpa using h) _ rfl]
    simp only [List.foldl_cons, List.foldl_nil, Nat.add_sub_cancel, Nat.sub_self,
      List.getD_cons_zero, List.prod_cons, flatPos]
    rw [Nat.add_comm, Nat.mul_comm m]

theorem flatRev_ok {dim : Nat} {index ext : Nat → M Nat} {e a : List Nat} (he : e.length = dim)
    (ha : a.length = dim) (hi : ∀ d, d < dim → index d = .ok (a.getD d 0))
    (hx : ∀ d, d < dim → ext d = .ok (e.getD d 0)) :
    flatRev dim index ext = .ok (flatPos e a) := by
  unfold flatRev
  rw [range_loop (g := fun s d => (s.1 + a.getD (dim - 1 - d) 0 * s.2,
    s.2 * e.getD (dim - 1 - d) 0)) (0, 1) fun d hd s => by
      rw [hi _ (by omega), hx _ (by omega)]; rfl]
  rw [M_bind_ok, flatRev_fold e a (by omega) dim he.symm]
  rfl

/-- Tile sizes and extents. -/
def tile (ti : Array TilingInfo) : List Nat := ti.toList.map (·.tile_size_dir)
def ext (ti : Array TilingInfo) : List Nat := ti.toList.map (·.stride)
/-- Number of tiles. -/
def num (ti : Array TilingInfo) : List Nat := (ext ti).zipWith (· / ·) (tile ti)

@[simp] theorem tile_length (ti : Array TilingInfo) : (tile ti).length = ti.size := by simp [tile]
@[simp] theorem ext_length (ti : Array TilingInfo) : (ext ti).length = ti.size := by simp [ext]
@[simp] theorem num_length (ti : Array TilingInfo) : (num ti).length = ti.size := by simp [num]

theorem rd_ti {ti : Array TilingInfo} {d : Nat} (h : d < ti.size) :
    rd ti d = .ok ⟨(tile ti).getD d 0, (ext ti).getD d 0⟩ := by
  apply rd_ok
  simp [tile, ext, h]

theorem num_getD {ti : Array TilingInfo} {d : Nat} (h : d < ti.size) :
    (num ti).getD d 0 = (ext ti).getD d 0 / (tile ti).getD d 0 := by
  simp [num, List.getD, h, tile, ext]

theorem tilesDir_ok {ti : Array TilingInfo} {d : Nat} (h : d < ti.size)
    (hp : 0 < (tile ti).getD d 0) : tilesDir ti d = .ok ((num ti).getD d 0) := by
  unfold tilesDir
  rw [rd_ti h, M_bind_ok, udiv, if_neg (Nat.pos_iff_ne_zero.1 hp), num_getD h]
  rfl

theorem foldl_mul : ∀ (l : List Nat) (n : Nat), n = l.length → ∀ p,
    (List.range n).foldl (fun p d => p * l.getD d 0) p = p * l.prod
  | [], n, hn, p => by subst hn; simp
  | x :: l, n, hn, p => by
    subst hn
    rw [List.length_cons, List.range_succ_eq_map, List.foldl_cons, List.foldl_map]
    have := foldl_mul l _ rfl (p * x)
    simp only [List.getD_cons_zero, Nat.succ_eq_add_one, List.getD_cons_succ]
    rw [this, List.prod_cons, Nat.mul_assoc]

theorem mulTiles_ok {dim : Nat} {ti : Array TilingInfo} (h : ti.size = dim) (p : Nat) :
    mulTiles dim ti p = .ok (p * (tile ti).prod) := by
  unfold mulTiles
  rw [range_loop (g := fun p d => p * (tile ti).getD d 0) p fun d hd p => by
    rw [rd_ti (by omega)]; rfl]
  rw [foldl_mul _ _ (by simp [h])]

/-- Filling an array entry by entry. -/
theorem fill_loop {dim : Nat} {body : Nat → Array Nat → M (Array Nat)} {l : List Nat}
    (hl : l.length = dim) (h : ∀ d, d < dim → ∀ v, body d v = wr v d (l.getD d 0)) :
    forStep 0 dim 1 (Array.replicate dim 0) body = .ok l.toArray := by
  have key : ∀ n, n ≤ dim → (List.range n).foldlM (fun v d => body d v) (Array.replicate dim 0) =
      Except.ok (l.take n ++ List.replicate (dim - n) 0).toArray := by
    intro n
    induction n with
    | zero => intro _; simp [pure, Except.pure]
    | succ n ih =>
      intro hn
      rw [List.range_succ, List.foldlM_append, ih (by omega), M_bind_ok, List.foldlM_cons,
        h n (by omega), wr, if_pos (by simp; omega), M_bind_ok]
      refine congrArg Except.ok ?_
      have e1 : (l.take n).length = n := by simp; omega
      apply Array.ext'
      have e2 : List.replicate (dim - n) 0 = 0 :: List.replicate (dim - (n + 1)) 0 := by
        rw [show dim - n = (dim - (n + 1)) + 1 by omega, List.replicate_succ]
      rw [Array.toList_setIfInBounds, List.set_append_right _ _ (by omega), e1, Nat.sub_self, e2,
        List.set_cons_zero, List.take_add_one, List.append_assoc]
      have : l[n]? = some (l.getD n 0) := by simp [show n < l.length by omega]
      rw [this]
      rfl
  rw [forStep_eq (by decide), steps_one, key dim (Nat.le_refl _)]
  simp [← hl]

theorem tileSizes_ok {dim : Nat} {ti : Array TilingInfo} (h : ti.size = dim) :
    tileSizes dim ti = .ok (tile ti).toArray :=
  fill_loop (by simp [h]) fun d hd v => by rw [rd_ti (by omega)]; rfl

/-! ### make_tiled -/

/-- A tiling that fits: positive tile sizes. -/
def Pos (ti : Array TilingInfo) : Prop := ∀ d, d < ti.size → 0 < (tile ti).getD d 0

theorem joinIdx_getD : ∀ {m t i : List Nat}, t.length = m.length → i.length = m.length →
    ∀ d, d < m.length → (joinIdx m t i).getD d 0 = t.getD d 0 * m.getD d 0 + i.getD d 0
  | [], [], [], _, _, d, hd => by simp at hd
  | m :: ms, t :: ts, i :: is, h, h', 0, _ => by simp [joinIdx]
  | m :: ms, t :: ts, i :: is, h, h', d + 1, hd => by
    have := joinIdx_getD (m := ms) (t := ts) (i := is) (by simpa using h) (by simpa using h') d
      (by simpa using hd)
    simpa [joinIdx] using this

theorem joinIdx_length : ∀ {m t i : List Nat}, t.length = m.length → i.length = m.length →
    (joinIdx m t i).length = m.length
  | [], [], [], _, _ => rfl
  | m :: ms, t :: ts, i :: is, h, h' => by
    simp [joinIdx, joinIdx_length (m := ms) (t := ts) (i := is) (by simpa using h)
      (by simpa using h')]

/-- Destination and source of one copied element. -/
def dst (ti : Array TilingInfo) (t i : List Nat) : Nat :=
  flatPos (num ti) t * (tile ti).prod + flatPos (tile ti) i
def src (ti : Array TilingInfo) (t i : List Nat) : Nat := flatPos (ext ti) (joinIdx (tile ti) t i)

theorem foldlM_congr {ι : Type} {l : List ι} {f g : σ → ι → M σ} (h : ∀ i ∈ l, ∀ s, f s i = g s i)
    (s : σ) : l.foldlM f s = l.foldlM g s := by
  induction l generalizing s with
  | nil => rfl
  | cons i l ih =>
    rw [List.foldlM_cons, List.foldlM_cons, h i (List.mem_cons_self ..)]
    cases g s i with
    | error e => rfl
    | ok r => exact ih (fun j hj => h j (List.mem_cons_of_mem _ hj)) r

theorem tile_dim_indices_eq {dim : Nat} {ti : Array TilingInfo} (hti : ti.size = dim)
    {junk : Array Nat} (hj : junk.size = dim) (hp : Pos ti) {t : List Nat} (ht : InRange t (num ti))
    (org tiled : Array α) :
    tile_dim_indices dim junk org ti t.toArray tiled =
      (coords (tile ti)).foldlM (fun v i => rd org (src ti t i) >>= fun x => wr v (dst ti t i) x)
        tiled := by
  have hl : t.length = dim := by rw [ht.length]; simp [hti]
  unfold tile_dim_indices
  rw [flatRev_ok (e := num ti) (a := t) (by simp [hti]) hl (fun d hd => rd_getD (by omega))
    (fun d hd => tilesDir_ok (by omega) (hp d (by omega))), M_bind_ok, mulTiles_ok hti, M_bind_ok,
    tileSizes_ok hti, M_bind_ok, loop_nest_ok (by simp [hti]) hj rfl]
  refine foldlM_congr (fun i hi v => ?_) tiled
  have hi := mem_coords.1 hi
  have hil : i.length = dim := by rw [hi.length]; simp [hti]
  rw [flatRev_ok (e := tile ti) (a := i) (by simp [hti]) hil (fun d hd => rd_getD (by omega))
    (fun d hd => by rw [rd_ti (by omega)]; rfl), M_bind_ok,
    flatRev_ok (e := ext ti) (a := joinIdx (tile ti) t i) (by simp [hti])
    (by rw [joinIdx_length] <;> simp [hti, hl, hil]) ?_ (fun d hd => by rw [rd_ti (by omega)]; rfl),
    M_bind_ok]
  · rfl
  · intro d hd
    rw [rd_getD (by omega), rd_ti (by omega), rd_getD (by omega),
      joinIdx_getD (by simp [hti, hl]) (by simp [hti, hil]) d (by simp [hti, hd])]
    rfl

theorem make_tiled_eq [Arith α] {dim : Nat} {ti : Array TilingInfo} (hti : ti.size = dim)
    {junk junk' : Array Nat} (hj : junk.size = dim) (hj' : junk'.size = dim) (hp : Pos ti)
    (org : Array α) :
    make_tiled dim junk junk' org ti =
      ((coords (num ti)).flatMap fun t => (coords (tile ti)).map fun i => (t, i)).foldlM
        (fun v q => rd org (src ti q.1 q.2) >>= fun x => wr v (dst ti q.1 q.2) x)
        (zeros org.size) := by
  unfold make_tiled
  rw [if_neg (by simpa using hti)]
  rw [nest_ok (ns := num ti) (by simp [hti]) hj fun d hd => by
    rw [tilesDir_ok (by omega) (hp d (by omega))]; rfl]
  have : ∀ (l : List (List Nat)), (∀ t ∈ l, InRange t (num ti)) → ∀ v : Array α,
      l.foldlM (fun v c => tile_dim_indices dim junk' org ti c.toArray v) v =
      (l.flatMap fun t => (coords (tile ti)).map fun i => (t, i)).foldlM
        (fun v q => rd org (src ti q.1 q.2) >>= fun x => wr v (dst ti q.1 q.2) x) v := by
    intro l
    induction l with
    | nil => exact fun _ _ => rfl
    | cons t l ih =>
      intro hl v
      rw [List.foldlM_cons, List.flatMap_cons, List.foldlM_append, List.foldlM_map,
        tile_dim_indices_eq hti hj' hp (hl t (List.mem_cons_self ..))]
      cases (coords (tile ti)).foldlM
        (fun v i => rd org (src ti t i) >>= fun x => wr v (dst ti t i) x) v with
      | error e => rfl
      | ok r => exact ih (fun u hu => hl u (List.mem_cons_of_mem _ hu)) r
  exact this _ (fun t ht => mem_coords.1 ht) _

theorem mem_pairs {ti : Array TilingInfo} {q : List Nat × List Nat} :
    q ∈ ((coords (num ti)).flatMap fun t => (coords (tile ti)).map fun i => (t, i)) ↔
      InRange q.1 (num ti) ∧ InRange q.2 (tile ti) := by
  obtain ⟨t, i⟩ := q
  simp only [List.mem_flatMap, List.mem_map, mem_coords, Prod.mk.injEq]
  constructor
  · rintro ⟨t', ht, i', hi, rfl, rfl⟩; exact ⟨ht, hi⟩
  · rintro ⟨ht, hi⟩; exact ⟨t, ht, i, hi, rfl, rfl⟩

theorem pairs_nodup (ti : Array TilingInfo) :
    ((coords (num ti)).flatMap fun t => (coords (tile ti)).map fun i => (t, i)).Nodup := by
  refine List.pairwise_flatMap.2 ⟨fun t _ => ?_, (coords_nodup _).imp fun hne => ?_⟩
  · exact List.pairwise_map.2 ((coords_nodup _).imp fun hne e => hne (by cases e; rfl))
  · intro x hx y hy e
    obtain ⟨_, _, rfl⟩ := List.mem_map.1 hx
    obtain ⟨_, _, rfl⟩ := List.mem_map.1 hy
    cases e
    exact hne rfl

theorem dst_inj {ti : Array TilingInfo} {t i t' i' : List Nat} (ht : InRange t (num ti))
    (hi : InRange i (tile ti)) (ht' : InRange t' (num ti)) (hi' : InRange i' (tile ti))
    (h : dst ti t i = dst ti t' i') : t = t' ∧ i = i' := by
  obtain ⟨e1, e2⟩ := idx_inj (flatPos_lt hi) (flatPos_lt hi') h
  exact ⟨flatPos_inj ht ht' e1, flatPos_inj hi hi' e2⟩

theorem dst_lt {ti : Array TilingInfo} {t i : List Nat} (ht : InRange t (num ti))
    (hi : InRange i (tile ti)) : dst ti t i < (num ti).prod * (tile ti).prod :=
  idx_lt (flatPos_lt ht) (flatPos_lt hi)

/-- Copying elements to distinct places. -/
theorem copy_ok {ι : Type} {l : List ι} (hl : l.Nodup) {org : Array α} {s d : ι → Nat}
    (hs : ∀ q ∈ l, s q < org.size) {v : Array α} (hd : ∀ q ∈ l, d q < v.size)
    (hinj : ∀ q ∈ l, ∀ q' ∈ l, d q = d q' → q = q') :
    ∃ w, l.foldlM (fun v q => rd org (s q) >>= fun x => wr v (d q) x) v = Except.ok w ∧
      w.size = v.size ∧ (∀ q ∈ l, w[d q]? = org[s q]?) ∧
      ∀ p, (∀ q ∈ l, d q ≠ p) → w[p]? = v[p]? := by
  induction l generalizing v with
  | nil => exact ⟨v, rfl, rfl, by simp, fun _ _ => rfl⟩
  | cons q l ih =>
    have hq := List.mem_cons_self (a := q) (l := l)
    have hx := hs q hq
    obtain ⟨hn, hl⟩ := List.nodup_cons.1 hl
    obtain ⟨w, hw, hsz, h1, h2⟩ := ih hl (v := v.setIfInBounds (d q) org[s q])
      (fun u hu => hs u (List.mem_cons_of_mem _ hu))
      (fun u hu => by simpa using hd u (List.mem_cons_of_mem _ hu))
      (fun u hu u' hu' => hinj u (List.mem_cons_of_mem _ hu) u' (List.mem_cons_of_mem _ hu'))
    refine ⟨w, ?_, by simpa using hsz, ?_, ?_⟩
    · rw [List.foldlM_cons, rd_ok (x := org[s q]) (by simp [hx]), M_bind_ok, wr, if_pos (hd q hq),
        M_bind_ok]
      exact hw
    · intro u hu
      rcases List.mem_cons.1 hu with rfl | hu
      · rw [h2 (d u) fun u' hu' e => hn (by
          rw [← hinj u' (List.mem_cons_of_mem _ hu') u hq e]; exact hu')]
        simp [hd u hq, hs u hq]
      · exact h1 u hu
    · intro p hp
      rw [h2 p fun u hu => hp u (List.mem_cons_of_mem _ hu)]
      simp [hp q hq]

theorem ext_eq {ti : Array TilingInfo}
    (hdvd : ∀ d, d < ti.size → (tile ti).getD d 0 ∣ (ext ti).getD d 0) :
    (num ti).zipWith (· * ·) (tile ti) = ext ti :=
  zipWith_mul_div (by simp) (by simpa using hdvd)

theorem src_lt {ti : Array TilingInfo}
    (hdvd : ∀ d, d < ti.size → (tile ti).getD d 0 ∣ (ext ti).getD d 0) {t i : List Nat}
    (ht : InRange t (num ti)) (hi : InRange i (tile ti)) : src ti t i < (ext ti).prod := by
  refine flatPos_lt ?_
  have := joinIdx_inRange ht hi (by simp)
  rwa [ext_eq hdvd] at this

theorem make_tiled_ok [Arith α] {dim : Nat} {ti : Array TilingInfo} (hti : ti.size = dim)
    {junk junk' : Array Nat} (hj : junk.size = dim) (hj' : junk'.size = dim) (hp : Pos ti)
    (hdvd : ∀ d, d < ti.size → (tile ti).getD d 0 ∣ (ext ti).getD d 0) (org : Array α)
    (ho : org.size = (ext ti).prod) :
    ∃ v, make_tiled dim junk junk' org ti = .ok v ∧ v.size = org.size ∧
      ∀ t i, InRange t (num ti) → InRange i (tile ti) → v[dst ti t i]? = org[src ti t i]? := by
  have hprod : (num ti).prod * (tile ti).prod = (ext ti).prod := by
    rw [← prod_zipWith_mul (by simp), ext_eq hdvd]
  obtain ⟨v, hv, hsz, h, _⟩ := copy_ok (pairs_nodup ti) (org := org)
    (s := fun q => src ti q.1 q.2) (d := fun q => dst ti q.1 q.2) (v := zeros org.size)
    (fun q hq => by
      obtain ⟨ht, hi⟩ := mem_pairs.1 hq
      rw [ho]; exact src_lt hdvd ht hi)
    (fun q hq => by
      obtain ⟨ht, hi⟩ := mem_pairs.1 hq
      rw [zeros_size, ho, ← hprod]
      exact dst_lt ht hi)
    (fun q hq q' hq' e => by
      obtain ⟨ht, hi⟩ := mem_pairs.1 hq
      obtain ⟨ht', hi'⟩ := mem_pairs.1 hq'
      obtain ⟨e1, e2⟩ := dst_inj ht hi ht' hi' e
      exact Prod.ext e1 e2)
  refine ⟨v, ?_, by simpa using hsz, fun t i ht hi => h (t, i) (mem_pairs.2 ⟨ht, hi⟩)⟩
  rw [make_tiled_eq hti hj hj' hp org]
  exact hv

/-! ### views -/

/-- The view of tile `t`. -/
def view (ti : Array TilingInfo) (t : List Nat) : TileView :=
  ⟨flatPos (num ti) t * (tile ti).prod, t.toArray, (num ti).toArray, ti, (tile ti).prod⟩

theorem new_ok {ti : Array TilingInfo} (hti : ti.size = 2) (hp : Pos ti) {t : List Nat}
    (ht : t.length = 2) : TileView.new 2 t.toArray ti = .ok (view ti t) := by
  obtain ⟨a, b, rfl⟩ : ∃ a b, t = [a, b] := by
    match t, ht with
    | [a, b], _ => exact ⟨a, b, rfl⟩
  unfold TileView.new
  rw [show rd [a, b].toArray 0 = .ok a from rfl, show rd [a, b].toArray 1 = .ok b from rfl,
    M_bind_ok, M_bind_ok, show wr (Array.replicate 2 0) 0 a = .ok #[a, 0] from rfl, M_bind_ok,
    show wr #[a, 0] 1 b = .ok #[a, b] from rfl, M_bind_ok,
    fill_loop (l := num ti) (by simp [hti]) (fun d hd v => by
      rw [tilesDir_ok (by omega) (hp d (by omega))]; rfl), M_bind_ok, mulTiles_ok hti, M_bind_ok,
    flatRev_ok (dim := 2) (index := rd [a, b].toArray) (ext := tilesDir ti) (e := num ti)
    (a := [a, b]) (by simp [hti]) rfl (fun d hd => rd_getD hd)
    (fun d hd => tilesDir_ok (by omega) (hp d (by omega))), M_bind_ok, Nat.one_mul]
  rfl

theorem iterate_tiles_ok {ti : Array TilingInfo} (hti : ti.size = 2) {junk : Array Nat}
    (hj : junk.size = 2) (hp : Pos ti) (f : TileView → σ → M σ) (s : σ) :
    iterate_tiles 2 junk ti f s = (coords (num ti)).foldlM (fun s t => f (view ti t) s) s := by
  unfold iterate_tiles
  rw [nest_ok (ns := num ti) (by simp [hti]) hj fun d hd => by
    rw [tilesDir_ok (by omega) (hp d (by omega))]; rfl]
  refine foldlM_congr (fun t ht s => ?_) s
  rw [new_ok hti hp (by rw [(mem_coords.1 ht).length]; simp [hti])]
  rfl

theorem view_flat {ti : Array TilingInfo} (hti : ti.size = 2) {t i : List Nat} (hi : i.length = 2) :
    (view ti t).flat_index 2 i.toArray = .ok (flatPos (tile ti) i) :=
  flatRev_ok (by simp [hti]) hi (fun d hd => rd_getD (by omega))
    (fun d hd => by
      show (rd ti d >>= _) = _
      rw [rd_ti (by omega)]; rfl)

theorem view_get {ti : Array TilingInfo} (hti : ti.size = 2) {t i : List Nat} (hi : i.length = 2)
    (tiled : Array α) : (view ti t).get 2 tiled i.toArray = rd tiled (dst ti t i) := by
  unfold TileView.get
  rw [view_flat hti hi]
  rfl

/-! ### undo_tiling -/

/-- Result of `flat_index`. -/
def flatBad (ext idx : List Nat) : Nat :=
  ((List.range ext.length).foldl (fun (s : Nat × Nat) d =>
    (s.1 + idx.getD (ext.length - 1 - d) 0 * s.2, s.2 * ext.getD d 0)) (0, 1)).1

theorem flat_index_ok {dim : Nat} {idx ext : List Nat} (hi : idx.length = dim)
    (he : ext.length = dim) : flat_index dim idx.toArray ext.toArray = .ok (flatBad ext idx) := by
  unfold flat_index
  rw [range_loop (g := fun (s : Nat × Nat) d =>
    (s.1 + idx.getD (dim - 1 - d) 0 * s.2, s.2 * ext.getD d 0)) (0, 1) fun d hd s => by
      rw [rd_getD (by omega), rd_getD (by omega)]; rfl]
  subst he
  rfl

/-- Destination of an element in `undo_tiling`. -/
def undst (ti : Array TilingInfo) (t i : List Nat) : Nat :=
  flatBad (ext ti) (joinIdx (tile ti) t i)

theorem undo_eq [Arith α] {ti : Array TilingInfo} (hti : ti.size = 2)
    {junk junk' : Array Nat} (hj : junk.size = 2) (hj' : junk'.size = 2) (hp : Pos ti)
    (tiled : Array α) :
    undo_buffer junk junk' tiled ti =
      ((coords (num ti)).flatMap fun t => (coords (tile ti)).map fun i => (t, i)).foldlM
        (fun v q => rd tiled (dst ti q.1 q.2) >>= fun x => wr v (undst ti q.1 q.2) x)
        (zeros tiled.size) := by
  unfold undo_buffer
  rw [if_neg (by simpa using hti), tileSizes_ok hti, M_bind_ok,
    fill_loop (l := ext ti) (by simp [hti]) (fun d hd v => by rw [rd_ti (by omega)]; rfl),
    M_bind_ok, iterate_tiles_ok hti hj hp]
  have : ∀ (l : List (List Nat)), (∀ t ∈ l, InRange t (num ti)) → ∀ v : Array α,
      l.foldlM (fun v t => (forStep 0 2 1 (Array.replicate 2 0) fun d o => do
          let i ← rd (view ti t).tile_index d
          let t ← rd ti d
          wr o d (i * t.tile_size_dir)) >>= fun index_offset =>
        loop_nest 2 junk' (Array.replicate 2 0) (tile ti).toArray (Array.replicate 2 1)
          (fun inner_index untiled => do
            let outer_index ← forStep 0 2 1 (Array.replicate 2 0) fun d o => do
              let i ← rd inner_index d
              let j ← rd index_offset d
              wr o d (i + j)
            let flat_outer_index ← flat_index 2 outer_index (ext ti).toArray
            let v ← (view ti t).get 2 tiled inner_index
            wr untiled flat_outer_index v) v) v =
      (l.flatMap fun t => (coords (tile ti)).map fun i => (t, i)).foldlM
        (fun v q => rd tiled (dst ti q.1 q.2) >>= fun x => wr v (undst ti q.1 q.2) x) v := by
    intro l
    induction l with
    | nil => exact fun _ _ => rfl
    | cons t l ih =>
      intro hl v
      have ht := hl t (List.mem_cons_self ..)
      have htl : t.length = 2 := by rw [ht.length]; simp [hti]
      rw [List.foldlM_cons, List.flatMap_cons, List.foldlM_append, List.foldlM_map,
        fill_loop (l := t.zipWith (· * ·) (tile ti)) (by simp [hti, htl]) (fun d hd v => by
          show (rd t.toArray d >>= _) = _
          rw [rd_getD (by omega), rd_ti (by omega)]
          simp [htl, hti, hd]), M_bind_ok,
        loop_nest_ok (by simp [hti]) hj' rfl]
      rw [foldlM_congr (g := fun v i => rd tiled (dst ti t i) >>= fun x => wr v (undst ti t i) x)]
      · cases (coords (tile ti)).foldlM
          (fun v i => rd tiled (dst ti t i) >>= fun x => wr v (undst ti t i) x) v with
        | error e => rfl
        | ok r => exact ih (fun u hu => hl u (List.mem_cons_of_mem _ hu)) r
      · intro i hi v
        have hil : i.length = 2 := by rw [(mem_coords.1 hi).length]; simp [hti]
        rw [fill_loop (l := joinIdx (tile ti) t i)
          (by rw [joinIdx_length] <;> simp [hti, htl, hil]) (fun d hd v => by
          rw [rd_getD (by omega), rd_getD (by simp [htl, hti, hd]),
            joinIdx_getD (by simp [hti, htl]) (by simp [hti, hil]) d (by simp [hti, hd])]
          have e : (t.zipWith (· * ·) (tile ti)).getD d 0 = t.getD d 0 * (tile ti).getD d 0 := by
            simp [htl, hti, hd]
          rw [e, Nat.add_comm]
          rfl), M_bind_ok,
          flat_index_ok (by rw [joinIdx_length] <;> simp [hti, htl, hil]) (by simp [hti]),
          M_bind_ok, view_get hti hil]
        rfl
  exact this _ (fun t ht => mem_coords.1 ht) _

theorem foldlM_wr {ι : Type} {l : List ι} {org : Array α} {s d : ι → Nat}
    (hs : ∀ q ∈ l, s q < org.size) {v : Array α} (hd : ∀ q ∈ l, d q < v.size) :
    ∃ w, l.foldlM (fun v q => rd org (s q) >>= fun x => wr v (d q) x) v = Except.ok w ∧
      w.size = v.size ∧ ∀ p, (∀ q ∈ l, d q ≠ p) → w[p]? = v[p]? := by
  induction l generalizing v with
  | nil => exact ⟨v, rfl, rfl, fun _ _ => rfl⟩
  | cons q l ih =>
    have hq := List.mem_cons_self (a := q) (l := l)
    have hx := hs q hq
    obtain ⟨w, hw, hsz, h2⟩ := ih (v := v.setIfInBounds (d q) org[s q])
      (fun u hu => hs u (List.mem_cons_of_mem _ hu))
      (fun u hu => by simpa using hd u (List.mem_cons_of_mem _ hu))
    refine ⟨w, ?_, by simpa using hsz, ?_⟩
    · rw [List.foldlM_cons, rd_ok (x := org[s q]) (by simp [hx]), M_bind_ok, wr, if_pos (hd q hq),
        M_bind_ok]
      exact hw
    · intro p hp
      rw [h2 p fun u hu => hp u (List.mem_cons_of_mem _ hu)]
      simp [hp q hq]

theorem foldlM_oob {ι : Type} {l : List ι} {org : Array α} {s d : ι → Nat}
    (hs : ∀ q ∈ l, s q < org.size) {v : Array α} {q0 : ι} (h0 : q0 ∈ l) (hd : v.size ≤ d q0) :
    l.foldlM (fun v q => rd org (s q) >>= fun x => wr v (d q) x) v = Except.error .oob := by
  induction l generalizing v with
  | nil => cases h0
  | cons q l ih =>
    have hq := List.mem_cons_self (a := q) (l := l)
    have hx := hs q hq
    rw [List.foldlM_cons, rd_ok (x := org[s q]) (by simp [hx]), M_bind_ok, wr]
    split
    · rw [M_bind_ok]
      rcases List.mem_cons.1 h0 with rfl | h0
      · omega
      · exact ih (fun u hu => hs u (List.mem_cons_of_mem _ hu)) h0 (by simpa using hd)
    · rfl

theorem joinIdx_surj {ti : Array TilingInfo}
    (hdvd : ∀ d, d < ti.size → (tile ti).getD d 0 ∣ (ext ti).getD d 0) {c : List Nat}
    (hc : InRange c (ext ti)) : ∃ t i, InRange t (num ti) ∧ InRange i (tile ti) ∧
      joinIdx (tile ti) t i = c := by
  rw [← ext_eq hdvd] at hc
  obtain ⟨h1, h2, h3⟩ := joinIdx_divMod hc (by simp)
  exact ⟨_, _, h1, h2, h3⟩

theorem pos_surj {ext : List Nat} {p : Nat} (h : p < ext.prod) :
    ∃ c, InRange c ext ∧ flatPos ext c = p := by
  have : p ∈ (coords ext).map (flatPos ext) := by rw [coords_map]; exact List.mem_range.2 h
  obtain ⟨c, hc, e⟩ := List.mem_map.1 this
  exact ⟨c, mem_coords.1 hc, e⟩

theorem joinIdx_ext {ti : Array TilingInfo}
    (hdvd : ∀ d, d < ti.size → (tile ti).getD d 0 ∣ (ext ti).getD d 0) {t i : List Nat}
    (ht : InRange t (num ti)) (hi : InRange i (tile ti)) :
    InRange (joinIdx (tile ti) t i) (ext ti) := by
  have := joinIdx_inRange ht hi (by simp)
  rwa [ext_eq hdvd] at this

theorem src_inj {ti : Array TilingInfo}
    (hdvd : ∀ d, d < ti.size → (tile ti).getD d 0 ∣ (ext ti).getD d 0) {t i t' i' : List Nat}
    (ht : InRange t (num ti)) (hi : InRange i (tile ti)) (ht' : InRange t' (num ti))
    (hi' : InRange i' (tile ti)) (h : src ti t i = src ti t' i') : t = t' ∧ i = i' := by
  have e := flatPos_inj (joinIdx_ext hdvd ht hi) (joinIdx_ext hdvd ht' hi') h
  have e1 := joinIdx_div ht hi (by simp)
  have e2 := joinIdx_mod ht hi (by simp)
  rw [e] at e1 e2
  rw [joinIdx_div ht' hi' (by simp)] at e1
  rw [joinIdx_mod ht' hi' (by simp)] at e2
  exact ⟨e1.symm, e2.symm⟩

/-- Where `flat_index` is row-major, `undo_tiling` inverts `make_tiled`. -/
theorem undo_make [Arith α] {ti : Array TilingInfo} (hti : ti.size = 2)
    {junk junk' j2 j2' : Array Nat} (hj : junk.size = 2) (hj' : junk'.size = 2) (h2 : j2.size = 2)
    (h2' : j2'.size = 2) (hp : Pos ti)
    (hdvd : ∀ d, d < ti.size → (tile ti).getD d 0 ∣ (ext ti).getD d 0) (org v : Array α)
    (ho : org.size = (ext ti).prod) (hv : make_tiled 2 junk junk' org ti = .ok v)
    (hflat : ∀ c, InRange c (ext ti) → flatBad (ext ti) c = flatPos (ext ti) c) :
    undo_buffer j2 j2' v ti = .ok org := by
  have hprod : (num ti).prod * (tile ti).prod = (ext ti).prod := by
    rw [← prod_zipWith_mul (by simp), ext_eq hdvd]
  obtain ⟨v', hv', hsz, hget⟩ := make_tiled_ok hti hj hj' hp hdvd org ho
  rw [hv] at hv'
  cases hv'
  rw [undo_eq hti h2 h2' hp]
  have hun : ∀ t i, InRange t (num ti) → InRange i (tile ti) → undst ti t i = src ti t i :=
    fun t i ht hi => hflat _ (joinIdx_ext hdvd ht hi)
  obtain ⟨w, hw, hwsz, h, _⟩ := copy_ok (pairs_nodup ti) (org := v)
    (s := fun q => dst ti q.1 q.2) (d := fun q => undst ti q.1 q.2) (v := zeros v.size)
    (fun q hq => by
      obtain ⟨ht, hi⟩ := mem_pairs.1 hq
      rw [hsz, ho, ← hprod]
      exact dst_lt ht hi)
    (fun q hq => by
      obtain ⟨ht, hi⟩ := mem_pairs.1 hq
      rw [zeros_size, hsz, ho, hun _ _ ht hi]
      exact src_lt hdvd ht hi)
    (fun q hq q' hq' e => by
      obtain ⟨ht, hi⟩ := mem_pairs.1 hq
      obtain ⟨ht', hi'⟩ := mem_pairs.1 hq'
      have e : undst ti q.1 q.2 = undst ti q'.1 q'.2 := e
      rw [hun _ _ ht hi, hun _ _ ht' hi'] at e
      obtain ⟨e1, e2⟩ := src_inj hdvd ht hi ht' hi' e
      exact Prod.ext e1 e2)
  rw [hw]
  refine congrArg Except.ok (Array.ext_getElem? fun p => ?_)
  by_cases hpos : p < org.size
  · obtain ⟨c, hc, rfl⟩ := pos_surj (ho ▸ hpos)
    obtain ⟨t, i, ht, hi, rfl⟩ := joinIdx_surj hdvd hc
    have := h (t, i) (mem_pairs.2 ⟨ht, hi⟩)
    simp only [hun t i ht hi] at this
    exact this.trans (hget t i ht hi)
  · rw [Array.getElem?_eq_none (by rw [hwsz, zeros_size, hsz]; omega),
      Array.getElem?_eq_none (by omega)]

/-- `flat_index` in two dimensions. -/
theorem flatBad_two (s0 s1 a b : Nat) : flatBad [s0, s1] [a, b] = a * s0 + b := by
  simp [flatBad, List.range_succ]
  omega

theorem flatPos_two (s0 s1 a b : Nat) : flatPos [s0, s1] [a, b] = a * s1 + b := by
  simp [flatPos]

/-! ### errors -/

theorem bind_ok' {R S : Type} {x : M R} {f : R → M S} {r : S} (h : x >>= f = .ok r) :
    ∃ v, x = .ok v ∧ f v = .ok r := by
  cases x with
  | error e => cases h
  | ok v => exact ⟨v, rfl, h⟩


/-- What can go wrong in src/memory_layout. -/
def Bad (e : Err) : Prop :=
  e = .oob ∨ e = .divZero ∨ e = .exception "memory_layout_exception"

theorem bad_rd (v : Array α) (i : Nat) : MErrs Bad (rd v i) := .rd (.inl rfl) _ _
theorem bad_wr (v : Array α) (i : Nat) (x : α) : MErrs Bad (wr v i x) := .wr (.inl rfl) _ _ _

theorem bad_nest {dim : Nat} {bounds : Nat → M (Nat × Nat × Nat)} {f : Array Nat → σ → M σ}
    (hb : ∀ d, MErrs Bad (bounds d)) (hs : ∀ d b, bounds d = .ok b → 0 < b.2.2)
    (hf : ∀ i s, MErrs Bad (f i s)) : ∀ rem s, MErrs Bad (nestLoop dim bounds f rem s)
  | 0, (i, s) => MErrs.bind (hf i s) fun _ => MErrs.pure
  | rem + 1, s => by
    unfold nestLoop
    intro e he
    cases hbd : bounds (dim - (rem + 1)) with
    | error e' =>
      simp only [hbd, M_bind_error] at he
      cases he
      exact hb _ _ hbd
    | ok b =>
      simp only [hbd, M_bind_ok] at he
      exact MErrs.forStep (hs _ _ hbd) (fun i s =>
        MErrs.bind (bad_wr _ _ _) fun _ => bad_nest hb hs hf rem _) s e he

theorem bad_udiv (a b : Nat) : MErrs Bad (udiv a b) :=
  MErrs.ite (MErrs.throw (.inr (.inl rfl))) MErrs.pure

theorem bad_tilesDir (ti : Array TilingInfo) (d : Nat) : MErrs Bad (tilesDir ti d) :=
  MErrs.bind (bad_rd _ _) fun _ => bad_udiv _ _

theorem bad_tiles {dim : Nat} {ti : Array TilingInfo} {f : Array Nat → σ → M σ}
    (hf : ∀ i s, MErrs Bad (f i s)) (s) :
    MErrs Bad (nestLoop dim (fun d => do pure (0, ← tilesDir ti d, 1)) f dim s) := by
  refine bad_nest (fun d => MErrs.bind (bad_tilesDir _ _) fun _ => MErrs.pure) ?_ hf _ _
  intro d b h
  cases hd : tilesDir ti d with
  | error e => rw [hd] at h; cases h
  | ok n => rw [hd] at h; cases h; exact Nat.one_pos

theorem bad_flatRev {dim : Nat} {index ext : Nat → M Nat} (hi : ∀ d, MErrs Bad (index d))
    (he : ∀ d, MErrs Bad (ext d)) : MErrs Bad (flatRev dim index ext) :=
  MErrs.bind (MErrs.forStep (by decide) (fun _ _ => MErrs.bind (hi _) fun _ =>
    MErrs.bind (he _) fun _ => MErrs.pure) _) fun _ => MErrs.pure

theorem bad_tileSizes (dim : Nat) (ti : Array TilingInfo) : MErrs Bad (tileSizes dim ti) :=
  MErrs.forStep (by decide) (fun _ _ => MErrs.bind (bad_rd _ _) fun _ => bad_wr _ _ _) _

theorem bad_new (dim : Nat) (t : Array Nat) (ti : Array TilingInfo) :
    MErrs Bad (TileView.new dim t ti) :=
  MErrs.bind (bad_rd _ _) fun _ => MErrs.bind (bad_rd _ _) fun _ => MErrs.bind (bad_wr _ _ _)
    fun _ => MErrs.bind (bad_wr _ _ _) fun _ =>
    MErrs.bind (MErrs.forStep (by decide) (fun _ _ => MErrs.bind (bad_tilesDir _ _) fun _ =>
      bad_wr _ _ _) _) fun _ =>
    MErrs.bind (MErrs.forStep (by decide) (fun _ _ => MErrs.bind (bad_rd _ _) fun _ =>
      MErrs.pure) _) fun _ =>
    MErrs.bind (bad_flatRev (bad_rd _) (bad_tilesDir _)) fun _ => MErrs.pure

theorem bad_loop_nest {dim : Nat} {junk mx : Array Nat} {f : Array Nat → σ → M σ}
    (hf : ∀ i s, MErrs Bad (f i s)) (s : σ) :
    MErrs Bad (loop_nest dim junk (Array.replicate dim 0) mx (Array.replicate dim 1) f s) := by
  unfold loop_nest
  refine MErrs.bind (bad_nest (fun d => MErrs.bind (bad_rd _ _) fun _ => MErrs.bind (bad_rd _ _)
    fun _ => MErrs.bind (bad_rd _ _) fun _ => MErrs.pure) ?_ hf _ _) fun _ => MErrs.pure
  intro d b h
  obtain ⟨x, hx, h⟩ := bind_ok' h
  obtain ⟨y, hy, h⟩ := bind_ok' h
  obtain ⟨z, hz, h⟩ := bind_ok' h
  cases h
  unfold rd at hz
  split at hz
  · rename_i v hv
    cases hz
    rw [Array.getElem?_replicate] at hv
    split at hv
    · cases hv; exact Nat.one_pos
    · cases hv
  · cases hz

theorem bad_undo [Arith α] (junk junk' : Array Nat) (tiled : Array α) (ti : Array TilingInfo) :
    MErrs Bad (undo_buffer junk junk' tiled ti) := by
  unfold undo_buffer
  refine MErrs.ite (MErrs.throw (.inr (.inr rfl))) ?_
  refine MErrs.bind (bad_tileSizes _ _) fun _ => MErrs.bind (MErrs.forStep (by decide) (fun _ _ =>
    MErrs.bind (bad_rd _ _) fun _ => bad_wr _ _ _) _) fun _ => ?_
  refine MErrs.bind (bad_tiles (fun _ _ => MErrs.bind (bad_new _ _ _) fun _ => ?_) _) fun _ =>
    MErrs.pure
  refine MErrs.bind (MErrs.forStep (by decide) (fun _ _ => MErrs.bind (bad_rd _ _) fun _ =>
    MErrs.bind (bad_rd _ _) fun _ => bad_wr _ _ _) _) fun _ => ?_
  refine bad_loop_nest (fun _ _ => ?_) _
  refine MErrs.bind (MErrs.forStep (by decide) (fun _ _ => MErrs.bind (bad_rd _ _) fun _ =>
    MErrs.bind (bad_rd _ _) fun _ => bad_wr _ _ _) _) fun _ => ?_
  refine MErrs.bind (MErrs.bind (MErrs.forStep (by decide) (fun _ _ => MErrs.bind (bad_rd _ _)
    fun _ => MErrs.bind (bad_rd _ _) fun _ => MErrs.pure) _) fun _ => MErrs.pure) fun _ => ?_
  refine MErrs.bind (MErrs.bind (bad_flatRev (bad_rd _) fun d => MErrs.bind (bad_rd _ _) fun _ =>
    MErrs.pure) fun _ => bad_rd _ _) fun _ => bad_wr _ _ _

end Verif.MemoryLayout
