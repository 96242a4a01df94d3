import Verif.Model.Async
import Verif.Proof.StaticImproved
/-
Helper lemmas about the model of the whole task tree (Model/Async.lean).
-/
set_option linter.unusedSectionVars false
namespace Verif
variable {α R S ι : Type}

/-! ### Relocated programs -/

theorem Act.wp_at {F : Nat → Prop} {off : Nat} {p : Act α R} {Q : R → (Nat → α) → Prop}
    {c : Nat → α}
    (h : p.wp false (fun i => F (off + i))
      (fun r d => Q r fun j => if off ≤ j then d (j - off) else c j) fun i => c (off + i)) :
    (p.at off).wp false F Q c := by
  induction p generalizing c with
  | ret r =>
    show Q r c
    have : (fun j => if off ≤ j then c (off + (j - off)) else c j) = c := by
      funext j
      split
      · rw [show off + (j - off) = j by omega]
      · rfl
    have h' : Q r (fun j => if off ≤ j then c (off + (j - off)) else c j) := h
    rwa [this] at h'
  | fail e => exact h
  | rd i k ih => exact ⟨h.1, ih _ h.2⟩
  | wr i v k ih =>
    refine ⟨h.1, ih ?_⟩
    have h1 : (fun j => (if off + j = off + i then v else c (off + j))) =
        fun j => if j = i then v else c (off + j) := by
      funext j
      by_cases hj : j = i
      · simp [hj]
      · rw [if_neg hj, if_neg (by omega)]
    rw [h1]
    refine Act.wp_mono h.2 fun r d hd => ?_
    have h2 : (fun j => if off ≤ j then d (j - off) else if j = off + i then v else c j) =
        fun j => if off ≤ j then d (j - off) else c j := by
      funext j
      split
      · rfl
      · rw [if_neg (by omega)]
    show Q r (fun j => if off ≤ j then d (j - off) else if j = off + i then v else c j)
    rw [h2]
    exact hd
  | rdFlag j k ih => exact absurd h.1 (by decide)
  | wrFlag j b k ih => exact absurd h.1 (by decide)

/-- `p` only accesses the first `n` cells and no flags. -/
def Act.Within (n : Nat) : Act α R → Prop
  | .ret _ => True
  | .fail _ => True
  | .rd i k => i < n ∧ ∀ v, (k v).Within n
  | .wr i _ k => i < n ∧ k.Within n
  | .rdFlag _ _ => False
  | .wrFlag _ _ _ => False

theorem Act.Within.bind {n : Nat} {p : Act α R} {f : R → Act α S} (hp : p.Within n)
    (hf : ∀ r, (f r).Within n) : (p >>= f).Within n := by
  show (p.bind f).Within n
  induction p with
  | ret r => exact hf r
  | fail e => trivial
  | rd i k ih => exact ⟨hp.1, fun v => ih v (hp.2 v)⟩
  | wr i v k ih => exact ⟨hp.1, ih hp.2⟩
  | rdFlag j k ih => exact hp
  | wrFlag j b k ih => exact hp

theorem Act.Within.tryCatch {n : Nat} {p : Act α R} {h : Err → Act α R} (hp : p.Within n)
    (hf : ∀ e, (h e).Within n) : (p.tryCatch h).Within n := by
  induction p with
  | ret r => trivial
  | fail e => exact hf e
  | rd i k ih => exact ⟨hp.1, fun v => ih v (hp.2 v)⟩
  | wr i v k ih => exact ⟨hp.1, ih hp.2⟩
  | rdFlag j k ih => exact hp
  | wrFlag j b k ih => exact hp

theorem Act.Within.catchOutOfRange {n : Nat} {p : Act α Unit} (hp : p.Within n) :
    p.catchOutOfRange.Within n :=
  hp.tryCatch fun e => by split <;> trivial

theorem Act.Within.pure {n : Nat} (r : R) : (Pure.pure r : Act α R).Within n := trivial

theorem Act.Within.ofM {n : Nat} (x : M R) : (Act.ofM x : Act α R).Within n := by
  cases x <;> trivial

theorem Act.Within.read (n i : Nat) : (Act.read n i : Act α α).Within n := by
  unfold Act.read; split
  · exact ⟨by assumption, fun _ => trivial⟩
  · trivial

theorem Act.Within.write (n i : Nat) (v : α) : (Act.write n i v).Within n := by
  unfold Act.write; split
  · exact ⟨by assumption, trivial⟩
  · trivial

theorem Act.Within.writeAt (n i : Nat) (v : α) : (Act.writeAt n i v).Within n := by
  unfold Act.writeAt; split
  · exact ⟨by assumption, trivial⟩
  · trivial

theorem Act.Within.addTo [Arith α] (n i : Nat) (v : α) : (Act.addTo n i v).Within n :=
  (Act.Within.read n i).bind fun _ => Act.Within.write n i _

theorem Act.Within.forStep {n lo hi st : Nat} {s : S} {body : Nat → S → Act α S}
    (h : ∀ i s, (body i s).Within n) : (Verif.forStep lo hi st s body).Within n := by
  unfold Verif.forStep
  generalize hi - lo = fuel
  induction fuel generalizing lo s with
  | zero => unfold forGo; split <;> trivial
  | succ k ih =>
    unfold forGo
    split
    · exact (h _ _).bind fun r => ih
    · trivial

theorem Act.wp_of_exec {n : Nat} {p : Act α R} (hp : p.Within n) {m : Mem α} {r : R}
    (h : (p.exec m).1 = .ok r) :
    p.wp false (fun i => i < n) (fun _ d => d = (p.exec m).2.cell) m.cell := by
  induction p generalizing m with
  | ret r => rfl
  | fail e => cases h
  | rd i k ih => exact ⟨hp.1, ih _ (hp.2 _) h⟩
  | wr i v k ih => exact ⟨hp.1, ih hp.2 (m := m.set i v) h⟩
  | rdFlag j k ih => exact hp.elim
  | wrFlag j b k ih => exact hp.elim

/-- A program that returns normally when it runs alone on a vector, running on a part of a larger
memory with the same contents. -/
theorem Act.wp_at_execOn [Arith α] {F : Nat → Prop} {off : Nat} {p : Act α R} {a b : Array α}
    (hp : p.Within a.size) (h : p.execOn a = .ok b) (hF : ∀ i, i < a.size → F (off + i))
    {c : Nat → α} (hc : ∀ i, i < a.size → a[i]? = some (c (off + i))) :
    (p.at off).wp false F (fun _ d => ∀ i, i < a.size → b[i]? = some (d (off + i))) c := by
  unfold Act.execOn at h
  generalize hx : p.exec (Mem.ofArray a) = x at h
  obtain ⟨x1, x2⟩ := x
  cases x1 with
  | error e => cases h
  | ok r =>
    cases h
    have h1 := Act.wp_of_exec hp (m := Mem.ofArray a) (r := r) (by rw [hx])
    rw [hx] at h1
    have h2 : p.wp false (fun i => i < a.size)
        (fun _ d => ∀ i, i < a.size → d i = x2.cell i) (Mem.ofArray a).cell :=
      Act.wp_mono h1 fun _ d hd i _ => by rw [hd]
    have h3 := Act.wp_frame (c' := fun i => c (off + i)) (fun _ => local_eq _ _) (fun i hi => by
      show (a[i]?).getD Arith.zero = _
      rw [hc i hi]; rfl) h2
    refine Act.wp_at ?_
    have h4 : ∀ {G : Nat → Prop} {Q : R → (Nat → α) → Prop} {d : Nat → α},
        p.wp false (fun i => i < a.size) Q d → (∀ i, i < a.size → G i) → p.wp false G Q d := by
      intro G Q d hd hG
      clear h1 h2 h3 hx
      induction p generalizing d with
      | ret r => exact hd
      | fail e => exact hd
      | rd i k ih => exact ⟨hG _ hd.1, ih _ (hp.2 _) hd.2⟩
      | wr i v k ih => exact ⟨hG _ hd.1, ih hp.2 hd.2⟩
      | rdFlag j k ih => exact hp.elim
      | wrFlag j b k ih => exact hp.elim
    refine Act.wp_mono (h4 h3 hF) fun _ d hd i hi => ?_
    show (toArray a.size x2.cell)[i]? = some (if off ≤ off + i then d (off + i - off) else c (off + i))
    rw [if_pos (by omega), show off + i - off = i by omega, hd i hi]
    simp [toArray, hi]

/-! ### Loops -/

theorem Act.wp_range {A F} {n : Nat} {body : Nat → Unit → Act α Unit} {I : Nat → (Nat → α) → Prop}
    {c : Nat → α} (h0 : I 0 c)
    (h : ∀ i, i < n → ∀ c, I i c → (body i ()).wp A F (fun _ c' => I (i + 1) c') c) :
    (forStep 0 n 1 () body).wp A F (fun _ c' => I n c') c := by
  rw [forStep_eq (by decide), steps_one]
  have key : ∀ (k m : Nat) (c : Nat → α), m + k = n → I m c →
      ((List.range' m k).foldlM (fun s i => body i s) ()).wp A F (fun _ c' => I n c') c := by
    intro k
    induction k with
    | zero => intro m c hm hI; obtain rfl : m = n := by omega
              exact hI
    | succ k ih =>
      intro m c hm hI
      rw [List.range'_succ, List.foldlM_cons]
      show (Act.bind _ _).wp _ _ _ _
      rw [Act.wp_bind]
      exact Act.wp_mono (h m (by omega) c hI) fun _ c' hc' => ih (m + 1) c' (by omega) hc'
  rw [List.range_eq_range']
  exact key n 0 c (by omega) h0

/-- Two nested loops over an `m × n` rectangle establishing `T i j` for each pair. -/
theorem Act.wp_rect {A F} {m n : Nat} {body : Nat → Nat → Act α Unit} {I : (Nat → α) → Prop}
    {T : Nat → Nat → (Nat → α) → Prop} {c : Nat → α} (h0 : I c)
    (h : ∀ i, i < m → ∀ j, j < n → ∀ c, I c → (body i j).wp A F (fun _ c' => I c' ∧ T i j c' ∧
      ∀ i' j', i' < m → j' < n → T i' j' c → T i' j' c') c) :
    (forStep 0 m 1 () fun i _ => forStep 0 n 1 () fun j _ => body i j).wp A F
      (fun _ c' => I c' ∧ ∀ i, i < m → ∀ j, j < n → T i j c') c := by
  refine Act.wp_range (I := fun i c' => I c' ∧ ∀ a, a < i → a < m → ∀ b, b < n → T a b c')
    ⟨h0, fun a ha => by omega⟩ (fun i hi c1 hc1 => ?_) |> fun hh => Act.wp_mono hh
      fun _ c' hc' => ⟨hc'.1, fun a ha b hb => hc'.2 a ha ha b hb⟩
  refine Act.wp_mono (Act.wp_range (I := fun j c' => I c' ∧ (∀ a, a < i → a < m → ∀ b, b < n → T a b c') ∧
    ∀ b, b < j → b < n → T i b c') ⟨hc1.1, hc1.2, fun b hb => by omega⟩ fun j hj c2 hc2 => ?_)
    fun _ c' hc' => ⟨hc'.1, fun a ha ham b hb => ?_⟩
  · refine Act.wp_mono (h i hi j hj c2 hc2.1) fun _ c' hc' => ⟨hc'.1, fun a ha ham b hb => ?_, fun b hb hbn => ?_⟩
    · exact hc'.2.2 a b ham hb (hc2.2.1 a ha ham b hb)
    · rcases Nat.lt_or_ge b j with hbj | hbj
      · exact hc'.2.2 i b hi hbn (hc2.2.2 b hbj hbn)
      · obtain rfl : b = j := by omega
        exact hc'.2.1
  · rcases Nat.lt_or_ge a i with hai | hai
    · exact hc'.2.1 a hai ham b hb
    · obtain rfl : a = i := by omega
      exact hc'.2.2 b hb hb

/-- The same program repeated, with a chain of assertions. -/
theorem WP.replicate {A F} {t : Tree α} {P : Nat → (Nat → α) → Prop} (hP : ∀ i, Local F (P i))
    (h : ∀ i c, P i c → WP A F t (P (i + 1)) c) (n : Nat) :
    ∀ i c, P i c → WP A F (.seq (List.replicate n t)) (P (i + n)) c := by
  induction n with
  | zero => exact fun i c hc => .seqNil hc
  | succ n ih =>
    intro i c hc
    rw [List.replicate_succ]
    refine .seqCons (P (i + 1)) (hP _) (h i c hc) fun c' hc' => ?_
    have := ih (i + 1) c' hc'
    rwa [show i + 1 + n = i + (n + 1) by omega] at this

namespace Async
open Verif.Kernel Verif.Recursive Verif.StaticImproved
variable [Arith α]

/-! ### Leaves -/

theorem allocate_wp {F : Nat → Prop} {off n : Nat} (hF : ∀ i, i < n → F (off + i)) (c : Nat → α) :
    (allocate off n).wp false F (fun _ c' => ∀ i, i < n → c' (off + i) = Arith.zero) c := by
  unfold allocate
  refine Act.wp_mono (Act.wp_range (I := fun k c' => ∀ i, i < k → c' (off + i) = Arith.zero)
    (fun i hi => by omega) fun i hi c1 hc1 => ?_) fun _ _ h => h
  refine ⟨hF i hi, fun j hj => ?_⟩
  show (if off + j = off + i then _ else _) = _
  split
  · rfl
  · exact hc1 j (by omega)

theorem submatrix_kernel_within (s : Multiplier α) (x y bs : Nat) :
    (submatrix_kernel s x y bs).Within (bs * bs) := by
  unfold submatrix_kernel
  dsimp only
  split
  · refine Act.Within.catchOutOfRange ?_
    exact Act.Within.forStep fun i _ => Act.Within.forStep fun j _ =>
      (Act.Within.ofM _).bind fun _ => Act.Within.writeAt _ _ _
  · split
    · exact Act.Within.forStep fun i _ => Act.Within.forStep fun j _ =>
        (Act.Within.ofM _).bind fun _ => Act.Within.write _ _ _
    · refine Act.Within.bind (Act.Within.forStep fun k st => ?_) fun _ => trivial
      refine (Act.Within.ofM _).bind fun As => (Act.Within.ofM _).bind fun Bs =>
        Act.Within.bind ?_ fun _ => trivial
      refine Act.Within.forStep fun i _ => Act.Within.forStep fun j _ =>
        (Act.Within.ofM _).bind fun acc => ?_
      unfold store8
      repeat' first
        | exact Act.Within.addTo _ _ _
        | refine Act.Within.bind (Act.Within.addTo _ _ _) fun _ => ?_

theorem calculate_eq (s : Multiplier α) (x y bs : Nat) :
    calculate_submatrix s x y bs = (submatrix_kernel s x y bs).execOn (zeros (bs * bs)) := by
  unfold calculate_submatrix submatrix_kernel
  dsimp only
  simp only [zeros_size]
  split
  · rfl
  · split <;> rfl

theorem leaf_wp {F : Nat → Prop} {s : Multiplier α} {off x y bs : Nat} {v : Array α}
    (h : calculate_submatrix s x y bs = .ok v) (hF : ∀ i, i < bs * bs → F (off + i))
    (c : Nat → α) :
    (leaf s off x y bs).wp false F (fun _ c' => ∀ i, i < bs * bs → v[i]? = some (c' (off + i))) c := by
  unfold leaf
  show (Act.bind _ _).wp _ _ _ _
  rw [Act.wp_bind]
  refine Act.wp_mono (allocate_wp hF c) fun _ c1 hc1 => ?_
  rw [calculate_eq] at h
  have := Act.wp_at_execOn (F := F) (off := off) (c := c1)
    (by rw [zeros_size]; exact submatrix_kernel_within s x y bs) h
    (by rw [zeros_size]; exact hF) (fun i hi => by
      rw [zeros_size] at hi
      rw [hc1 i hi, zeros, Array.getElem?_replicate, if_pos hi])
  rwa [zeros_size] at this

/-! ### Continuations -/

theorem extract_wp {F : Nat → Prop} {src dst nC x y n : Nat} {s : Nat → Nat → α}
    (hsrc : ∀ i, i < n → ∀ j, j < n → F (src + (i * n + j)))
    (hdst : ∀ i, i < n → ∀ j, j < n → F (dst + ((x + i) * (2 * n) + (y + j))) ∧
      (x + i) * (2 * n) + (y + j) < nC)
    (hy : y ≤ n) (hap : dst + nC ≤ src) {c : Nat → α}
    (hc : ∀ i, i < n → ∀ j, j < n → c (src + (i * n + j)) = s i j) :
    (extract_submatrix src (n * n) dst nC x y n).wp false F
      (fun _ c' => ∀ i, i < n → ∀ j, j < n → c' (dst + ((x + i) * (2 * n) + (y + j))) = s i j) c := by
  unfold extract_submatrix
  refine Act.wp_tryCatch ?_ _
  refine Act.wp_mono (Act.wp_rect
    (I := fun c' => ∀ i, i < n → ∀ j, j < n → c' (src + (i * n + j)) = s i j)
    (T := fun i j c' => c' (dst + ((x + i) * (2 * n) + (y + j))) = s i j) hc
    fun i hi j hj c1 hc1 => ?_) fun _ c' hc' => hc'.2
  have hlt := idx_lt hi hj
  have hw := (hdst i hi j hj).2
  show (Act.bind (readAtFrom src (n * n) (i * n + j)) _).wp _ _ _ _
  simp only [readAtFrom, if_pos hlt, Act.writeAt, if_pos hw]
  refine ⟨hsrc i hi j hj, (hdst i hi j hj).1, fun a ha b hb => ?_, ?_, fun a b ha hb hT => ?_⟩
  · show (if src + (a * n + b) = dst + ((x + i) * (2 * n) + (y + j)) then _ else _) = _
    rw [if_neg (by omega)]
    exact hc1 a ha b hb
  · show (if _ = _ then _ else _) = _
    rw [if_pos rfl]
    exact hc1 i hi j hj
  · show (if dst + ((x + a) * (2 * n) + (y + b)) = dst + ((x + i) * (2 * n) + (y + j)) then _ else _) = _
    split
    · rename_i he
      have := idx_inj (show y + b < 2 * n by omega) (show y + j < 2 * n by omega)
        (Nat.add_left_cancel he)
      obtain rfl : a = i := by omega
      obtain rfl : b = j := by omega
      exact hc1 a ha b hb
    · exact hT

theorem insert_wp {F : Nat → Prop} {src N : Nat} {w : Work} {s : Nat → Nat → α}
    (hsrc : ∀ i, i < w.N → ∀ j, j < w.N → F (src + (i * w.N + j)))
    (hdst : ∀ i, i < w.N → ∀ j, j < w.N → F ((w.x + i) * N + (w.y + j)))
    (hx : w.x + w.N ≤ N) (hy : w.y + w.N ≤ N) (hap : N * N ≤ src) {c : Nat → α}
    (hc : ∀ i, i < w.N → ∀ j, j < w.N → c (src + (i * w.N + j)) = s i j) :
    (insert_submatrix N src w).wp false F
      (fun _ c' => ∀ i, i < w.N → ∀ j, j < w.N → c' ((w.x + i) * N + (w.y + j)) = s i j) c := by
  unfold insert_submatrix
  refine Act.wp_mono (Act.wp_rect
    (I := fun c' => ∀ i, i < w.N → ∀ j, j < w.N → c' (src + (i * w.N + j)) = s i j)
    (T := fun i j c' => c' ((w.x + i) * N + (w.y + j)) = s i j) hc
    fun i hi j hj c1 hc1 => ?_) fun _ c' hc' => hc'.2
  have hlt := idx_lt hi hj
  have hw := idx_lt (show w.x + i < N by omega) (show w.y + j < N by omega)
  show (Act.bind ((Act.read (w.N * w.N) (i * w.N + j)).at src) _).wp _ _ _ _
  simp only [Act.read, if_pos hlt, Act.write, if_pos hw]
  refine ⟨hsrc i hi j hj, hdst i hi j hj, fun a ha b hb => ?_, ?_, fun a b ha hb hT => ?_⟩
  · show (if src + (a * w.N + b) = (w.x + i) * N + (w.y + j) then _ else _) = _
    rw [if_neg (by omega)]
    exact hc1 a ha b hb
  · show (if _ = _ then _ else _) = _
    rw [if_pos rfl]
    exact hc1 i hi j hj
  · show (if (w.x + a) * N + (w.y + b) = (w.x + i) * N + (w.y + j) then _ else _) = _
    split
    · rename_i he
      have := idx_inj (show w.y + b < N by omega) (show w.y + j < N by omega) he
      obtain rfl : a = i := by omega
      obtain rfl : b = j := by omega
      exact hc1 a ha b hb
    · exact hT

/-! ### The recursion -/

theorem ofM_bind_error {e : Err} (f : R → ND S) : (ND.ofM (.error e) >>= f) = ND.ofM (.error e) := by
  funext o
  apply propext
  constructor
  · rintro (⟨e', h, rfl⟩ | ⟨r, h, _⟩)
    · cases h; rfl
    · cases h
  · rintro rfl; exact .inl ⟨e, rfl, rfl⟩

theorem bind_det {x : ND R} {f : R → ND S} (hx : ∃ o, x = ND.ofM o)
    (hf : ∀ r, x = ND.ofM (.ok r) → ∃ o, f r = ND.ofM o) : ∃ o, (x >>= f) = ND.ofM o := by
  obtain ⟨o, rfl⟩ := hx
  cases o with
  | error e => exact ⟨_, ofM_bind_error f⟩
  | ok r =>
    obtain ⟨o, ho⟩ := hf r rfl
    exact ⟨o, (ND.pure_bind' r f).trans ho⟩

/-- The recursion has exactly one outcome. -/
theorem distribute_det {mult : Nat → Nat → Nat → M (Array α)} {br : Nat}
    (hm : ∀ x y bs C, mult x y bs = .ok C → C.size = bs * bs) (bs : Nat) :
    ∀ x y, ∃ o, Recursive.distribute_recursively mult br x y bs = ND.ofM o := by
  induction bs using Nat.strongRecOn with
  | ind bs ih =>
    intro x y
    rcases Nat.lt_or_ge br bs with h | h
    · have hsz : ∀ {x y s}, Recursive.distribute_recursively mult br x y (bs / 2) = ND.ofM (.ok s) →
          s.size = bs / 2 * (bs / 2) := by
        intro x y s hs
        exact distribute_size hm _ x y s (by rw [hs]; rfl)
      rw [distribute_step h]
      refine bind_det (ih _ (by omega) _ _) fun s0 h0 => ?_
      refine bind_det (ih _ (by omega) _ _) fun s1 h1 => ?_
      refine bind_det (ih _ (by omega) _ _) fun s2 h2 => ?_
      refine bind_det (ih _ (by omega) _ _) fun s3 h3 => ?_
      exact ⟨_, (quad_does (by omega) (hsz h0) (hsz h1) (hsz h2) (hsz h3)).runOn _⟩
    · exact ⟨_, distribute_leaf h⟩

theorem ofM_bind_ok {x : ND R} {f : R → ND S} {v : S} (hx : ∃ o, x = ND.ofM o)
    (h : (x >>= f) = ND.ofM (.ok v)) : ∃ r, x = ND.ofM (.ok r) ∧ f r = ND.ofM (.ok v) := by
  obtain ⟨o, rfl⟩ := hx
  cases o with
  | error e =>
    rw [ofM_bind_error] at h
    have : (ND.ofM (.error e) : ND S) (.error e) := rfl
    rw [h] at this
    cases this
  | ok r => exact ⟨r, rfl, (ND.pure_bind' r f).symm.trans h⟩

/-- One level of the recursion that returns normally. -/
theorem distribute_inv {mult : Nat → Nat → Nat → M (Array α)} {br bs : Nat}
    (hm : ∀ x y bs C, mult x y bs = .ok C → C.size = bs * bs) (h : br < bs) {x y : Nat}
    {v : Array α} (hv : Recursive.distribute_recursively mult br x y bs = ND.ofM (.ok v)) :
    ∃ s : Nat → Array α,
      (∀ i, i < 4 → (s i).size = bs / 2 * (bs / 2) ∧
        Recursive.distribute_recursively mult br (x + (offset (bs / 2) i).1)
          (y + (offset (bs / 2) i).2) (bs / 2) = ND.ofM (.ok (s i))) ∧
      v = applyA (quadUpd (bs / 2) (s 0) (s 1) (s 2) (s 3)) (zeros (bs * bs)) := by
  have hsz : ∀ {x y s}, Recursive.distribute_recursively mult br x y (bs / 2) = ND.ofM (.ok s) →
      s.size = bs / 2 * (bs / 2) := by
    intro x y s hs
    exact distribute_size hm _ x y s (by rw [hs]; rfl)
  rw [distribute_step h] at hv
  obtain ⟨s0, h0, hv⟩ := ofM_bind_ok (distribute_det hm _ _ _) hv
  obtain ⟨s1, h1, hv⟩ := ofM_bind_ok (distribute_det hm _ _ _) hv
  obtain ⟨s2, h2, hv⟩ := ofM_bind_ok (distribute_det hm _ _ _) hv
  obtain ⟨s3, h3, hv⟩ := ofM_bind_ok (distribute_det hm _ _ _) hv
  rw [(quad_does (by omega) (hsz h0) (hsz h1) (hsz h2) (hsz h3)).runOn] at hv
  refine ⟨fun i => match i with | 0 => s0 | 1 => s1 | 2 => s2 | _ => s3, fun i hi => ?_, ?_⟩
  · have : i = 0 ∨ i = 1 ∨ i = 2 ∨ i = 3 := by omega
    rcases this with rfl | rfl | rfl | rfl
    · exact ⟨hsz h0, h0⟩
    · refine ⟨hsz h1, ?_⟩; simpa [offset] using h1
    · refine ⟨hsz h2, ?_⟩; simpa [offset] using h2
    · refine ⟨hsz h3, ?_⟩; simpa [offset] using h3
  · have h5 : (pure (applyA (quadUpd (bs / 2) s0 s1 s2 s3) (zeros (bs * bs))) : ND (Array α))
        (.ok (applyA (quadUpd (bs / 2) s0 s1 s2 s3) (zeros (bs * bs)))) := rfl
    rw [hv] at h5
    cases h5
    rfl

/-- The combined matrix at a position in quadrant `q`. -/
theorem quadUpd_cell {n : Nat} {s : Nat → Array α} {q : Nat} (hq : q < 4) {i j : Nat} (hi : i < n)
    (hj : j < n) (v : α) :
    cellFold (quadUpd n (s 0) (s 1) (s 2) (s 3))
      (((offset n q).1 + i) * (2 * n) + ((offset n q).2 + j)) v = entry n (s q) i j := by
  have hk : (quads n (s 0) (s 1) (s 2) (s 3))[q]? = some (s q, (offset n q).1, (offset n q).2) := by
    have : q = 0 ∨ q = 1 ∨ q = 2 ∨ q = 3 := by omega
    rcases this with rfl | rfl | rfl | rfl <;> simp [quads, offset]
  have hoff : (offset n q).2 ≤ n := by
    unfold offset; split <;> simp
  unfold quadUpd
  rw [cellFold_flatMap_owner (quad_pairwise n _ _ _ _) hk]
  · exact extractUpd_cell (by simp only; omega) hi hj v
  · refine ⟨(((offset n q).1 + i) * (2 * n) + ((offset n q).2 + j), fun _ => entry n (s q) i j), ?_, rfl⟩
    simp only [extractUpd, List.mem_flatMap, List.mem_range, List.mem_singleton]
    exact ⟨i, hi, j, hj, rfl⟩

theorem quadUpd_mem {n : Nat} {s : Nat → Array α} {u : Upd α}
    (hu : u ∈ quadUpd n (s 0) (s 1) (s 2) (s 3)) :
    ∃ q i j, q < 4 ∧ i < n ∧ j < n ∧
      u.1 = ((offset n q).1 + i) * (2 * n) + ((offset n q).2 + j) := by
  obtain ⟨q, hq, hu⟩ := List.mem_flatMap.1 hu
  obtain ⟨i, j, hi, hj, h⟩ := extractUpd_pos hu
  simp only [quads, List.mem_cons, List.not_mem_nil, or_false] at hq
  rcases hq with rfl | rfl | rfl | rfl
  · exact ⟨0, i, j, by omega, hi, hj, by simpa [offset] using h⟩
  · exact ⟨1, i, j, by omega, hi, hj, by simpa [offset] using h⟩
  · exact ⟨2, i, j, by omega, hi, hj, by simpa [offset] using h⟩
  · exact ⟨3, i, j, by omega, hi, hj, by simpa [offset] using h⟩

theorem offset_le (n q : Nat) : (offset n q).1 ≤ n ∧ (offset n q).2 ≤ n := by
  unfold offset; split <;> simp

/-- Different quadrants are disjoint. -/
theorem offset_apart {n q q' i j i' j' : Nat} (hq : q < 4) (hq' : q' < 4) (hi : i < n) (hj : j < n)
    (hi' : i' < n) (hj' : j' < n)
    (h : ((offset n q).1 + i) * (2 * n) + ((offset n q).2 + j) =
      ((offset n q').1 + i') * (2 * n) + ((offset n q').2 + j')) : q = q' := by
  have h1 := offset_le n q
  have h2 := offset_le n q'
  have := idx_inj (show (offset n q).2 + j < 2 * n by omega)
    (show (offset n q').2 + j' < 2 * n by omega) h
  have a : q = 0 ∨ q = 1 ∨ q = 2 ∨ q = 3 := by omega
  have a' : q' = 0 ∨ q' = 1 ∨ q' = 2 ∨ q' = 3 := by omega
  rcases a with rfl | rfl | rfl | rfl <;> rcases a' with rfl | rfl | rfl | rfl <;>
    simp only [offset, Nat.zero_add] at this <;> omega

theorem cells_leaf {br bs : Nat} (h : bs ≤ br) : cells br bs = bs * bs := by
  rw [cells, dif_pos h]

theorem cells_step {br bs : Nat} (h : br < bs) :
    cells br bs = bs * bs + 4 * cells br (bs / 2) := by
  rw [cells, dif_neg (by omega)]

theorem cells_ge (br bs : Nat) : bs * bs ≤ cells br bs := by
  rw [cells]; split <;> omega

theorem tasks_leaf {s : Multiplier α} {br off x y bs : Nat} (h : bs ≤ br) :
    distribute_recursively s br off x y bs = .act (leaf s off x y bs) := by
  rw [distribute_recursively, dif_pos h]

theorem tasks_step {s : Multiplier α} {br off x y bs : Nat} (h : br < bs) :
    distribute_recursively s br off x y bs =
    .seq [
      .act (allocate off (bs * bs)),
      .par ((List.range 4).map fun i =>
        .seq [
          distribute_recursively s br (off + bs * bs + i * cells br (bs / 2))
            (x + (offset (bs / 2) i).1) (y + (offset (bs / 2) i).2) (bs / 2),
          .act (extract_submatrix (off + bs * bs + i * cells br (bs / 2)) (bs / 2 * (bs / 2)) off
            (bs * bs) (offset (bs / 2) i).1 (offset (bs / 2) i).2 (bs / 2))])] := by
  rw [distribute_recursively, dif_neg (by omega)]

theorem local_region {F : Nat → Prop} {off n : Nat} (hF : ∀ i, i < n → F (off + i)) (v : Array α) :
    Local F (fun c' => ∀ i, i < n → v[i]? = some (c' (off + i))) :=
  fun c c' h hc i hi => by rw [← h _ (hF i hi)]; exact hc i hi

/-- **All tasks of the recursion together**: if the model with the sequential recursive calls
returns `v`, then `v` ends up in the region of the call under every interleaving, and only the
region is accessed. -/
theorem distribute_wp {s : Multiplier α} {br : Nat} (bs : Nat) :
    ∀ (x y off : Nat) (v : Array α),
      Recursive.distribute_recursively (calculate_submatrix s) br x y bs = ND.ofM (.ok v) →
      ∀ (F : Nat → Prop), (∀ i, i < cells br bs → F (off + i)) → ∀ c : Nat → α,
        WP false F (distribute_recursively s br off x y bs)
          (fun c' => ∀ i, i < bs * bs → v[i]? = some (c' (off + i))) c := by
  induction bs using Nat.strongRecOn with
  | ind bs ih =>
    intro x y off v hv F hF c
    have hge := cells_ge br bs
    have hF0 : ∀ i, i < bs * bs → F (off + i) := fun i hi => hF i (by omega)
    rcases Nat.lt_or_ge br bs with h | h
    · obtain ⟨t, ht, rfl⟩ := distribute_inv (fun _ _ _ _ h => calculate_size h) h hv
      have hcs := cells_step h
      have hge' := cells_ge br (bs / 2)
      rw [tasks_step h]
      have hn2 : 2 * (bs / 2) ≤ bs := by omega
      have ih := ih (bs / 2) (by omega)
      generalize bs / 2 = n at *
      generalize hK : cells br n = K at *
      have hsq : 2 * n * (2 * n) ≤ bs * bs := Nat.mul_le_mul hn2 hn2
      have hpos : ∀ q i j, i < n → j < n →
          ((offset n q).1 + i) * (2 * n) + ((offset n q).2 + j) < bs * bs := by
        intro q i j hi hj
        have := offset_le n q
        exact Nat.lt_of_lt_of_le (idx_lt (by omega) (by omega)) hsq
      have hmul : ∀ q q', q < q' → q * K + K ≤ q' * K := by
        intro q q' hqq
        rw [← Nat.succ_mul]
        exact Nat.mul_le_mul_right K hqq
      refine .seqCons (fun c' => ∀ i, i < bs * bs → c' (off + i) = Arith.zero)
        (fun c c' hcc hc i hi => by rw [← hcc _ (hF0 i hi)]; exact hc i hi)
        (.act (allocate_wp hF0 c)) fun c1 hc1 => ?_
      refine .seqCons (fun c' => ∀ i, i < bs * bs →
        (applyA (quadUpd n (t 0) (t 1) (t 2) (t 3)) (zeros (bs * bs)))[i]? = some (c' (off + i)))
        (local_region hF0 _) ?_ fun c' hc' => .seqNil hc'
      refine .par
        (fun q p => q < 4 ∧ ((∃ i j, i < n ∧ j < n ∧
          p = off + (((offset n q).1 + i) * (2 * n) + ((offset n q).2 + j))) ∨
          ∃ i, i < K ∧ p = off + bs * bs + q * K + i))
        (fun q c' => q < 4 → ∀ i, i < n → ∀ j, j < n →
          c' (off + (((offset n q).1 + i) * (2 * n) + ((offset n q).2 + j))) = entry n (t q) i j)
        ?_ ?_ ?_ ?_ ?_
      · intro q c c' hcc hc hq i hi j hj
        rw [← hcc _ ⟨hq, .inl ⟨i, j, hi, hj, rfl⟩⟩]
        exact hc hq i hi j hj
      · rintro q p ⟨hq, ⟨i, j, hi, hj, rfl⟩ | ⟨i, hi, rfl⟩⟩
        · exact hF0 _ (hpos q i j hi hj)
        · have := hmul q 4 hq
          have h2 := hF (bs * bs + q * K + i) (by omega)
          rwa [show off + (bs * bs + q * K + i) = off + bs * bs + q * K + i by omega] at h2
      · rintro q q' p ⟨hq, h1⟩ ⟨hq', h2⟩
        rcases h1 with ⟨i, j, hi, hj, rfl⟩ | ⟨i, hi, rfl⟩ <;>
          rcases h2 with ⟨i', j', hi', hj', he⟩ | ⟨i', hi', he⟩
        · exact offset_apart hq hq' hi hj hi' hj' (Nat.add_left_cancel he)
        · have := hpos q i j hi hj
          omega
        · have := hpos q' i' j' hi' hj'
          omega
        · rcases Nat.lt_trichotomy q q' with hlt | heq | hlt
          · have := hmul q q' hlt; omega
          · exact heq
          · have := hmul q' q hlt; omega
      · intro q u hu
        rw [List.getElem?_map] at hu
        rcases Nat.lt_or_ge q 4 with hq | hq
        · rw [List.getElem?_range hq] at hu
          cases hu
          have hsub : ∀ i, i < K → (q < 4 ∧ ((∃ i' j, i' < n ∧ j < n ∧
              off + bs * bs + q * K + i = off + (((offset n q).1 + i') * (2 * n) + ((offset n q).2 + j))) ∨
              ∃ i', i' < K ∧ off + bs * bs + q * K + i = off + bs * bs + q * K + i')) :=
            fun i hi => ⟨hq, .inr ⟨i, hi, rfl⟩⟩
          refine .seqCons (fun c' => ∀ i, i < n * n → (t q)[i]? = some (c' (off + bs * bs + q * K + i)))
            (local_region (fun i hi => hsub i (by omega)) _)
            (ih _ _ (off + bs * bs + q * K) (t q) (ht q hq).2 _ hsub c1) fun c2 hc2 => ?_
          have hent : ∀ i, i < n → ∀ j, j < n →
              c2 (off + bs * bs + q * K + (i * n + j)) = entry n (t q) i j := by
            intro i hi j hj
            rw [entry, hc2 _ (idx_lt hi hj)]; rfl
          refine .seqCons (fun c' => q < 4 → ∀ i, i < n → ∀ j, j < n →
            c' (off + (((offset n q).1 + i) * (2 * n) + ((offset n q).2 + j))) = entry n (t q) i j)
            ?_ (.act ?_) fun c' hc' => .seqNil hc'
          · intro c c' hcc hc hq i hi j hj
            rw [← hcc _ ⟨hq, .inl ⟨i, j, hi, hj, rfl⟩⟩]
            exact hc hq i hi j hj
          · refine Act.wp_mono (extract_wp (s := entry n (t q))
              (fun i hi j hj => hsub _ (Nat.lt_of_lt_of_le (idx_lt hi hj) hge'))
              (fun i hi j hj => ⟨⟨hq, .inl ⟨i, j, hi, hj, rfl⟩⟩, hpos q i j hi hj⟩)
              (offset_le n q).2 (by omega) hent) fun _ c' hc' _ => hc'
        · rw [List.getElem?_eq_none (by simpa using hq)] at hu
          cases hu
      · intro c' hQ hun i hi
        rw [applyA_get, zeros, Array.getElem?_replicate, if_pos hi, Option.map_some]
        congr 1
        by_cases hex : ∃ q a b, q < 4 ∧ a < n ∧ b < n ∧
            i = ((offset n q).1 + a) * (2 * n) + ((offset n q).2 + b)
        · obtain ⟨q, a, b, hq, ha, hb, rfl⟩ := hex
          rw [quadUpd_cell hq ha hb, hQ q (by simpa using hq) hq a ha b hb]
        · rw [cellFold_none, hun (off + i) (hF0 i hi), hc1 i hi]
          · rintro q _ ⟨hq, ⟨a, b, ha, hb, he⟩ | ⟨a, ha, he⟩⟩
            · exact hex ⟨q, a, b, hq, ha, hb, Nat.add_left_cancel he⟩
            · omega
          · intro u hu he
            obtain ⟨q, a, b, hq, ha, hb, h5⟩ := quadUpd_mem hu
            exact hex ⟨q, a, b, hq, ha, hb, he ▸ h5⟩
    · rw [tasks_leaf h]
      rw [distribute_leaf h] at hv
      have hv' : calculate_submatrix s x y bs = .ok v := by
        have : (ND.ofM (.ok v) : ND (Array α)) (.ok v) := rfl
        rw [← hv] at this
        exact this.symm
      exact .act (leaf_wp hv' hF0 c)

/-! ### Outcomes -/

theorem toArray_eq {n : Nat} {v : Array α} {c : Nat → α} (hv : v.size = n)
    (h : ∀ i, i < n → v[i]? = some (c i)) : toArray n c = v := by
  apply Array.ext_getElem?
  intro p
  rw [toArray, Array.getElem?_ofFn]
  split
  · rename_i hp; rw [h p hp]
  · rw [Array.getElem?_eq_none (by omega)]

theorem run_toArray {A F} {t : Tree α} {n : Nat} {v : Array α} (hv : v.size = n) {c : Nat → α} {fl}
    (h : WP A F t (fun c' => ∀ i, i < n → v[i]? = some (c' i)) c) :
    ND.bind (ND.run c fl t) (fun c' => ND.pure (toArray n c')) = ND.pure v := by
  have hr := h.run (fl := fl)
  refine ND.eq_pure (r := v) ?_ ?_
  · rintro o (⟨e, he, rfl⟩ | ⟨c', hc', ho⟩)
    · obtain ⟨_, h1, _⟩ := hr.1 _ he
      cases h1
    · obtain ⟨d, h1, h2, _⟩ := hr.1 _ hc'
      cases h1
      rw [toArray_eq hv h2] at ho
      exact ho
  · obtain ⟨o, ho⟩ := hr.2
    obtain ⟨d, rfl, _, _⟩ := hr.1 o ho
    exact ⟨_, .inr ⟨d, ho, rfl⟩⟩

theorem startMem_zero {n i : Nat} (junk : Nat → α) (h : i < n) :
    (zeros n : Array α)[i]? = some (startMem n junk i) := by
  rw [startMem, if_pos h, zeros, Array.getElem?_replicate, if_pos h]

theorem ofM_of_ok {x : ND R} {r : R} (hx : ∃ o, x = ND.ofM o) (h : x (.ok r)) :
    x = ND.ofM (.ok r) := by
  obtain ⟨o, rfl⟩ := hx
  rw [show o = .ok r from h.symm]

theorem single_wp {N : Nat} {A B C : Array α} {transposed : Bool} {br bi reps : Nat}
    (h : Recursive.single_matrix_multiply N A B transposed br bi reps (.ok C)) (junk : Nat → α) :
    C.size = N * N ∧
    WP false (fun _ => True) (single_tasks N A B transposed br bi reps)
      (fun c' => ∀ i, i < N * N → C[i]? = some (c' i)) (startMem (N * N) junk) := by
  unfold Recursive.single_matrix_multiply at h
  rcases Nat.eq_zero_or_pos reps with rfl | hr
  · rw [forStep_nil (Nat.le_refl _)] at h
    cases h
    exact ⟨zeros_size _, .seqNil fun i hi => startMem_zero junk hi⟩
  · rw [nd_repeat _ _ _ hr] at h
    refine ⟨distribute_size (fun _ _ _ _ h => calculate_size h) _ _ _ C h, ?_⟩
    have hD := ofM_of_ok (distribute_det (fun _ _ _ _ h => calculate_size h) _ _ _) h
    have := WP.replicate (A := false) (F := fun _ => True)
      (t := distribute_recursively ⟨N, A, B, transposed, bi⟩ br 0 0 0 N)
      (P := fun k c' => ∀ i, i < N * N → (if k = 0 then zeros (N * N) else C)[i]? = some (c' i))
      (fun k c c' hcc hc i hi => by rw [← hcc i trivial]; exact hc i hi)
      (fun k c _ => (distribute_wp N 0 0 0 C hD (fun _ => True) (fun _ _ => trivial) c).mono
        fun c' hc' i hi => by
          rw [if_neg (by omega), hc' i hi, Nat.zero_add]) reps 0 (startMem (N * N) junk)
      (fun i hi => by rw [if_pos rfl]; exact startMem_zero junk hi)
    refine this.mono fun c' hc' i hi => ?_
    have h1 := hc' i hi
    rwa [if_neg (by omega)] at h1

/-! ### The distributed multiplication -/

/-- First cell of the region of package `n`. -/
def base (br off : Nat) (ws : List Work) (n : Nat) : Nat :=
  off + ((ws.take n).map fun w => cells br w.N).sum

theorem package_get {s : Multiplier α} {N br : Nat} (ws : List Work) : ∀ (off n : Nat),
    (package_tasks s N br off ws)[n]? = (ws[n]?).map fun w =>
      .seq [distribute_recursively s br (base br off ws n) w.x w.y w.N,
        .act (insert_submatrix N (base br off ws n) w)] := by
  induction ws with
  | nil => intro off n; simp [package_tasks]
  | cons w ws ih =>
    intro off n
    cases n with
    | zero => simp [package_tasks, base]
    | succ n =>
      simp only [package_tasks, List.getElem?_cons_succ, ih]
      simp only [base, List.take_succ_cons, List.map_cons, List.sum_cons, Nat.add_assoc]

theorem base_ge (br off : Nat) (ws : List Work) (n : Nat) : off ≤ base br off ws n := by
  unfold base; omega

theorem base_apart {br : Nat} (ws : List Work) : ∀ {off n n' : Nat} {w : Work}, ws[n]? = some w →
    n < n' → base br off ws n + cells br w.N ≤ base br off ws n' := by
  induction ws with
  | nil => intro off n n' w h; simp at h
  | cons v ws ih =>
    intro off n n' w h hlt
    obtain ⟨m, rfl⟩ : ∃ m, n' = m + 1 := ⟨n' - 1, by omega⟩
    cases n with
    | zero =>
      simp only [List.getElem?_cons_zero, Option.some.injEq] at h
      subst h
      simp only [base, List.take_zero, List.map_nil, List.sum_nil, List.take_succ_cons,
        List.map_cons, List.sum_cons]
      omega
    | succ n =>
      simp only [List.getElem?_cons_succ] at h
      have := ih (off := off) h (show n < m by omega)
      simp only [base, List.take_succ_cons, List.map_cons, List.sum_cons] at this ⊢
      omega

theorem package_length {s : Multiplier α} {N br : Nat} (ws : List Work) : ∀ off,
    (package_tasks s N br off ws).length = ws.length := by
  induction ws with
  | nil => intro off; rfl
  | cons w ws ih => intro off; simp [package_tasks, ih]

/-- All updates of the result in one repetition, if package `w` yields the vector `g w`. -/
def allUpd (N : Nat) (g : Work → Array α) (ws : List Work) : List (Upd α) :=
  ws.flatMap fun w => insertUpd N (entry w.N (g w)) w

theorem allUpd_pairwise {N : Nat} (g : Work → Array α) {ws : List Work}
    (hin : ∀ w ∈ ws, w.x + w.N ≤ N ∧ w.y + w.N ≤ N) (hap : ws.Pairwise Apart) :
    ws.Pairwise fun w w' => ∀ u ∈ insertUpd N (entry w.N (g w)) w,
      ∀ v ∈ insertUpd N (entry w'.N (g w')) w', u.1 ≠ v.1 := by
  refine List.Pairwise.imp_of_mem ?_ hap
  intro w w' hw hw' h u hu v hv he
  obtain ⟨r, c, h1, h2⟩ := insertUpd_pos hu
  obtain ⟨r', c', h1', h2'⟩ := insertUpd_pos hv
  rw [h2, h2'] at he
  have a := hin w hw
  have a' := hin w' hw'
  obtain ⟨rfl, rfl⟩ := idx_inj (show c < N by unfold Covers at h1; omega)
    (show c' < N by unfold Covers at h1'; omega) he
  exact h r c h1 h1'

theorem insertUpd_entry {N : Nat} {f : Nat → Nat → α} {w : Work} (hy : w.y + w.N ≤ N)
    {i j : Nat} (hi : i < w.N) (hj : j < w.N) (v : α) :
    cellFold (insertUpd N f w) ((w.x + i) * N + (w.y + j)) v = f i j := by
  have := insertUpd_cell (G := fun r c => f (r - w.x) (c - w.y)) hy
    (r := w.x + i) (c := w.y + j) (by unfold Covers; omega) v
  have hf : (fun i j => f (w.x + i - w.x) (w.y + j - w.y)) = f := by
    funext a b
    rw [Nat.add_sub_cancel_left, Nat.add_sub_cancel_left]
  simp only [Nat.add_sub_cancel_left] at this
  exact this

/-- One repetition. -/
theorem packages_wp {s : Multiplier α} {N br : Nat} {ws : List Work} {g : Work → Array α}
    (hg : ∀ w ∈ ws, Recursive.distribute_recursively (calculate_submatrix s) br w.x w.y w.N =
      ND.ofM (.ok (g w)))
    (hin : ∀ w ∈ ws, w.x + w.N ≤ N ∧ w.y + w.N ≤ N) (hap : ws.Pairwise Apart) (c : Nat → α) :
    WP false (fun _ => True) (.par (package_tasks s N br (N * N) ws))
      (fun c' => ∀ p, p < N * N → c' p = cellFold (allUpd N g ws) p (c p)) c := by
  have hpw := allUpd_pairwise g hin hap
  -- two packages that update the same cell are the same
  have hsame : ∀ (n n' : Nat) (w w' : Work), ws[n]? = some w → ws[n']? = some w' → ∀ i j i' j',
      i < w.N → j < w.N → i' < w'.N → j' < w'.N →
      (w.x + i) * N + (w.y + j) = (w'.x + i') * N + (w'.y + j') → n = n' := by
    intro n n' w w' hn hn' i j i' j' hi hj hi' hj' he
    apply Classical.byContradiction
    intro hne
    have a := hin w (List.mem_of_getElem? hn)
    have a' := hin w' (List.mem_of_getElem? hn')
    obtain ⟨h1, h2⟩ := idx_inj (show w.y + j < N by omega) (show w'.y + j' < N by omega) he
    have hc : Covers w (w.x + i) (w.y + j) := by unfold Covers; omega
    have hc' : Covers w' (w.x + i) (w.y + j) := by unfold Covers; omega
    rw [List.pairwise_iff_getElem] at hap
    obtain ⟨h3, rfl⟩ := List.getElem?_eq_some_iff.1 hn
    obtain ⟨h4, rfl⟩ := List.getElem?_eq_some_iff.1 hn'
    rcases Nat.lt_or_gt_of_ne hne with hlt | hlt
    · exact hap n n' h3 h4 hlt _ _ hc hc'
    · exact hap n' n h4 h3 hlt _ _ hc' hc
  refine .par
    (fun n p => ∃ w, ws[n]? = some w ∧ ((∃ i j, i < w.N ∧ j < w.N ∧
      p = (w.x + i) * N + (w.y + j)) ∨ ∃ i, i < cells br w.N ∧ p = base br (N * N) ws n + i))
    (fun n c' => ∀ w, ws[n]? = some w → ∀ i, i < w.N → ∀ j, j < w.N →
      c' ((w.x + i) * N + (w.y + j)) = entry w.N (g w) i j) ?_ ?_ ?_ ?_ ?_
  · intro n c c' hcc hc w hw i hi j hj
    rw [← hcc _ ⟨w, hw, .inl ⟨i, j, hi, hj, rfl⟩⟩]
    exact hc w hw i hi j hj
  · exact fun _ _ _ => trivial
  · rintro n n' p ⟨w, hw, h1⟩ ⟨w', hw', h2⟩
    have a := hin w (List.mem_of_getElem? hw)
    have a' := hin w' (List.mem_of_getElem? hw')
    rcases h1 with ⟨i, j, hi, hj, rfl⟩ | ⟨i, hi, rfl⟩ <;>
      rcases h2 with ⟨i', j', hi', hj', he⟩ | ⟨i', hi', he⟩
    · exact hsame n n' w w' hw hw' i j i' j' hi hj hi' hj' he
    · have h3 := idx_lt (show w.x + i < N by omega) (show w.y + j < N by omega)
      have h4 := base_ge br (N * N) ws n'
      omega
    · have h3 := idx_lt (show w'.x + i' < N by omega) (show w'.y + j' < N by omega)
      have h4 := base_ge br (N * N) ws n
      omega
    · rcases Nat.lt_trichotomy n n' with hlt | heq | hlt
      · have := base_apart (br := br) (off := N * N) ws hw hlt; omega
      · exact heq
      · have := base_apart (br := br) (off := N * N) ws hw' hlt; omega
  · intro n t ht
    rw [package_get] at ht
    cases hw : ws[n]? with
    | none => rw [hw] at ht; cases ht
    | some w =>
      rw [hw] at ht; cases ht
      have hmem := List.mem_of_getElem? hw
      have hge := cells_ge br w.N
      have hsub : ∀ i, i < cells br w.N → ∃ w', some w = some w' ∧ ((∃ i' j, i' < w'.N ∧ j < w'.N ∧
          base br (N * N) ws n + i = (w'.x + i') * N + (w'.y + j)) ∨
          ∃ i', i' < cells br w'.N ∧ base br (N * N) ws n + i = base br (N * N) ws n + i') :=
        fun i hi => ⟨w, rfl, .inr ⟨i, hi, rfl⟩⟩
      refine .seqCons (fun c' => ∀ i, i < w.N * w.N → (g w)[i]? = some (c' (base br (N * N) ws n + i)))
        (local_region (fun i hi => hsub i (by omega)) _)
        (distribute_wp w.N w.x w.y _ (g w) (hg w hmem) _ hsub c) fun c2 hc2 => ?_
      have hent : ∀ i, i < w.N → ∀ j, j < w.N →
          c2 (base br (N * N) ws n + (i * w.N + j)) = entry w.N (g w) i j := by
        intro i hi j hj
        rw [entry, hc2 _ (idx_lt hi hj)]; rfl
      refine .seqCons (fun c' => ∀ i, i < w.N → ∀ j, j < w.N →
          c' ((w.x + i) * N + (w.y + j)) = entry w.N (g w) i j) ?_ (.act ?_) fun c' hc' =>
          .seqNil fun w' hw' => by cases hw'; exact hc'
      · intro c c' hcc hc i hi j hj
        rw [← hcc _ ⟨w, rfl, .inl ⟨i, j, hi, hj, rfl⟩⟩]
        exact hc i hi j hj
      · exact insert_wp (s := entry w.N (g w))
          (fun i hi j hj => hsub _ (Nat.lt_of_lt_of_le (idx_lt hi hj) hge))
          (fun i hi j hj => ⟨w, rfl, .inl ⟨i, j, hi, hj, rfl⟩⟩)
          (hin w hmem).1 (hin w hmem).2 (base_ge _ _ _ _) hent
  · intro c' hQ hun p hp
    rw [package_length] at hQ hun
    by_cases hex : ∃ (n : Nat) (w : Work), ws[n]? = some w ∧ ∃ i j, i < w.N ∧ j < w.N ∧ p = (w.x + i) * N + (w.y + j)
    · obtain ⟨n, w, hw, i, j, hi, hj, rfl⟩ := hex
      have hlt := (List.getElem?_eq_some_iff.1 hw).1
      rw [hQ n hlt w hw i hi j hj]
      unfold allUpd
      rw [cellFold_flatMap_owner hpw hw]
      · exact (insertUpd_entry (hin w (List.mem_of_getElem? hw)).2 hi hj _).symm
      · refine ⟨((w.x + i) * N + (w.y + j), fun _ => entry w.N (g w) i j), ?_, rfl⟩
        simp only [insertUpd, List.mem_flatMap, List.mem_range, List.mem_singleton]
        exact ⟨i, hi, j, hj, rfl⟩
    · rw [cellFold_none, hun p trivial]
      · rintro n _ ⟨w, hw, ⟨i, j, hi, hj, he⟩ | ⟨i, hi, he⟩⟩
        · exact hex ⟨n, w, hw, i, j, hi, hj, he⟩
        · have := base_ge br (N * N) ws n
          omega
      · intro u hu he
        obtain ⟨w, hw, hu⟩ := List.mem_flatMap.1 hu
        simp only [insertUpd, List.mem_flatMap, List.mem_range, List.mem_singleton] at hu
        obtain ⟨i, hi, j, hj, rfl⟩ := hu
        obtain ⟨n, hn⟩ := List.mem_iff_getElem?.1 hw
        exact hex ⟨n, w, hn, i, j, hi, hj, he.symm⟩

/-- The vector `C` after `n` repetitions. -/
def after (us : List (Upd α)) (C : Array α) (n : Nat) : Array α :=
  (List.range n).foldl (fun C _ => applyA us C) C

theorem after_succ (us : List (Upd α)) (C : Array α) (n : Nat) :
    after us C (n + 1) = applyA us (after us C n) := by
  simp [after, List.range_succ]

theorem after_size (us : List (Upd α)) (C : Array α) (n : Nat) : (after us C n).size = C.size := by
  induction n with
  | zero => rfl
  | succ n ih => rw [after_succ, applyA_size, ih]

theorem improved_wp {s : Multiplier α} {N br : Nat} {ws : List Work} {g : Work → Array α}
    (hg : ∀ w ∈ ws, Recursive.distribute_recursively (calculate_submatrix s) br w.x w.y w.N =
      ND.ofM (.ok (g w)))
    (hin : ∀ w ∈ ws, w.x + w.N ≤ N ∧ w.y + w.N ≤ N) (hap : ws.Pairwise Apart) (reps : Nat)
    (junk : Nat → α) :
    WP false (fun _ => True) (improved_tasks s N br reps ws)
      (fun c' => ∀ p, p < N * N → (after (allUpd N g ws) (zeros (N * N)) reps)[p]? = some (c' p))
      (startMem (N * N) junk) := by
  unfold improved_tasks
  have := WP.replicate (A := false) (F := fun _ => True)
    (t := .par (package_tasks s N br (N * N) ws))
    (P := fun k c' => ∀ p, p < N * N → (after (allUpd N g ws) (zeros (N * N)) k)[p]? = some (c' p))
    (fun k c c' hcc hc i hi => by rw [← hcc i trivial]; exact hc i hi)
    (fun k c hc => (packages_wp hg hin hap c).mono fun c' hc' p hp => by
      rw [after_succ, applyA_get, hc p hp, hc' p hp]; rfl)
    reps 0 (startMem (N * N) junk) (fun i hi => startMem_zero junk hi)
  rwa [Nat.zero_add] at this

/-- Either all packages return, or the collection of the results fails. -/
theorem computePackages_cases {mult : Nat → Nat → Nat → M (Array α)} {br : Nat}
    (hm : ∀ x y bs C, mult x y bs = .ok C → C.size = bs * bs) (ws : List Work) :
    (∀ w ∈ ws, ∃ v, Recursive.distribute_recursively mult br w.x w.y w.N = ND.ofM (.ok v)) ∨
    ∃ e, computePackages mult br ws = ND.ofM (.error e) := by
  induction ws with
  | nil => exact .inl fun w hw => by simp at hw
  | cons w ws ih =>
    obtain ⟨o, ho⟩ := distribute_det hm w.N w.x w.y (br := br)
    cases o with
    | error e =>
      right
      refine ⟨e, ?_⟩
      rw [computePackages, ho, ofM_bind_error]
    | ok v =>
      rcases ih with h | ⟨e, he⟩
      · left
        intro w' hw'
        rcases List.mem_cons.1 hw' with rfl | hw'
        · exact ⟨v, ho⟩
        · exact h w' hw'
      · right
        refine ⟨e, ?_⟩
        rw [computePackages, ho, ND.ofM_ok, ND.pure_bind', he, ofM_bind_error]

theorem improved_inv {N : Nat} {A B C : Array α} {transposed : Bool}
    {bi br reps : Nat} {ws : List Work}
    (hin : ∀ w ∈ ws, w.x + w.N ≤ N ∧ w.y + w.N ≤ N) (hap : ws.Pairwise Apart) (hr : 0 < reps)
    (h : forStep (m := ND) 0 reps 1 (zeros (N * N)) (fun _ C => do
      let subs ← computePackages (calculate_submatrix ⟨N, A, B, transposed, bi⟩) br ws
      ND.runOn C (.par (subs.map fun ws => .act (StaticImproved.insert_submatrix N ws.2 ws.1))))
      (.ok C)) :
    ∃ g : Work → Array α, (∀ w ∈ ws, Recursive.distribute_recursively
        (calculate_submatrix ⟨N, A, B, transposed, bi⟩) br w.x w.y w.N = ND.ofM (.ok (g w))) ∧
      C = after (allUpd N g ws) (zeros (N * N)) reps := by
  rw [forStep_eq (by decide), steps_one] at h
  rcases computePackages_cases (br := br)
    (mult := calculate_submatrix ⟨N, A, B, transposed, bi⟩) (fun _ _ _ _ h => calculate_size h) ws
    with hall | ⟨e, he⟩
  · have hall' : ∀ w, ∃ v, w ∈ ws → Recursive.distribute_recursively
        (calculate_submatrix ⟨N, A, B, transposed, bi⟩) br w.x w.y w.N = ND.ofM (.ok v) := by
      intro w
      by_cases hw : w ∈ ws
      · obtain ⟨v, hv⟩ := hall w hw; exact ⟨v, fun _ => hv⟩
      · exact ⟨#[], fun h => absurd h hw⟩
    obtain ⟨g, hg⟩ := Classical.axiomOfChoice hall'
    refine ⟨g, hg, ?_⟩
    have hsz : ∀ w ∈ ws, (g w).size = w.N * w.N := fun w hw =>
      distribute_size (fun _ _ _ _ h => calculate_size h) _ _ _ _ (by rw [hg w hw]; rfl)
    have hdo : Tree.Does false (.par (ws.map ((fun ws : Work × Array α =>
        Tree.act (StaticImproved.insert_submatrix N ws.2 ws.1)) ∘ fun w => (w, g w))))
        (allUpd N g ws) :=
      Tree.Does.par (fun w hw => .act (insert_does (holds_entry (hsz w hw)) (hin w hw).1 (hin w hw).2))
        (allUpd_pairwise g hin hap)
    have hbody : ∀ C : Array α, (do
        let subs ← computePackages (calculate_submatrix ⟨N, A, B, transposed, bi⟩) br ws
        ND.runOn C (.par (subs.map fun ws => .act (StaticImproved.insert_submatrix N ws.2 ws.1))))
        = (pure (applyA (allUpd N g ws) C) : ND _) := by
      intro C
      rw [computePackages_eq (g := g) fun w hw => hg w hw, ND.pure_bind', List.map_map]
      exact hdo.runOn C
    simp only [hbody] at h
    have hfold : ∀ (l : List Nat) (C : Array α),
        (l.foldlM (fun C _ => (pure (applyA (allUpd N g ws) C) : ND _)) C) =
          (pure (l.foldl (fun C _ => applyA (allUpd N g ws) C) C) : ND _) := by
      intro l
      induction l with
      | nil => exact fun C => rfl
      | cons a l ih => intro C; rw [List.foldlM_cons, ND.pure_bind', ih, List.foldl_cons]
    rw [hfold] at h
    cases h
    rfl
  · obtain ⟨k, rfl⟩ : ∃ k, reps = k + 1 := ⟨reps - 1, by omega⟩
    rw [List.range_succ_eq_map, List.foldlM_cons, he, ofM_bind_error, ofM_bind_error] at h
    cases h

end Async
end Verif
