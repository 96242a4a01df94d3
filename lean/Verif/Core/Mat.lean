import Verif.Core.Upd
import Verif.Spec
/-
Lemmas about the specification vocabulary.
-/
namespace Verif
variable {α : Type}

theorem idx_lt {i j m n : Nat} (hi : i < m) (hj : j < n) : i * n + j < m * n := by
  have : (i + 1) * n ≤ m * n := Nat.mul_le_mul_right n hi
  rw [Nat.add_mul] at this; omega

theorem idx_div {i j n : Nat} (hj : j < n) : (i * n + j) / n = i := by
  rw [Nat.mul_comm, Nat.mul_add_div (by omega), Nat.div_eq_of_lt hj, Nat.add_zero]

theorem idx_mod {i j n : Nat} (hj : j < n) : (i * n + j) % n = j := by
  rw [Nat.mul_comm, Nat.mul_add_mod, Nat.mod_eq_of_lt hj]

theorem idx_inj {i j i' j' n : Nat} (hj : j < n) (hj' : j' < n)
    (h : i * n + j = i' * n + j') : i = i' ∧ j = j' := by
  constructor
  · rw [← idx_div (i := i) hj, h, idx_div hj']
  · rw [← idx_mod (i := i) hj, h, idx_mod hj']

@[simp] theorem rect_size (m n : Nat) (f : Nat → Nat → α) : (rect m n f).size = m * n := by
  simp [rect]

theorem holds_rect (m n : Nat) (f : Nat → Nat → α) : Holds (rect m n f) m n f := by
  intro i hi j hj
  have h := idx_lt hi hj
  simp only [rect, Array.getElem?_ofFn, h, dif_pos, idx_div hj, idx_mod hj]

theorem eq_rect {v : Array α} {m n : Nat} {f : Nat → Nat → α} (hs : v.size = m * n)
    (h : Holds v m n f) : v = rect m n f := by
  apply Array.ext_getElem?
  intro p
  by_cases hp : p < m * n
  · have hn : 0 < n := by
      rcases Nat.eq_zero_or_pos n with rfl | h
      · simp at hp
      · exact h
    have h1 : p / n < m := by rwa [Nat.div_lt_iff_lt_mul hn]
    have h2 : p % n < n := Nat.mod_lt _ hn
    have h3 : p / n * n + p % n = p := by rw [Nat.mul_comm]; exact Nat.div_add_mod p n
    have := h (p / n) h1 (p % n) h2
    have h' := holds_rect m n f (p / n) h1 (p % n) h2
    rw [h3] at this h'
    rw [this, h']
  · rw [Array.getElem?_eq_none (by omega), Array.getElem?_eq_none (by simp; omega)]

theorem rect_congr {m n : Nat} {f g : Nat → Nat → α} (h : ∀ i, i < m → ∀ j, j < n → f i j = g i j) :
    rect m n f = rect m n g := by
  symm
  refine eq_rect (by simp) fun i hi j hj => ?_
  rw [holds_rect m n g i hi j hj, h i hi j hj]

theorem Holds.size_le {v : Array α} {m n : Nat} {f : Nat → Nat → α} (h : Holds v m n f) :
    m * n ≤ v.size := by
  rcases Nat.eq_zero_or_pos m with rfl | hm
  · simp
  rcases Nat.eq_zero_or_pos n with rfl | hn
  · simp
  have := h (m - 1) (by omega) (n - 1) (by omega)
  have h1 := (Array.getElem?_eq_some_iff.1 this).1
  have : (m - 1) * n + n = m * n := by
    rw [← Nat.succ_mul]; congr 1; omega
  omega

theorem rd_ok {v : Array α} {i : Nat} {x : α} (h : v[i]? = some x) : rd v i = .ok x := by
  simp [rd, h]

theorem rdAt_ok {v : Array α} {i : Nat} {x : α} (h : v[i]? = some x) : rdAt v i = .ok x := by
  simp [rdAt, h]

theorem rd_oob {v : Array α} {i : Nat} (h : v.size ≤ i) : rd v i = .error .oob := by
  simp [rd, Array.getElem?_eq_none h]

theorem rdAt_err {v : Array α} {i : Nat} (h : v.size ≤ i) : rdAt v i = .error .outOfRange := by
  simp [rdAt, Array.getElem?_eq_none h]

theorem Holds.rd {v : Array α} {m n : Nat} {f : Nat → Nat → α} (h : Holds v m n f) {i j : Nat}
    (hi : i < m) (hj : j < n) : rd v (i * n + j) = .ok (f i j) := rd_ok (h i hi j hj)

theorem Holds.rdAt {v : Array α} {m n : Nat} {f : Nat → Nat → α} (h : Holds v m n f) {i j : Nat}
    (hi : i < m) (hj : j < n) : rdAt v (i * n + j) = .ok (f i j) := rdAt_ok (h i hi j hj)

theorem MDoes.wr {i : Nat} {v : α} : MDoes (fun a => wr a i v) [(i, fun _ => v)] := by
  intro a ha
  have : i < a.size := ha _ (List.mem_singleton.2 rfl)
  simp only [Verif.wr, if_pos this]
  rfl

theorem wrAt_eq {a : Array α} {i : Nat} {v : α} (h : i < a.size) : wrAt a i v = wr a i v := by
  simp [wrAt, wr, h]

theorem MDoes.wrAt {i : Nat} {v : α} : MDoes (fun a => wrAt a i v) [(i, fun _ => v)] := by
  intro a ha
  have : i < a.size := ha _ (List.mem_singleton.2 rfl)
  show Verif.wrAt a i v = _
  rw [wrAt_eq this]
  exact MDoes.wr a ha

/-- The value found in row `i`, column `j` after a list of updates. -/
theorem applyA_rect {m n : Nat} {us : List (Upd α)} {a : Array α} {f g : Nat → Nat → α}
    (hs : a.size = m * n) (ha : Holds a m n f)
    (h : ∀ i, i < m → ∀ j, j < n → cellFold us (i * n + j) (f i j) = g i j) :
    applyA us a = rect m n g := by
  refine eq_rect (by simp [hs]) fun i hi j hj => ?_
  rw [applyA_get, ha i hi j hj]
  simp [h i hi j hj]

theorem zeros_holds [Arith α] (m n : Nat) :
    Holds (zeros (m * n) : Array α) m n (fun _ _ => Arith.zero) := by
  intro i hi j hj
  simp [zeros, idx_lt hi hj]

@[simp] theorem zeros_size [Arith α] (n : Nat) : (zeros n : Array α).size = n := by simp [zeros]

/-- The innermost loop of a matrix multiplication: accumulate `f k * g k`. -/
theorem dot_loop [Arith α] {n : Nat} {body : Nat → α → M α} {f g : Nat → α}
    (h : ∀ k, k < n → ∀ acc, body k acc = .ok (Arith.mac acc (f k) (g k))) :
    forStep 0 n 1 Arith.zero body = .ok (dot n f g) := by
  rw [forStep_ok (g := fun acc k => Arith.mac acc (f k) (g k)) (by decide)]
  · rw [steps_one]; rfl
  · intro k hk acc
    rw [steps_one, List.mem_range] at hk
    exact h k hk acc

/-- A task list writing row `i` of an `n`-column matrix, one task per row. -/
theorem rows_pairwise (N n : Nat) (g : Nat → Nat → α) :
    (List.range N).Pairwise fun i j =>
      ∀ u ∈ (List.range n).flatMap (fun c => [((i * n + c, fun _ => g i c) : Upd α)]),
      ∀ v ∈ (List.range n).flatMap (fun c => [((j * n + c, fun _ => g j c) : Upd α)]),
      u.1 ≠ v.1 := by
  refine List.nodup_range.imp fun {i j} hij u hu v hv he => hij ?_
  simp at hu hv
  obtain ⟨c, hc, rfl⟩ := hu
  obtain ⟨d, hd, rfl⟩ := hv
  exact (idx_inj hc hd he).1

theorem rows_cell {N n : Nat} (g : Nat → Nat → α) {i j : Nat} (hi : i < N) (hj : j < n) (x : α) :
    cellFold ((List.range N).flatMap fun i => (List.range n).flatMap fun c =>
      [((i * n + c, fun _ => g i c) : Upd α)]) (i * n + j) x = g i j := by
  rw [cellFold_flatMap_unique List.nodup_range (List.mem_range.2 hi)]
  · rw [cellFold_flatMap_unique List.nodup_range (List.mem_range.2 hj)]
    · simp
    · intro c hc hne u hu
      simp at hu hc; subst hu
      exact fun h => hne (by simpa using h)
  · intro i' hi' hne u hu
    simp at hu
    obtain ⟨c, hc, rfl⟩ := hu
    exact fun he => hne (idx_inj hc hj he).1

/-! `∀` properties of the returns and errors of tasks and trees -/

section
variable {R S ι : Type}

/-- On every path of the task, whatever values it reads, the returned value satisfies `P`
and the error satisfies `E`. -/
def Act.All (P : R → Prop) (E : Err → Prop) : Act α R → Prop
  | .ret r => P r
  | .fail e => E e
  | .rd _ k => ∀ v, (k v).All P E
  | .wr _ _ k => k.All P E
  | .rdFlag _ k => ∀ b, (k b).All P E
  | .wrFlag _ _ k => k.All P E

theorem Act.All.bind {P' : R → Prop} {P : S → Prop} {E} {p : Act α R} {f : R → Act α S}
    (hp : p.All P' E) (hf : ∀ r, P' r → (f r).All P E) : (p >>= f).All P E := by
  show (Act.bind p f).All P E
  induction p with
  | ret r => exact hf _ hp
  | fail e => exact hp
  | rd i k ih => exact fun v => ih v (hp v)
  | wr i v k ih => exact ih hp
  | rdFlag j k ih => exact fun b => ih b (hp b)
  | wrFlag j b k ih => exact ih hp

theorem Act.All.mono {P P' : R → Prop} {E E' : Err → Prop} {p : Act α R} (h : p.All P E)
    (hP : ∀ r, P r → P' r) (hE : ∀ e, E e → E' e) : p.All P' E' := by
  induction p with
  | ret r => exact hP _ h
  | fail e => exact hE _ h
  | rd i k ih => exact fun v => ih v (h v)
  | wr i v k ih => exact ih h
  | rdFlag j k ih => exact fun b => ih b (h b)
  | wrFlag j b k ih => exact ih h

theorem Act.All.ofM {P : R → Prop} {E : Err → Prop} {x : M R} (h1 : ∀ r, x = .ok r → P r)
    (h2 : ∀ e, x = .error e → E e) : (Act.ofM x : Act α R).All P E := by
  cases x with
  | ok r => exact h1 r rfl
  | error e => exact h2 e rfl

theorem Act.All.foldlM {P : S → Prop} {E : Err → Prop} {l : List ι} {f : S → ι → Act α S}
    (h : ∀ i ∈ l, ∀ s, P s → (f s i).All P E) {s : S} (hs : P s) : (l.foldlM f s).All P E := by
  induction l generalizing s with
  | nil => exact hs
  | cons i l ih =>
    rw [List.foldlM_cons]
    exact (h i (by simp) s hs).bind fun r hr => ih (fun j hj => h j (by simp [hj])) hr

/-- The task never returns normally. -/
abbrev Act.NoRet (p : Act α R) : Prop := p.All (fun _ => False) (fun _ => True)

theorem Act.all_true (p : Act α R) : p.All (fun _ => True) (fun _ => True) := by
  induction p with
  | ret r => trivial
  | fail e => trivial
  | rd i k ih => exact ih
  | wr i v k ih => exact ih
  | rdFlag j k ih => exact ih
  | wrFlag j b k ih => exact ih

theorem Act.NoRet.bind_left {p : Act α R} {f : R → Act α S} (h : p.NoRet) : (p >>= f).NoRet :=
  Act.All.bind h fun _ h => h.elim

theorem Act.NoRet.bind_right {p : Act α R} {f : R → Act α S} (h : ∀ r, (f r).NoRet) :
    (p >>= f).NoRet := Act.All.bind (Act.all_true p) fun r _ => h r

theorem Act.NoRet.foldlM {l : List ι} {f : S → ι → Act α S} {i0 : ι} (hi : i0 ∈ l)
    (h : ∀ s, (f s i0).NoRet) (s : S) : (l.foldlM f s).NoRet := by
  induction l generalizing s with
  | nil => cases hi
  | cons i l ih =>
    rw [List.foldlM_cons]
    rcases List.mem_cons.1 hi with rfl | hi
    · exact (h s).bind_left
    · exact Act.NoRet.bind_right fun r => ih hi r

/-- All tasks of the tree only raise errors satisfying `E`. -/
inductive Tree.Errs (E : Err → Prop) : Tree α → Prop
  | act {p : Act α Unit} : p.All (fun _ => True) E → Errs E (.act p)
  | seq {ts} : (∀ t ∈ ts, Errs E t) → Errs E (.seq ts)
  | par {ts} : (∀ t ∈ ts, Errs E t) → Errs E (.par ts)

theorem Tree.Errs.step {E} {t t' : Tree α} {m m'} (hs : PStep m t m' t') (h : t.Errs E) :
    t'.Errs E := by
  induction hs with
  | rd => cases h with | act h => exact .act (h _)
  | wr => cases h with | act h => exact .act h
  | rdFlag => cases h with | act h => exact .act (h _)
  | wrFlag => cases h with | act h => exact .act h
  | seqStep _ ih =>
    cases h with
    | seq h =>
      refine .seq fun t ht => ?_
      rcases List.mem_cons.1 ht with rfl | ht
      · exact ih (h _ (by simp))
      · exact h t (by simp [ht])
  | seqNext _ => cases h with | seq h => exact .seq fun t ht => h t (by simp [ht])
  | parStep n hn _ ih =>
    cases h with
    | par h =>
      refine .par fun t ht => ?_
      rcases List.mem_or_eq_of_mem_set ht with ht | rfl
      · exact h t ht
      · exact ih (h _ (List.mem_of_getElem? hn))

theorem Tree.Errs.failed {E} {t : Tree α} {e} (hf : Failed e t) (h : t.Errs E) : E e := by
  induction hf with
  | act => cases h with | act h => exact h
  | seq _ ih => cases h with | seq h => exact ih (h _ (by simp))
  | par hm _ ih => cases h with | par h => exact ih (h _ hm)

theorem Tree.Errs.steps {E} {t t' : Tree α} {m m'} (hs : PSteps m t m' t') (h : t.Errs E) :
    t'.Errs E := by
  induction hs with
  | refl => exact h
  | step hs _ ih => exact ih (h.step hs)

/-- Some task of the tree never returns, so the tree never completes. -/
inductive Tree.Stuck : Tree α → Prop
  | act {p : Act α Unit} : p.NoRet → Stuck (.act p)
  | seq {t ts} : t ∈ ts → Stuck t → Stuck (.seq ts)
  | par {t ts} : t ∈ ts → Stuck t → Stuck (.par ts)

theorem Tree.Stuck.not_done {t : Tree α} (h : t.Stuck) : ¬ Done t := by
  induction h with
  | act h => intro hd; cases hd; exact h
  | seq hm _ _ => intro hd; cases hd; cases hm
  | par hm _ ih => intro hd; cases hd with | par hd => exact ih (hd _ hm)

theorem Tree.Stuck.step {t t' : Tree α} {m m'} (hs : PStep m t m' t') (h : t.Stuck) :
    t'.Stuck := by
  induction hs with
  | rd => cases h with | act h => exact .act (h _)
  | wr => cases h with | act h => exact .act h
  | rdFlag => cases h with | act h => exact .act (h _)
  | wrFlag => cases h with | act h => exact .act h
  | seqStep _ ih =>
    cases h with
    | seq hm h =>
      rcases List.mem_cons.1 hm with rfl | hm
      · exact .seq (List.mem_cons_self ..) (ih h)
      · exact .seq (List.mem_cons_of_mem _ hm) h
  | seqNext hd =>
    cases h with
    | seq hm h =>
      rcases List.mem_cons.1 hm with rfl | hm
      · exact absurd hd h.not_done
      · exact .seq hm h
  | parStep n hn _ ih =>
    rename_i t t' ts _
    cases h with
    | @par u _ hm h =>
      obtain ⟨k, hk⟩ := List.mem_iff_getElem?.1 hm
      by_cases hkn : n = k
      · subst hkn
        rw [hn] at hk; cases hk
        refine .par (List.mem_iff_getElem?.2 ⟨n, ?_⟩) (ih h)
        rw [List.getElem?_set_self]
        exact (List.getElem?_eq_some_iff.1 hn).1
      · refine .par (List.mem_iff_getElem?.2 ⟨k, ?_⟩) h
        rw [List.getElem?_set_ne hkn, hk]

theorem Tree.Stuck.steps {t t' : Tree α} {m m'} (hs : PSteps m t m' t') (h : t.Stuck) :
    t'.Stuck := by
  induction hs with
  | refl => exact h
  | step hs _ ih => exact ih (h.step hs)

theorem runOn_error [Arith α] {a : Array α} {t : Tree α} {E} (h : t.Errs E) {e}
    (ho : ND.runOn a t (.error e)) : E e := by
  rcases ho with ⟨e', ho, he⟩ | ⟨r, _, hr⟩
  · cases he
    rcases ho with ⟨m', t', _, _, he⟩ | ⟨m', t', e', hs, hf, he⟩
    · cases he
    · cases he; exact (h.steps hs).failed hf
  · cases hr

theorem runOn_stuck [Arith α] {a b : Array α} {t : Tree α} (h : t.Stuck) :
    ¬ ND.runOn a t (.ok b) := by
  rintro (⟨e', _, he⟩ | ⟨r, ho, _⟩)
  · cases he
  · rcases ho with ⟨m', t', hs, hd, _⟩ | ⟨m', t', e', _, _, he⟩
    · exact (h.steps hs).not_done hd
    · cases he

/-- A program on a shared vector always has some outcome. -/
theorem runOn_exists [Arith α] (a : Array α) (t : Tree α) : ∃ o, ND.runOn a t o := by
  obtain ⟨m', t', hs, hd | ⟨e, hf⟩⟩ :=
    exists_end (Mem.ofArray a) t
  · exact ⟨_, .inr ⟨_, .inl ⟨m', t', hs, hd, rfl⟩, rfl⟩⟩
  · exact ⟨_, .inl ⟨e, .inr ⟨m', t', e, hs, hf, rfl⟩, rfl⟩⟩
end

end Verif
