import Verif.Core.Drf
import Verif.Core.Loop
/-
Programs described by the list of cell updates they perform.
-/
namespace Verif
variable {α R S σ ι : Type}

/-- An update of one cell: position and function applied to the old value. -/
abbrev Upd (α : Type) := Nat × (α → α)

/-- Effect of a list of updates on the value of cell `p`. -/
def cellFold (us : List (Upd α)) (p : Nat) (x : α) : α :=
  us.foldl (fun x u => if u.1 = p then u.2 x else x) x

/-- Effect of a list of updates on all cells. -/
def applyF (us : List (Upd α)) (c : Nat → α) : Nat → α := fun p => cellFold us p (c p)

/-- Effect of a list of updates on a vector. -/
def applyA (us : List (Upd α)) (a : Array α) : Array α :=
  us.foldl (fun a u => a.modify u.1 u.2) a

@[simp] theorem cellFold_nil (p : Nat) (x : α) : cellFold [] p x = x := rfl

@[simp] theorem cellFold_cons (u : Upd α) (us p x) :
    cellFold (u :: us) p x = cellFold us p (if u.1 = p then u.2 x else x) := rfl

theorem cellFold_append (us vs : List (Upd α)) (p x) :
    cellFold (us ++ vs) p x = cellFold vs p (cellFold us p x) := by
  simp [cellFold, List.foldl_append]

theorem cellFold_none {us : List (Upd α)} {p x} (h : ∀ u ∈ us, u.1 ≠ p) :
    cellFold us p x = x := by
  induction us generalizing x with
  | nil => rfl
  | cons u us ih =>
    rw [cellFold_cons, if_neg (h u (by simp))]
    exact ih fun v hv => h v (by simp [hv])

theorem cellFold_flatMap (l : List ι) (us : ι → List (Upd α)) (p x) :
    cellFold (l.flatMap us) p x = l.foldl (fun x i => cellFold (us i) p x) x := by
  induction l generalizing x with
  | nil => rfl
  | cons i l ih => rw [List.flatMap_cons, cellFold_append, ih, List.foldl_cons]

theorem cellFold_map (l : List ι) (u : ι → Upd α) (p x) :
    cellFold (l.map u) p x = l.foldl (fun x i => if (u i).1 = p then (u i).2 x else x) x := by
  simp [cellFold, List.foldl_map]

/-- Only iteration `i0` touches cell `p`. -/
theorem cellFold_flatMap_unique {l : List ι} (hl : l.Nodup) {us : ι → List (Upd α)} {p x}
    {i0 : ι} (h0 : i0 ∈ l) (h : ∀ i ∈ l, i ≠ i0 → ∀ u ∈ us i, u.1 ≠ p) :
    cellFold (l.flatMap us) p x = cellFold (us i0) p x := by
  induction l generalizing x with
  | nil => cases h0
  | cons i l ih =>
    rw [List.flatMap_cons, cellFold_append]
    rcases List.mem_cons.1 h0 with rfl | hm
    · refine cellFold_none fun u hu => ?_
      obtain ⟨j, hj, hu⟩ := List.mem_flatMap.1 hu
      exact h j (by simp [hj]) (fun he => (List.nodup_cons.1 hl).1 (he ▸ hj)) u hu
    · rw [cellFold_none (us := us i), ih (List.nodup_cons.1 hl).2 hm]
      · exact fun j hj => h j (by simp [hj])
      · exact h i (by simp) fun he => (List.nodup_cons.1 hl).1 (he ▸ hm)

theorem cellFold_map_unique {l : List ι} (hl : l.Nodup) {u : ι → Upd α} {p x}
    {i0 : ι} (h0 : i0 ∈ l) (hp : (u i0).1 = p) (h : ∀ i ∈ l, i ≠ i0 → (u i).1 ≠ p) :
    cellFold (l.map u) p x = (u i0).2 x := by
  have := cellFold_flatMap_unique (us := fun i => [u i]) (p := p) (x := x) hl h0
    (fun i hi hne v hv => by simp at hv; subst hv; exact h i hi hne)
  have hm : l.flatMap (fun i => [u i]) = l.map u := by
    clear this h h0 hl
    induction l with
    | nil => rfl
    | cons i l ih => simp [ih]
  rw [hm] at this
  simpa [hp] using this

theorem foldl_congr' {l : List ι} {f g : σ → ι → σ} (h : ∀ i ∈ l, ∀ s, f s i = g s i) (s : σ) :
    l.foldl f s = l.foldl g s := by
  induction l generalizing s with
  | nil => rfl
  | cons i l ih =>
    rw [List.foldl_cons, List.foldl_cons, h i (by simp)]
    exact ih (fun j hj => h j (by simp [hj])) _

theorem foldl_flatMap' {κ : Type} (l : List ι) (h : ι → List κ) (f : σ → κ → σ) (s : σ) :
    (l.flatMap h).foldl f s = l.foldl (fun s i => (h i).foldl f s) s := by
  induction l generalizing s with
  | nil => rfl
  | cons i l ih => rw [List.flatMap_cons, List.foldl_append, ih, List.foldl_cons]

@[simp] theorem applyF_nil (c : Nat → α) : applyF [] c = c := rfl

theorem applyF_append (us vs : List (Upd α)) (c : Nat → α) :
    applyF (us ++ vs) c = applyF vs (applyF us c) := by
  funext p; exact cellFold_append us vs p (c p)

@[simp] theorem applyA_size (us : List (Upd α)) (a : Array α) : (applyA us a).size = a.size := by
  unfold applyA
  induction us generalizing a with
  | nil => rfl
  | cons u us ih => rw [List.foldl_cons, ih, Array.size_modify]

theorem applyA_get (us : List (Upd α)) (a : Array α) (p : Nat) :
    (applyA us a)[p]? = a[p]?.map (cellFold us p) := by
  unfold applyA
  induction us generalizing a with
  | nil => cases h : a[p]? <;> simp [h]
  | cons u us ih =>
    rw [List.foldl_cons, ih, Array.getElem?_modify]
    by_cases hp : u.1 = p
    · subst hp; cases a[u.1]? <;> simp
    · cases a[p]? <;> simp [hp]

theorem applyA_append (us vs : List (Upd α)) (a : Array α) :
    applyA (us ++ vs) a = applyA vs (applyA us a) := by
  simp [applyA, List.foldl_append]

/-! ### Sequential programs -/

/-- `f` performs the updates `us` on every vector that is long enough. -/
def MDoes (f : Array α → M (Array α)) (us : List (Upd α)) : Prop :=
  ∀ a : Array α, (∀ u ∈ us, u.1 < a.size) → f a = .ok (applyA us a)

theorem MDoes.forStep {lo hi st : Nat} (hst : 0 < st) {body : Nat → Array α → M (Array α)}
    {us : Nat → List (Upd α)} (h : ∀ i ∈ steps lo hi st, MDoes (body i) (us i)) :
    MDoes (fun a => forStep lo hi st a body) ((steps lo hi st).flatMap us) := by
  intro a ha
  show Verif.forStep lo hi st a body = _
  rw [forStep_eq hst]
  generalize steps lo hi st = l at *
  induction l generalizing a with
  | nil => rfl
  | cons i l ih =>
    rw [List.foldlM_cons, h i (by simp) a fun u hu => ha u (by simp [hu])]
    rw [List.flatMap_cons, applyA_append]
    refine ih _ (fun j hj => h j (by simp [hj])) fun u hu => ?_
    rw [applyA_size]
    exact ha u (by simp only [List.flatMap_cons, List.mem_append]; exact .inr hu)

theorem MDoes.comp {f g : Array α → M (Array α)} {us vs} (hf : MDoes f us) (hg : MDoes g vs) :
    MDoes (fun a => f a >>= g) (us ++ vs) := by
  intro a ha
  show (f a >>= g) = _
  rw [hf a fun u hu => ha u (by simp [hu]), applyA_append]
  exact hg _ fun u hu => by rw [applyA_size]; exact ha u (by simp [hu])

/-! ### Tasks -/

/-- Task `p` returns `r` and performs exactly the updates `us`, accessing no other cells. -/
def Act.Does (A : Bool) (p : Act α R) (r : R) (us : List (Upd α)) : Prop :=
  ∀ F : Nat → Prop, (∀ u ∈ us, F u.1) → ∀ c,
    p.wp A F (fun r' c' => r' = r ∧ c' = applyF us c) c

theorem Act.Does.pure {A} {r : R} : Act.Does (α := α) A (Pure.pure r) r [] :=
  fun _ _ _ => ⟨rfl, rfl⟩

theorem Act.Does.ofM {A} {r : R} {x : M R} (h : x = .ok r) : Act.Does (α := α) A (Act.ofM x) r [] := by
  subst h; exact fun _ _ _ => ⟨rfl, rfl⟩

theorem Act.Does.bind {A} {p : Act α R} {f : R → Act α S} {r s us vs}
    (hp : Act.Does A p r us) (hf : Act.Does A (f r) s vs) : Act.Does A (p >>= f) s (us ++ vs) := by
  intro F hF c
  show (Act.bind p f).wp A F _ c
  rw [Act.wp_bind]
  refine Act.wp_mono (hp F (fun u hu => hF u (by simp [hu])) c) ?_
  rintro _ _ ⟨rfl, rfl⟩
  rw [applyF_append]
  exact hf F (fun u hu => hF u (by simp [hu])) _

theorem Act.Does.ofM_bind {A} {x : M R} {f : R → Act α S} {r s vs}
    (hx : x = .ok r) (hf : Act.Does A (f r) s vs) : Act.Does A (Act.ofM x >>= f) s vs :=
  (Act.Does.ofM hx).bind hf

theorem Act.Does.write {A} {n i : Nat} (h : i < n) (v : α) :
    Act.Does A (Act.write n i v) () [(i, fun _ => v)] := by
  intro F hF c
  rw [Act.write, if_pos h]
  refine ⟨hF (i, fun _ => v) (by simp), rfl, ?_⟩
  funext j
  by_cases hj : j = i
  · subst hj; simp [applyF]
  · have : ¬ i = j := fun h => hj h.symm
    simp [applyF, hj, this]

theorem Act.Does.writeAt {A} {n i : Nat} (h : i < n) (v : α) :
    Act.Does A (Act.writeAt n i v) () [(i, fun _ => v)] := by
  have := Act.Does.write (A := A) h v
  rw [Act.write, if_pos h] at this
  rw [Act.writeAt, if_pos h]
  exact this

theorem Act.Does.addTo [Arith α] {A} {n i : Nat} (h : i < n) (v : α) :
    Act.Does A (Act.addTo n i v) () [(i, fun x => Arith.add x v)] := by
  intro F hF c
  have hi := hF (i, fun x => Arith.add x v) (by simp)
  simp only [Act.addTo, Act.read, Act.write, if_pos h]
  show F i ∧ F i ∧ True ∧ _
  refine ⟨hi, hi, trivial, ?_⟩
  funext j
  by_cases hj : j = i
  · subst hj; simp [applyF]
  · have : ¬ i = j := fun h => hj h.symm
    simp [applyF, hj, this]

theorem Act.Does.foldlM {A} {l : List ι} {f : Unit → ι → Act α Unit} {us : ι → List (Upd α)}
    (h : ∀ i ∈ l, Act.Does A (f () i) () (us i)) :
    Act.Does A (l.foldlM f ()) () (l.flatMap us) := by
  induction l with
  | nil => exact Act.Does.pure
  | cons i l ih =>
    rw [List.foldlM_cons]
    exact (h i (by simp)).bind (ih fun j hj => h j (by simp [hj]))

theorem Act.Does.forStep {A} {lo hi st : Nat} (hst : 0 < st) {body : Nat → Unit → Act α Unit}
    {us : Nat → List (Upd α)} (h : ∀ i ∈ steps lo hi st, Act.Does A (body i ()) () (us i)) :
    Act.Does A (forStep lo hi st () body) () ((steps lo hi st).flatMap us) := by
  rw [forStep_eq hst]
  exact Act.Does.foldlM h

/-! ### Fork/join trees -/

/-- The fork/join program `t` performs the updates `us` under every schedule. -/
def Tree.Does (A : Bool) (t : Tree α) (us : List (Upd α)) : Prop :=
  ∀ F : Nat → Prop, (∀ u ∈ us, F u.1) → ∀ c,
    WP A F t (fun c' => ∀ i, F i → c' i = applyF us c i) c

theorem local_eq (F : Nat → Prop) (d : Nat → α) : Local F (fun c' => ∀ i, F i → c' i = d i) :=
  fun _ _ h hc i hi => by rw [← h i hi]; exact hc i hi

theorem Tree.Does.act {A} {p : Act α Unit} {us} (h : Act.Does A p () us) :
    Tree.Does A (.act p) us := fun F hF c =>
  .act (Act.wp_mono (h F hF c) fun _ _ hc i _ => by rw [hc.2])

theorem WP.mono {A F} {t : Tree α} {Q Q' : (Nat → α) → Prop} {c} (h : WP A F t Q c)
    (hq : ∀ c, Q c → Q' c) : WP A F t Q' c := by
  induction h with
  | act h => exact .act (Act.wp_mono h fun _ => hq)
  | seqNil h => exact .seqNil (hq _ h)
  | seqCons P hP h1 h2 ih1 ih2 => exact .seqCons P hP h1 fun c' hc' => ih2 c' hc' hq
  | par Fs Qs hloc hsub hdis hts hend ih =>
    exact .par Fs Qs hloc hsub hdis hts fun c' h1 h2 => hq _ (hend c' h1 h2)

theorem Tree.Does.seq {A} {l : List ι} {f : ι → Tree α} {us : ι → List (Upd α)}
    (h : ∀ i ∈ l, Tree.Does A (f i) (us i)) : Tree.Does A (.seq (l.map f)) (l.flatMap us) := by
  induction l with
  | nil => exact fun F _ c => .seqNil fun _ _ => rfl
  | cons i l ih =>
    intro F hF c
    have hF1 : ∀ u ∈ us i, F u.1 := fun u hu => hF u (by simp [hu])
    have hF2 : ∀ u ∈ l.flatMap us, F u.1 := fun u hu => hF u (by
      simp only [List.flatMap_cons, List.mem_append]; exact .inr hu)
    refine .seqCons _ (local_eq F _) (h i (by simp) F hF1 c) fun c' hc' => ?_
    refine (ih (fun j hj => h j (by simp [hj])) F hF2 c').mono fun d hd j hj => ?_
    rw [hd j hj, List.flatMap_cons, applyF_append, applyF, hc' j hj]
    rfl

theorem cellFold_flatMap_owner {l : List ι} {us : ι → List (Upd α)} {p x} {n : Nat} {i0 : ι}
    (hl : l.Pairwise fun i j => ∀ u ∈ us i, ∀ v ∈ us j, u.1 ≠ v.1)
    (hn : l[n]? = some i0) (h0 : ∃ u ∈ us i0, u.1 = p) :
    cellFold (l.flatMap us) p x = cellFold (us i0) p x := by
  obtain ⟨u0, hu0, rfl⟩ := h0
  induction l generalizing n x with
  | nil => simp at hn
  | cons i l ih =>
    rw [List.flatMap_cons, cellFold_append]
    rw [List.pairwise_cons] at hl
    cases n with
    | zero =>
      simp at hn; subst hn
      refine cellFold_none fun v hv => ?_
      obtain ⟨j, hj, hv⟩ := List.mem_flatMap.1 hv
      exact fun h => hl.1 j hj u0 hu0 v hv h.symm
    | succ n =>
      simp at hn
      rw [cellFold_none (us := us i), ih hl.2 hn]
      exact fun v hv => hl.1 _ (List.mem_of_getElem? hn) v hv u0 hu0

/-- **Parallel tasks that update disjoint sets of cells** behave, under every schedule,
like the same tasks executed one after the other. -/
theorem Tree.Does.par {A} {l : List ι} {f : ι → Tree α} {us : ι → List (Upd α)}
    (h : ∀ i ∈ l, Tree.Does A (f i) (us i))
    (hl : l.Pairwise fun i j => ∀ u ∈ us i, ∀ v ∈ us j, u.1 ≠ v.1) :
    Tree.Does A (.par (l.map f)) (l.flatMap us) := by
  intro F hF c
  have hpw : ∀ (n n' : Nat) i j, l[n]? = some i → l[n']? = some j → n ≠ n' →
      ∀ u ∈ us i, ∀ v ∈ us j, u.1 ≠ v.1 := by
    intro n n' i j hi hj hne u hu v hv
    obtain ⟨hn, rfl⟩ := List.getElem?_eq_some_iff.1 hi
    obtain ⟨hn', rfl⟩ := List.getElem?_eq_some_iff.1 hj
    rw [List.pairwise_iff_getElem] at hl
    rcases Nat.lt_or_gt_of_ne hne with hlt | hlt
    · exact hl n n' hn hn' hlt u hu v hv
    · exact fun he => hl n' n hn' hn hlt v hv u hu he.symm
  refine .par (fun n i => ∃ x, l[n]? = some x ∧ ∃ u ∈ us x, u.1 = i)
    (fun n c' => ∀ i, (∃ x, l[n]? = some x ∧ ∃ u ∈ us x, u.1 = i) →
      c' i = applyF (l.flatMap us) c i) (fun n => local_eq _ _) ?_ ?_ ?_ ?_
  · rintro n i ⟨x, hx, u, hu, rfl⟩
    exact hF u (List.mem_flatMap.2 ⟨x, List.mem_of_getElem? hx, hu⟩)
  · rintro n n' i ⟨x, hx, u, hu, rfl⟩ ⟨y, hy, v, hv, he⟩
    exact Classical.byContradiction fun hne => hpw n n' x y hx hy hne u hu v hv he.symm
  · intro n t ht
    rw [List.getElem?_map] at ht
    cases hx : l[n]? with
    | none => rw [hx] at ht; cases ht
    | some x =>
      rw [hx] at ht; cases ht
      have hsub : ∀ u ∈ us x, ∃ y, l[n]? = some y ∧ ∃ v ∈ us y, v.1 = u.1 :=
        fun u hu => ⟨x, hx, u, hu, rfl⟩
      refine (h x (List.mem_of_getElem? hx) _ (by rw [hx] at hsub; exact hsub) c).mono
        fun d hd i hi => ?_
      rw [hd i hi]
      obtain ⟨y, hy, hi⟩ := hi
      cases hy
      exact (cellFold_flatMap_owner hl hx hi).symm
  · intro d hd hu i hi
    by_cases hex : ∃ n, n < l.length ∧ ∃ x, l[n]? = some x ∧ ∃ u ∈ us x, u.1 = i
    · obtain ⟨n, hn, hx⟩ := hex
      exact hd n (by simpa using hn) i hx
    · rw [hu i hi fun n hn hx => hex ⟨n, by simpa using hn, hx⟩]
      refine (cellFold_none fun u hu he => hex ?_).symm
      obtain ⟨x, hx, hu⟩ := List.mem_flatMap.1 hu
      obtain ⟨n, hn⟩ := List.mem_iff_getElem?.1 hx
      exact ⟨n, (List.getElem?_eq_some_iff.1 hn).1, x, hn, u, hu, he⟩

/-! ### Outcomes -/

theorem ND.pure_bind (x : R) (f : R → ND S) : ND.bind (ND.pure x) f = f x := by
  funext o
  apply propext
  constructor
  · rintro (⟨e, h, _⟩ | ⟨r, h, h'⟩)
    · cases h
    · cases h; exact h'
  · exact fun h => .inr ⟨x, rfl, h⟩

@[simp] theorem ND.pure_bind' (x : R) (f : R → ND S) : ((Pure.pure x : ND R) >>= f) = f x :=
  ND.pure_bind x f

theorem ND.ofM_ok (x : R) : ND.ofM (.ok x) = (Pure.pure x : ND R) := rfl

/-- Uniqueness and existence of an outcome. -/
theorem ND.eq_pure {x : ND R} {r : R} (h : ∀ o, x o → o = .ok r) (he : ∃ o, x o) :
    x = (Pure.pure r : ND R) := by
  funext o
  apply propext
  constructor
  · exact h o
  · intro ho
    obtain ⟨o', ho'⟩ := he
    cases h o' ho'
    cases ho
    exact ho'

theorem Tree.Does.run {A} {t : Tree α} {us} (h : Tree.Does A t us) (c : Nat → α) (fl) :
    ND.run c fl t = (Pure.pure (applyF us c) : ND _) := by
  have := (h (fun _ => True) (fun _ _ => trivial) c).run (fl := fl)
  refine ND.eq_pure (fun o ho => ?_) this.2
  obtain ⟨c', rfl, hc, _⟩ := this.1 o ho
  congr; funext i; exact hc i trivial

theorem toArray_applyF [Arith α] (us : List (Upd α)) (a : Array α) :
    toArray a.size (applyF us (Mem.ofArray a).cell) = applyA us a := by
  apply Array.ext_getElem?
  intro p
  rw [applyA_get, toArray, Array.getElem?_ofFn]
  split
  · rename_i hp
    simp [applyF, Mem.ofArray, Array.getElem?_eq_getElem hp]
  · rename_i hp
    rw [Array.getElem?_eq_none (by omega)]
    rfl

/-- Running a program with a known update list on a vector: one outcome only. -/
theorem Tree.Does.runOn [Arith α] {A} {t : Tree α} {us} (h : Tree.Does A t us) (a : Array α) :
    ND.runOn a t = (Pure.pure (applyA us a) : ND _) := by
  unfold ND.runOn
  rw [h.run]
  refine (ND.pure_bind _ _).trans ?_
  show ND.pure _ = ND.pure _
  rw [toArray_applyF]

theorem Act.wp_exec {A F} {p : Act α R} {Q : R → (Nat → α) → Prop} {m : Mem α}
    (h : p.wp A F Q m.cell) :
    ∃ r, (p.exec m).1 = .ok r ∧ Q r (p.exec m).2.cell := by
  induction p generalizing m with
  | ret r => exact ⟨r, rfl, h⟩
  | fail e => exact h.elim
  | rd i k ih => exact ih _ h.2
  | wr i v k ih => exact ih h.2
  | rdFlag j k ih => exact ih _ (h.2 _)
  | wrFlag j b k ih => exact ih h.2

/-- The same for one task running alone. -/
theorem Act.Does.execOn [Arith α] {A} {p : Act α R} {r us} (h : Act.Does A p r us)
    (a : Array α) : p.execOn a = .ok (applyA us a) := by
  obtain ⟨r', h1, _, h2⟩ := Act.wp_exec (h (fun _ => True) (fun _ _ => trivial)
    (Mem.ofArray a).cell)
  unfold Act.execOn
  generalize hx : p.exec (Mem.ofArray a) = x at h1 h2
  obtain ⟨x1, x2⟩ := x
  simp only at h1 h2
  subst h1
  rw [← toArray_applyF, ← h2]

/-- A loop in a task with loop-carried local state satisfying an invariant. -/
theorem Act.Does.foldlM_inv {A} {l : List ι} {f : S → ι → Act α S} {us : ι → List (Upd α)}
    (P : S → Prop) (h : ∀ i ∈ l, ∀ s, P s → ∃ s', P s' ∧ Act.Does A (f s i) s' (us i))
    {s : S} (hs : P s) :
    ∃ s', P s' ∧ Act.Does A (l.foldlM f s) s' (l.flatMap us) := by
  induction l generalizing s with
  | nil => exact ⟨s, hs, Act.Does.pure⟩
  | cons i l ih =>
    obtain ⟨s1, h1, h2⟩ := h i (by simp) s hs
    obtain ⟨s2, h3, h4⟩ := ih (fun j hj => h j (by simp [hj])) h1
    refine ⟨s2, h3, ?_⟩
    rw [List.foldlM_cons]
    exact h2.bind h4

theorem Act.Does.forStep_inv {A} {lo hi st : Nat} (hst : 0 < st) {body : Nat → S → Act α S}
    {us : Nat → List (Upd α)} (P : S → Prop)
    (h : ∀ i ∈ steps lo hi st, ∀ s, P s → ∃ s', P s' ∧ Act.Does A (body i s) s' (us i))
    {s : S} (hs : P s) :
    ∃ s', P s' ∧ Act.Does A (Verif.forStep lo hi st s body) s' ((steps lo hi st).flatMap us) := by
  rw [forStep_eq hst]
  exact Act.Does.foldlM_inv P h hs

theorem Act.wp_tryCatch {A F} {p : Act α R} {Q : R → (Nat → α) → Prop} {c}
    (h : p.wp A F Q c) (hd : Err → Act α R) : (p.tryCatch hd).wp A F Q c := by
  induction p generalizing c with
  | ret r => exact h
  | fail e => exact h.elim
  | rd i k ih => exact ⟨h.1, ih _ h.2⟩
  | wr i v k ih => exact ⟨h.1, ih h.2⟩
  | rdFlag j k ih => exact ⟨h.1, fun b => ih _ (h.2 b)⟩
  | wrFlag j b k ih => exact ⟨h.1, ih h.2⟩

theorem Act.Does.tryCatch {A} {p : Act α R} {r us} (h : Act.Does A p r us) (hd : Err → Act α R) :
    Act.Does A (p.tryCatch hd) r us :=
  fun F hF c => Act.wp_tryCatch (h F hF c) hd

theorem Tree.Does.raceFree {t : Tree α} {us} (h : Tree.Does false t us) (m : Mem α) :
    RaceFree m t :=
  (h (fun _ => True) (fun _ _ => trivial) m.cell).raceFree

end Verif
