import Verif.SpecIter
import Verif.Core.Race
/-
Helper lemmas about `Calls`: the list of calls, orders, and the updates made by running them.
-/
set_option linter.unusedSectionVars false
namespace Verif.IndexIterator
variable {ι α : Type}

/-- The calls from left to right. -/
def Calls.leaves : Calls ι → List ι
  | .call i => [i]
  | .fail _ => []
  | .seq ts => ts.flatMap Calls.leaves
  | .par ts => ts.flatMap Calls.leaves

/-- No abort; calls of different concurrent parts are related by `R`. -/
inductive Calls.Good (R : ι → ι → Prop) : Calls ι → Prop
  | call {i} : Calls.Good R (.call i)
  | seq {ts} : (∀ t ∈ ts, Calls.Good R t) → Calls.Good R (.seq ts)
  | par {ts} : (∀ t ∈ ts, Calls.Good R t) →
      ts.Pairwise (fun t u => ∀ i ∈ t.leaves, ∀ j ∈ u.leaves, R i j) → Calls.Good R (.par ts)

theorem Calls.Good.mono {R R' : ι → ι → Prop} {t : Calls ι} (h : t.Good R)
    (hR : ∀ i j, R i j → R' i j) : t.Good R' := by
  induction h with
  | call => exact .call
  | seq _ ih => exact .seq ih
  | par _ hp ih => exact .par ih (hp.imp fun h i hi j hj => hR _ _ (h i hi j hj))

theorem shuffle_perm {l₁ l₂ l : List ι} (h : Shuffle l₁ l₂ l) : l.Perm (l₁ ++ l₂) := by
  induction h with
  | nil => exact .refl _
  | left _ ih => exact ih.cons _
  | right _ ih => exact (ih.cons _).trans List.perm_middle.symm

theorem shuffle_append (l₁ l₂ : List ι) : Shuffle l₁ l₂ (l₁ ++ l₂) := by
  induction l₁ with
  | nil =>
    induction l₂ with
    | nil => exact .nil
    | cons a l ih => exact .right ih
  | cons a l ih => exact .left ih

theorem leaves_seq (ts : List (Calls ι)) :
    (Calls.seq ts).leaves = ts.flatMap Calls.leaves := by
  rw [Calls.leaves]

theorem leaves_par (ts : List (Calls ι)) :
    (Calls.par ts).leaves = ts.flatMap Calls.leaves := by
  rw [Calls.leaves]

/-- Every order is a permutation of the calls. -/
theorem order_perm {t : Calls ι} {l : List ι} (h : Order t l) : l.Perm t.leaves := by
  induction h with
  | call => rw [Calls.leaves]
  | seqNil => rw [leaves_seq]; exact .refl _
  | seqCons _ _ ih1 ih2 =>
    rw [leaves_seq, List.flatMap_cons]; rw [leaves_seq] at ih2; exact ih1.append ih2
  | parNil => rw [leaves_par]; exact .refl _
  | parCons _ _ hs ih1 ih2 =>
    rw [leaves_par, List.flatMap_cons]; rw [leaves_par] at ih2
    exact (shuffle_perm hs).trans (ih1.append ih2)

theorem order_leaves {R} {t : Calls ι} (h : t.Good R) : Order t t.leaves := by
  induction h with
  | call => rw [Calls.leaves]; exact .call
  | @seq ts _ ih =>
    rw [leaves_seq]
    induction ts with
    | nil => exact .seqNil
    | cons t ts iht =>
      rw [List.flatMap_cons]
      exact .seqCons (ih t (by simp)) (iht (fun t ht => by simp_all) fun t ht => ih t (by simp [ht]))
  | @par ts h1 hp ih =>
    rw [leaves_par]
    clear hp h1
    induction ts with
    | nil => exact .parNil
    | cons t ts iht =>
      rw [List.flatMap_cons]
      exact .parCons (ih t (by simp)) (iht fun t ht => ih t (by simp [ht])) (shuffle_append _ _)

theorem toTree_seq (f : ι → Act α Unit) (ts : List (Calls ι)) :
    (Calls.seq ts).toTree f = .seq (ts.map (Calls.toTree f)) := by rw [Calls.toTree]

theorem toTree_par (f : ι → Act α Unit) (ts : List (Calls ι)) :
    (Calls.par ts).toTree f = .par (ts.map (Calls.toTree f)) := by rw [Calls.toTree]

/-- The relation may use that both calls are made. -/
theorem Calls.Good.mono_mem {R : ι → ι → Prop} {t : Calls ι} (h : t.Good R) :
    t.Good fun i j => i ∈ t.leaves ∧ j ∈ t.leaves ∧ R i j := by
  induction h with
  | call => exact .call
  | @seq ts _ ih =>
    refine .seq fun t ht => (ih t ht).mono fun i j h => ?_
    rw [leaves_seq]
    exact ⟨List.mem_flatMap.2 ⟨t, ht, h.1⟩, List.mem_flatMap.2 ⟨t, ht, h.2.1⟩, h.2.2⟩
  | @par ts _ hp ih =>
    rw [leaves_par]
    refine .par (fun t ht => (ih t ht).mono fun i j h =>
      ⟨List.mem_flatMap.2 ⟨t, ht, h.1⟩, List.mem_flatMap.2 ⟨t, ht, h.2.1⟩, h.2.2⟩)
      ((List.Pairwise.and_mem.1 hp).imp ?_)
    rintro t u ⟨ht, hu, h⟩ i hi j hj
    exact ⟨List.mem_flatMap.2 ⟨t, ht, hi⟩, List.mem_flatMap.2 ⟨u, hu, hj⟩, h i hi j hj⟩

/-- Running the calls performs the updates of the calls. -/
theorem Calls.Good.does {A} {R : ι → ι → Prop} {t : Calls ι} (h : t.Good R) {f : ι → Act α Unit}
    {us : ι → List (Upd α)} (hR : ∀ i j, R i j → ∀ u ∈ us i, ∀ v ∈ us j, u.1 ≠ v.1)
    (hf : ∀ i ∈ t.leaves, Act.Does A (f i) () (us i)) :
    Tree.Does A (t.toTree f) (t.leaves.flatMap us) := by
  induction h with
  | call =>
    rw [Calls.leaves] at hf ⊢
    rw [Calls.toTree, List.flatMap_singleton]
    exact .act (hf _ (by simp))
  | @seq ts h1 ih =>
    rw [leaves_seq] at hf ⊢
    rw [toTree_seq, List.flatMap_assoc]
    exact Tree.Does.seq fun t ht => ih t ht fun i hi => hf i (List.mem_flatMap.2 ⟨t, ht, hi⟩)
  | @par ts h1 hp ih =>
    rw [leaves_par] at hf ⊢
    rw [toTree_par, List.flatMap_assoc]
    refine Tree.Does.par (fun t ht => ih t ht fun i hi => hf i (List.mem_flatMap.2 ⟨t, ht, hi⟩))
      (hp.imp fun {t u} h a ha b hb => ?_)
    obtain ⟨i, hi, ha⟩ := List.mem_flatMap.1 ha
    obtain ⟨j, hj, hb⟩ := List.mem_flatMap.1 hb
    exact hR i j (h i hi j hj) a ha b hb

/-- Some call is made without any call before it. -/
theorem Calls.Good.reach {R : ι → ι → Prop} {t : Calls ι} (h : t.Good R) (f : ι → Act α Unit)
    (hne : t.leaves ≠ []) :
    ∃ i ∈ t.leaves, ∀ m m' q, PSteps m (.act (f i)) m' (.act q) →
      ∃ t', PSteps m (t.toTree f) m' t' ∧ ∀ l w, Next (.act q) l w → Next t' l w := by
  induction h with
  | @call i =>
    rw [Calls.leaves]
    refine ⟨i, by simp, fun m m' q hs => ⟨_, ?_, fun _ _ h => h⟩⟩
    rw [Calls.toTree]; exact hs
  | @seq ts h1 ih =>
    rw [leaves_seq] at hne ⊢
    rw [toTree_seq]
    induction ts with
    | nil => simp at hne
    | cons t ts iht =>
      by_cases hl : t.leaves = []
      · obtain ⟨i, hi, hr⟩ := iht (fun t ht => h1 t (by simp [ht])) (fun t ht => ih t (by simp [ht]))
          (by simpa [hl] using hne)
        refine ⟨i, by simp [hl]; simpa using hi, fun m m' q hs => ?_⟩
        have hd : Tree.Does false (t.toTree f) [] := by
          have := (h1 t (by simp)).does (A := false) (f := f) (us := fun _ => [])
            (fun _ _ _ u hu => by cases hu) (fun i hi => by rw [hl] at hi; cases hi)
          rw [hl] at this
          exact this
        obtain ⟨d, hd1, hd2⟩ := hd.idle m
        obtain ⟨t', hs', hn⟩ := hr m m' q hs
        rw [List.map_cons]
        exact ⟨t', (hd1.seq _).trans (.step (.seqNext hd2) hs'), hn⟩
      · obtain ⟨i, hi, hr⟩ := ih t (by simp) hl
        refine ⟨i, by simp [hi], fun m m' q hs => ?_⟩
        obtain ⟨t', hs', hn⟩ := hr m m' q hs
        rw [List.map_cons]
        exact ⟨_, hs'.seq _, fun l w h => .seq (hn l w h)⟩
  | @par ts h1 hp ih =>
    rw [leaves_par] at hne ⊢
    rw [toTree_par]
    obtain ⟨t, ht, hl⟩ : ∃ t ∈ ts, t.leaves ≠ [] := by
      refine Classical.byContradiction fun hcon =>
        hne (List.flatMap_eq_nil_iff.2 fun t ht => ?_)
      exact Classical.byContradiction fun hl => hcon ⟨t, ht, hl⟩
    obtain ⟨i, hi, hr⟩ := ih t ht hl
    refine ⟨i, List.mem_flatMap.2 ⟨t, ht, hi⟩, fun m m' q hs => ?_⟩
    obtain ⟨t', hs', hn⟩ := hr m m' q hs
    obtain ⟨n, hn'⟩ := List.mem_iff_getElem?.1 ht
    have hlt := (List.getElem?_eq_some_iff.1 hn').1
    have e : (ts.map (Calls.toTree f))[n]? = some (t.toTree f) := by simp [hn']
    exact ⟨_, hs'.par e, fun l w h => .par n (by simp [hlt]) (hn l w h)⟩

/-- Two concurrent parts that both make calls can each be brought to any point of some call. -/
theorem Calls.Good.reach_two {R : ι → ι → Prop} {ts : List (Calls ι)} (h : (Calls.par ts).Good R)
    (f : ι → Act α Unit) {n n' : Nat} (hne : n ≠ n') {t u : Calls ι} (ht : ts[n]? = some t)
    (hu : ts[n']? = some u) (hl : t.leaves ≠ []) (hl' : u.leaves ≠ []) :
    ∃ i ∈ (Calls.par ts).leaves, ∃ j ∈ (Calls.par ts).leaves, ∀ m m' m'' q q',
      PSteps m (.act (f i)) m' (.act q) → PSteps m' (.act (f j)) m'' (.act q') →
      ∃ t', PSteps m ((Calls.par ts).toTree f) m'' t' ∧
        ∀ l w, Next (.act q) l true → Next (.act q') l w → RaceOn l t' := by
  cases h with
  | par h1 hp =>
    have hmt := List.mem_of_getElem? ht
    have hmu := List.mem_of_getElem? hu
    obtain ⟨i, hi, hri⟩ := (h1 t hmt).reach f hl
    obtain ⟨j, hj, hrj⟩ := (h1 u hmu).reach f hl'
    rw [leaves_par, toTree_par]
    refine ⟨i, List.mem_flatMap.2 ⟨t, hmt, hi⟩, j, List.mem_flatMap.2 ⟨u, hmu, hj⟩,
      fun m m' m'' q q' hs hs' => ?_⟩
    obtain ⟨t', hs1, hn1⟩ := hri m m' q hs
    obtain ⟨u', hs2, hn2⟩ := hrj m' m'' q' hs'
    have hlt := (List.getElem?_eq_some_iff.1 ht).1
    have hlt' := (List.getElem?_eq_some_iff.1 hu).1
    have e : (ts.map (Calls.toTree f))[n]? = some (t.toTree f) := by simp [ht]
    have e' : ((ts.map (Calls.toTree f)).set n t')[n']? = some (u.toTree f) := by
      simp [hu, List.getElem?_set_ne hne]
    refine ⟨_, (hs1.par e).trans (hs2.par e'), fun l w h h' => ?_⟩
    exact .here n n' hne (by rw [List.getElem?_set_ne (Ne.symm hne)]; simp [hlt]) (by simp [hlt'])
      (hn1 l true h) (hn2 l w h')

/-- At most one call at a time. -/
inductive Calls.Serial : Calls ι → Prop
  | call {i} : Calls.Serial (.call i)
  | fail {e} : Calls.Serial (.fail e)
  | seq {ts} : (∀ t ∈ ts, Calls.Serial t) → Calls.Serial (.seq ts)
  | par {ts} : ts.length ≤ 1 → (∀ t ∈ ts, Calls.Serial t) → Calls.Serial (.par ts)

theorem Calls.Serial.toTree {t : Calls ι} (h : t.Serial) (f : ι → Act α Unit) :
    (t.toTree f).Serial := by
  induction h with
  | call => rw [Calls.toTree]; exact .act
  | fail => rw [Calls.toTree]; exact .act
  | seq _ ih =>
    rw [toTree_seq]
    refine .seq fun t ht => ?_
    obtain ⟨u, hu, rfl⟩ := List.mem_map.1 ht
    exact ih u hu
  | par hl _ ih =>
    rw [toTree_par]
    refine .par (by simpa using hl) fun t ht => ?_
    obtain ⟨u, hu, rfl⟩ := List.mem_map.1 ht
    exact ih u hu

theorem execute_looped_serial (mn mx st : List Nat) (dim : Nat) :
    ∀ c args, (execute_looped mn mx st dim c args).Serial := by
  induction dim with
  | zero => intro c args; rw [execute_looped]; exact .call
  | succ dim ih =>
    intro c args
    rw [execute_looped]
    have h2 : ∀ e, ∀ t ∈ [execute_looped mn mx st dim (c + 1) (args ++ [mn.getD c 0]), .fail e],
        Calls.Serial t := by
      intro e t ht
      rw [List.mem_cons, List.mem_singleton] at ht
      rcases ht with rfl | rfl
      · exact ih _ _
      · exact .fail
    split
    · exact .seq (h2 _)
    · split
      · exact .seq (h2 _)
      · refine .seq fun t ht => ?_
        obtain ⟨x, _, rfl⟩ := List.mem_map.1 ht
        exact ih _ _

end Verif.IndexIterator
