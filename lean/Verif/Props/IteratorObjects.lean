import Verif.Model.IteratorObjects
import Verif.Props.IndexIterator
/-
C113: iterators as objects with references.
-/
set_option linter.unusedSectionVars false
namespace Verif.Props
open Verif.IndexIterator

/-- How often each iterator has been incremented since the range was entered: a copy and an
assigned iterator have the history of their source.  `none`: an iterator that does not exist, or a
second range. -/
def history : List Op → List Nat → Option (List Nat)
  | [], hs => some hs
  | .new _ _ _ :: _, _ => none
  | .copy y :: ops, hs => hs[y]? >>= fun n => history ops (hs ++ [n])
  | .assign x y :: ops, hs =>
    hs[x]? >>= fun _ => hs[y]? >>= fun n => history ops (hs.set x n)
  | .inc x :: ops, hs => hs[x]? >>= fun n => history ops (hs.set x (n + 1))

private theorem rdL_ok {v : List Nat} {d : Nat} (h : d < v.length) : rdL v d = .ok (v.getD d 0) := by
  unfold rdL
  simp [List.getElem?_eq_getElem h, List.getD]

private theorem findDim_ok {mx st cur : List Nat} : ∀ rest d, d + rest ≤ mx.length →
    d + rest ≤ st.length → d + rest ≤ cur.length →
    findDim mx st cur d rest = .ok ((List.range' d rest).find?
      fun d => decide (cur.getD d 0 + st.getD d 0 < mx.getD d 0))
  | 0, _, _, _, _ => rfl
  | rest + 1, d, h1, h2, h3 => by
    rw [findDim, rdL_ok (by omega), rdL_ok (by omega), rdL_ok (by omega)]
    simp only [M_bind_ok, List.range'_succ, List.find?_cons]
    by_cases h : cur.getD d 0 + st.getD d 0 < mx.getD d 0
    · simp only [h, if_true, decide_true]
    · simp only [h, if_false, decide_false]
      exact findDim_ok rest (d + 1) (by omega) (by omega) (by omega)

private theorem fill_ok {mn : List Nat} : ∀ (l : List Nat) (cur : List Nat),
    (∀ i ∈ l, i < mn.length ∧ i < cur.length) →
    l.foldlM (fun cur i => do
      let m ← rdL mn i
      wrL cur i m) cur =
      (.ok (l.foldl (fun cur i => cur.set i (mn.getD i 0)) cur) : M (List Nat))
  | [], _, _ => rfl
  | i :: l, cur, h => by
    have hi := h i (List.mem_cons_self ..)
    rw [List.foldlM_cons, rdL_ok hi.1]
    simp only [M_bind_ok, wrL, if_pos hi.2, List.foldl_cons]
    exact fill_ok l _ fun j hj => by
      have := h j (List.mem_cons_of_mem _ hj)
      rw [List.length_set]
      exact this

private theorem inc_ok {vec : Nat → List Nat} {o : Obj} (h0 : o.cur_index.length = o.dim)
    (h1 : (vec o.mn).length = o.dim) (h2 : (vec o.mx).length = o.dim)
    (h3 : (vec o.st).length = o.dim) :
    o.increment vec = .ok { o with
      cur_index := increment (vec o.mn) (vec o.mx) (vec o.st) o.cur_index } := by
  unfold Obj.increment IndexIterator.increment
  rw [findDim_ok _ _ (by omega) (by omega) (by omega), h0, List.range_eq_range']
  simp only [M_bind_ok]
  cases hf : (List.range' 0 o.dim).find? fun d =>
      decide (o.cur_index.getD d 0 + (vec o.st).getD d 0 < (vec o.mx).getD d 0) with
  | none => rfl
  | some d =>
    have hd : d < o.dim := by
      have := List.mem_of_find?_eq_some hf
      rw [List.mem_range'_1] at this
      omega
    simp only
    rw [rdL_ok (by omega), rdL_ok (by omega)]
    simp only [M_bind_ok, wrL, if_pos (show d < o.cur_index.length by omega)]
    have := fill_ok (mn := vec o.mn) (List.range d) (o.cur_index.set d
      (o.cur_index.getD d 0 + (vec o.st).getD d 0)) fun i hi => by
        rw [List.length_set]
        have := List.mem_range.1 hi
        omega
    simp only [wrL] at this
    rw [this]
    rfl

private theorem increment_length (mn mx st cur : List Nat) :
    (increment mn mx st cur).length = cur.length := by
  unfold increment
  split
  · rfl
  · next d _ =>
    have : ∀ (l : List Nat) (c : List Nat),
        (l.foldl (fun cur i => cur.set i (mn.getD i 0)) c).length = c.length := by
      intro l
      induction l with
      | nil => exact fun _ => rfl
      | cons a l ih => exact fun c => (ih _).trans (List.length_set ..)
    rw [this, List.length_set]

private theorem iter_length (mn mx st : List Nat) : ∀ n, (iter mn mx st n).length = mn.length
  | 0 => rfl
  | n + 1 => by rw [iter, increment_length, iter_length mn mx st n]

/-- The object that stands where `n` increments lead. -/
private def at' (vec : Nat → List Nat) (mn mx st n : Nat) : Obj :=
  ⟨(vec mn).length, iter (vec mn) (vec mx) (vec st) n, mn, mx, st⟩

private theorem setVec_self (vec : Nat → List Nat) (x : Nat) : setVec vec x (vec x) = vec := by
  funext n
  unfold setVec
  split
  · next h => rw [h]
  · rfl

private theorem run_range {vec : Nat → List Nat} {mn mx st : Nat}
    (h1 : (vec mn).length = (vec mx).length) (h2 : (vec mx).length = (vec st).length) :
    ∀ (ops : List Op) (hs hs' : List Nat), history ops hs = some hs' →
      execAll ⟨vec, hs.map (at' vec mn mx st)⟩ ops = .ok ⟨vec, hs'.map (at' vec mn mx st)⟩
  | [], hs, hs', h => by cases h; rfl
  | .new _ _ _ :: ops, hs, hs', h => by cases h
  | .copy y :: ops, hs, hs', h => by
    obtain ⟨n, hn, h⟩ := Option.bind_eq_some_iff.1 h
    have ih := run_range h1 h2 ops _ _ h
    rw [← ih]
    simp only [execAll, List.foldlM_cons, Op.exec, Objs.get, List.getElem?_map, hn, Option.map_some,
      M_bind_ok, List.map_append, List.map_cons, List.map_nil]
  | .assign x y :: ops, hs, hs', h => by
    obtain ⟨m, hm, h⟩ := Option.bind_eq_some_iff.1 h
    obtain ⟨n, hn, h⟩ := Option.bind_eq_some_iff.1 h
    have ih := run_range h1 h2 ops _ _ h
    rw [← ih]
    simp only [execAll, List.foldlM_cons, Op.exec, Objs.get, List.getElem?_map, hn, hm,
      Option.map_some, M_bind_ok]
    by_cases hxy : x = y
    · subst hxy
      rw [hm] at hn
      cases hn
      rw [if_pos rfl, M_bind_ok]
      obtain ⟨hlt, he⟩ := List.getElem?_eq_some_iff.1 hm
      rw [show hs.set x m = hs by rw [← he, List.set_getElem_self]]
    · rw [if_neg hxy, M_bind_ok]
      have : Objs.assign ⟨vec, hs.map (at' vec mn mx st)⟩ x (at' vec mn mx st m)
          (at' vec mn mx st n) = ⟨vec, (hs.set x n).map (at' vec mn mx st)⟩ := by
        unfold Objs.assign at'
        simp only [setVec_self, List.map_set]
      rw [this]
  | .inc x :: ops, hs, hs', h => by
    obtain ⟨n, hn, h⟩ := Option.bind_eq_some_iff.1 h
    have ih := run_range h1 h2 ops _ _ h
    rw [← ih]
    simp only [execAll, List.foldlM_cons, Op.exec, Objs.get, List.getElem?_map, hn,
      Option.map_some, M_bind_ok]
    rw [inc_ok (o := at' vec mn mx st n) (iter_length _ _ _ n) rfl h1.symm (h2.symm.trans h1.symm)]
    simp only [M_bind_ok, List.map_set]
    rfl

/-- **C113.** Within one range the references do not show: starting with an iterator over three
vectors of equal lengths, any sequence of copies, assignments and increments leaves the vectors as
they are, and every iterator stands where its increments, and those of the iterators it was copied
or assigned from, lead.  So the iterator is a value, as in C28 to C33. -/
theorem C113_one_range (vec : Nat → List Nat) (mn mx st : Nat)
    (h1 : (vec mn).length = (vec mx).length) (h2 : (vec mx).length = (vec st).length)
    (ops : List Op) (hs : List Nat) (hops : history ops [0] = some hs) :
    ∃ its : List Obj, execAll ⟨vec, []⟩ (.new mn mx st :: ops) = .ok ⟨vec, its⟩ ∧
      its.length = hs.length ∧
      ∀ x n : Nat, hs[x]? = some n → ∃ o : Obj, its[x]? = some o ∧
        o.cur_index = iter (vec mn) (vec mx) (vec st) n ∧ o.mn = mn ∧ o.mx = mx ∧ o.st = st := by
  refine ⟨hs.map (at' vec mn mx st), ?_, by simp, fun x n hx => ⟨at' vec mn mx st n, by simp [hx],
    rfl, rfl, rfl, rfl⟩⟩
  have := run_range h1 h2 ops _ _ hops
  rw [← this]
  simp only [execAll, List.foldlM_cons, Op.exec]
  rw [if_neg (by omega), M_bind_ok]
  rfl

/-- **C113.** The only other outcome of creating an iterator is `std::terminate`, for vectors of
different lengths. -/
theorem C113_new (s : Objs) (mn mx st : Nat) :
    (Op.exec s (.new mn mx st) = .error .terminate ↔
      ¬ ((s.vec mn).length = (s.vec mx).length ∧ (s.vec mx).length = (s.vec st).length)) ∧
    ((s.vec mn).length = (s.vec mx).length → (s.vec mx).length = (s.vec st).length →
      Op.exec s (.new mn mx st) =
        .ok ⟨s.vec, s.its ++ [⟨(s.vec mn).length, s.vec mn, mn, mx, st⟩]⟩) := by
  simp only [Op.exec]
  split
  · next h => exact ⟨⟨fun _ => by omega, fun _ => rfl⟩, fun _ _ => by omega⟩
  · next h => exact ⟨⟨fun e => (nomatch e), fun _ => by omega⟩, fun _ _ => rfl⟩

/-- **C113.** Assignment between iterators over different vectors: the target stays with its own
vectors, but these now have the contents of the source's; no other vector changes. -/
theorem C113_assign (s : Objs) (x y : Nat) (a b : Obj) (hx : s.its[x]? = some a)
    (hy : s.its[y]? = some b) (hxy : x ≠ y)
    (hdis : a.mn ≠ a.mx ∧ a.mn ≠ a.st ∧ a.mx ≠ a.st)
    (hsrc : ∀ n, n = a.mn ∨ n = a.mx ∨ n = a.st → n ≠ b.mn ∧ n ≠ b.mx ∧ n ≠ b.st) :
    ∃ s', Op.exec s (.assign x y) = .ok s' ∧
      s'.vec a.mn = s.vec b.mn ∧ s'.vec a.mx = s.vec b.mx ∧ s'.vec a.st = s.vec b.st ∧
      (∀ n, n ≠ a.mn → n ≠ a.mx → n ≠ a.st → s'.vec n = s.vec n) ∧
      s'.its[x]? = some ⟨b.dim, b.cur_index, a.mn, a.mx, a.st⟩ ∧
      ∀ z, z ≠ x → s'.its[z]? = s.its[z]? := by
  have hlt : x < s.its.length := (List.getElem?_eq_some_iff.1 hx).1
  have h1 := hsrc a.mn (.inl rfl)
  have h2 := hsrc a.mx (.inr (.inl rfl))
  refine ⟨s.assign x a b, ?_, ?_, ?_, ?_, ?_, ?_, ?_⟩
  · simp only [Op.exec, Objs.get, hx, hy, M_bind_ok, if_neg hxy]
  all_goals simp only [Objs.assign, setVec]
  · simp [hdis.1, hdis.2.1]
  · simp [hdis.2.2, h1.2.1.symm]
  · simp [h1.2.2.symm, h2.2.2.symm]
  · intro n h1 h2 h3
    simp [h1, h2, h3]
  · simp [List.getElem?_set_self hlt]
  · intro z hz
    rw [List.getElem?_set_ne (Ne.symm hz)]

/-- Where `n` increments in the range given by `mn`, `mx` and `st` lead from `cur`. -/
def walk (mn mx st cur : List Nat) : Nat → List Nat
  | 0 => cur
  | n + 1 => increment mn mx st (walk mn mx st cur n)

private theorem incs_ok {vec : Nat → List Nat} {z : Nat} : ∀ (n : Nat) (its : List Obj) (o : Obj),
    its[z]? = some o → o.cur_index.length = o.dim → (vec o.mn).length = o.dim →
    (vec o.mx).length = o.dim → (vec o.st).length = o.dim →
    ∃ its', execAll ⟨vec, its⟩ (List.replicate n (.inc z)) = .ok ⟨vec, its'⟩ ∧
      its'[z]? = some { o with
        cur_index := walk (vec o.mn) (vec o.mx) (vec o.st) o.cur_index n } := by
  intro n
  induction n with
  | zero => exact fun its o ho _ _ _ _ => ⟨its, rfl, ho⟩
  | succ n ih =>
    intro its o ho h0 h1 h2 h3
    have hlt : z < its.length := (List.getElem?_eq_some_iff.1 ho).1
    obtain ⟨its', hr, hz⟩ := ih (its.set z { o with
        cur_index := increment (vec o.mn) (vec o.mx) (vec o.st) o.cur_index })
      { o with cur_index := increment (vec o.mn) (vec o.mx) (vec o.st) o.cur_index }
      (List.getElem?_set_self hlt) (by rw [increment_length]; exact h0) h1 h2 h3
    refine ⟨its', ?_, ?_⟩
    · rw [← hr]
      simp only [execAll, List.replicate_succ, List.foldlM_cons, Op.exec, Objs.get, ho, M_bind_ok]
      rw [inc_ok h0 h1 h2 h3]
      rfl
    · rw [hz]
      have : ∀ n, walk (vec o.mn) (vec o.mx) (vec o.st)
          (increment (vec o.mn) (vec o.mx) (vec o.st) o.cur_index) n =
          walk (vec o.mn) (vec o.mx) (vec o.st) o.cur_index (n + 1) := by
        intro n
        induction n with
        | zero => rfl
        | succ n ih => rw [walk, ih]; rfl
      rw [this]

/-- **C113.** An assignment `x = y` also redirects all other iterators over the vectors of `x`,
though neither they nor their vectors appear in it: whatever they did before, they now move in the
range of `y`. -/
theorem C113_redirected (s : Objs) (x y z : Nat) (a b c : Obj) (hx : s.its[x]? = some a)
    (hy : s.its[y]? = some b) (hz : s.its[z]? = some c) (hxy : x ≠ y) (hzx : z ≠ x)
    (hdis : a.mn ≠ a.mx ∧ a.mn ≠ a.st ∧ a.mx ≠ a.st)
    (hsrc : ∀ n, n = a.mn ∨ n = a.mx ∨ n = a.st → n ≠ b.mn ∧ n ≠ b.mx ∧ n ≠ b.st)
    (hshare : c.mn = a.mn ∧ c.mx = a.mx ∧ c.st = a.st) (hc : c.cur_index.length = c.dim)
    (hb : (s.vec b.mn).length = c.dim ∧ (s.vec b.mx).length = c.dim ∧ (s.vec b.st).length = c.dim)
    (n : Nat) :
    ∃ s' c', execAll s (.assign x y :: List.replicate n (.inc z)) = .ok s' ∧
      s'.its[z]? = some c' ∧
      c'.cur_index = walk (s.vec b.mn) (s.vec b.mx) (s.vec b.st) c.cur_index n := by
  obtain ⟨s', h, h1, h2, h3, _, _, h6⟩ := C113_assign s x y a b hx hy hxy hdis hsrc
  obtain ⟨e1, e2, e3⟩ := hshare
  obtain ⟨its, hr, hi⟩ := incs_ok (vec := s'.vec) (z := z) n s'.its c ((h6 z hzx).trans hz) hc
    (by rw [e1, h1]; exact hb.1) (by rw [e2, h2]; exact hb.2.1) (by rw [e3, h3]; exact hb.2.2)
  refine ⟨⟨s'.vec, its⟩, _, ?_, hi, ?_⟩
  · rw [← hr]
    simp only [execAll, List.foldlM_cons, h, M_bind_ok]
  · show walk (s'.vec c.mn) (s'.vec c.mx) (s'.vec c.st) c.cur_index n = _
    rw [e1, e2, e3, h1, h2, h3]

private theorem findDim_oob {mx st cur : List Nat} : ∀ rest d, mx.length = st.length →
    mx.length < d + rest → d ≤ mx.length → d + rest ≤ cur.length →
    (∀ i, d ≤ i → i < mx.length → ¬ cur.getD i 0 + st.getD i 0 < mx.getD i 0) →
    findDim mx st cur d rest = .error .oob
  | 0, _, _, h2, h3, _, _ => by omega
  | rest + 1, d, h1, h2, h3, h4, h => by
    rw [findDim, rdL_ok (by omega)]
    by_cases hd : d < mx.length
    · rw [rdL_ok (by omega), rdL_ok hd]
      simp only [M_bind_ok, if_neg (h d (le_refl d) hd)]
      exact findDim_oob rest (d + 1) h1 (by omega) hd (by omega)
        fun i hi hi' => h i (by omega) hi'
    · have : rdL st d = .error .oob := by
        unfold rdL
        rw [List.getElem?_eq_none (by omega)]
      rw [this]
      rfl

/-- **C113.** If the range of `y` has fewer dimensions than a redirected iterator and is exhausted
in them, the next increment of the redirected iterator reads past the end of a vector. -/
theorem C113_redirected_oob (s : Objs) (x y z : Nat) (a b c : Obj) (hx : s.its[x]? = some a)
    (hy : s.its[y]? = some b) (hz : s.its[z]? = some c) (hxy : x ≠ y) (hzx : z ≠ x)
    (hdis : a.mn ≠ a.mx ∧ a.mn ≠ a.st ∧ a.mx ≠ a.st)
    (hsrc : ∀ n, n = a.mn ∨ n = a.mx ∨ n = a.st → n ≠ b.mn ∧ n ≠ b.mx ∧ n ≠ b.st)
    (hshare : c.mn = a.mn ∧ c.mx = a.mx ∧ c.st = a.st) (hc : c.cur_index.length = c.dim)
    (hb : (s.vec b.mx).length = (s.vec b.st).length) (hlt : (s.vec b.mx).length < c.dim)
    (hend : ∀ d, d < (s.vec b.mx).length →
      (s.vec b.mx).getD d 0 ≤ c.cur_index.getD d 0 + (s.vec b.st).getD d 0) :
    execAll s [.assign x y, .inc z] = .error .oob := by
  obtain ⟨s', h, _, h2, h3, _, _, h6⟩ := C113_assign s x y a b hx hy hxy hdis hsrc
  obtain ⟨_, e2, e3⟩ := hshare
  have hf : findDim (s'.vec c.mx) (s'.vec c.st) c.cur_index 0 c.dim = .error .oob := by
    rw [e2, e3, h2, h3]
    exact findDim_oob _ _ hb (by omega) (by omega) (by omega)
      fun i _ hi => not_lt.2 (hend i hi)
  simp only [execAll, List.foldlM_cons, h, M_bind_ok]
  simp only [Op.exec, Objs.get, h6 z hzx, hz, M_bind_ok, Obj.increment, hf]
  rfl

/-- **C113.** The comparison of two iterators: true exactly if the current index of the first is
the beginning of that of the second; it reads past the end of the second exactly if that is a
proper beginning of the first. -/
theorem C113_equal (u v : List Nat) :
    (equal u v = .ok true ↔ u <+: v) ∧ (equal u v = .error .oob ↔ v <+: u ∧ v ≠ u) ∧
    (u.length = v.length → equal u v = .ok (decide (u = v))) := by
  induction u generalizing v with
  | nil =>
    refine ⟨by simp [equal], ?_, fun h => ?_⟩
    · simp only [equal, List.prefix_nil]
      constructor
      · intro h; cases h
      · intro h; exact absurd h.1 h.2
    · rw [List.length_nil] at h
      rw [List.eq_nil_of_length_eq_zero h.symm]
      rfl
  | cons a u ih =>
    cases v with
    | nil => exact ⟨by simp [equal], by simp [equal], fun h => by cases h⟩
    | cons b v =>
      obtain ⟨i1, i2, i3⟩ := ih v
      by_cases hab : a = b
      · subst hab
        simp only [equal, if_true, List.cons_prefix_cons, true_and, List.cons.injEq, ne_eq,
          List.length_cons, Nat.add_right_cancel_iff]
        exact ⟨i1, i2, i3⟩
      · simp only [equal, List.cons_prefix_cons, List.cons.injEq, hab, false_and]
        refine ⟨by simp, ?_, by simp⟩
        simp [Ne.symm hab]

section Examples

/-- two ranges: 0, 1, 2 and 0, 5 -/
private def ranges : Nat → List Nat
  | 1 => [3]
  | 2 => [1]
  | 4 => [10]
  | 5 => [5]
  | _ => [0]

-- copies and assignments within one range: 1 + 1 increments
example : ∃ (its : List Obj) (o : Obj), execAll ⟨ranges, []⟩ [.new 0 1 2, .inc 0, .copy 0, .inc 1, .assign 0 1] =
    .ok ⟨ranges, its⟩ ∧ its[0]? = some o ∧ o.cur_index = [2] := by
  obtain ⟨its, h, _, h'⟩ := C113_one_range ranges 0 1 2 rfl rfl
    [.inc 0, .copy 0, .inc 1, .assign 0 1] [2, 2] rfl
  obtain ⟨o, ho, hc, _⟩ := h' 0 2 rfl
  exact ⟨its, o, h, ho, hc⟩

-- the third iterator, over the first range, goes on with 5 instead of 1
example : ∃ s' c', execAll ⟨ranges, [⟨1, [0], 0, 1, 2⟩, ⟨1, [0], 3, 4, 5⟩, ⟨1, [0], 0, 1, 2⟩]⟩
    (.assign 0 1 :: List.replicate 1 (.inc 2)) = .ok s' ∧ s'.its[2]? = some c' ∧
    c'.cur_index = [5] :=
  C113_redirected ⟨ranges, [⟨1, [0], 0, 1, 2⟩, ⟨1, [0], 3, 4, 5⟩, ⟨1, [0], 0, 1, 2⟩]⟩ 0 1 2
    ⟨1, [0], 0, 1, 2⟩ ⟨1, [0], 3, 4, 5⟩ ⟨1, [0], 0, 1, 2⟩ rfl rfl rfl (by decide) (by decide) (by decide)
    (by rintro n (rfl | rfl | rfl) <;> decide) (by decide) rfl (by decide) 1

-- a redirected iterator of two dimensions reads `step[1]` of a range of one dimension
example : execAll ⟨fun n => if n < 3 then [7, 7] else [0],
    [⟨2, [0, 0], 0, 1, 2⟩, ⟨1, [0], 3, 4, 5⟩, ⟨2, [0, 0], 0, 1, 2⟩]⟩ [.assign 0 1, .inc 2] =
    .error .oob :=
  C113_redirected_oob ⟨fun n => if n < 3 then [7, 7] else [0],
      [⟨2, [0, 0], 0, 1, 2⟩, ⟨1, [0], 3, 4, 5⟩, ⟨2, [0, 0], 0, 1, 2⟩]⟩ 0 1 2 ⟨2, [0, 0], 0, 1, 2⟩
    ⟨1, [0], 3, 4, 5⟩ ⟨2, [0, 0], 0, 1, 2⟩ rfl rfl rfl (by decide) (by decide) (by decide)
    (by rintro n (rfl | rfl | rfl) <;> decide) (by decide) rfl (by decide) (by decide) (by decide)

example : equal [1, 2] [1, 2, 3] = .ok true := (C113_equal _ _).1.2 ⟨[3], rfl⟩

example : equal [1, 2, 3] [1, 2] = .error .oob := (C113_equal _ _).2.1.2 ⟨⟨[3], rfl⟩, by decide⟩

end Examples

end Verif.Props
