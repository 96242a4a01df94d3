import Verif.Core.Act
/-
Relations between executions of the same program on different numbers.
-/
namespace Verif

variable {α β : Type}

/-- A relation between two kinds of numbers that the operations respect. -/
structure Respects [Arith α] [Arith β] (R : α → β → Prop) : Prop where
  zero : R Arith.zero Arith.zero
  add : ∀ {x x' y y'}, R x x' → R y y' → R (Arith.add x y) (Arith.add x' y')
  mac : ∀ {c c' x x' y y'}, R c c' → R x x' → R y y' → R (Arith.mac c x y) (Arith.mac c' x' y')

/-- Vectors of the same length with related elements. -/
def RArr (R : α → β → Prop) (a : Array α) (b : Array β) : Prop :=
  a.size = b.size ∧ ∀ (i : Nat) x y, a[i]? = some x → b[i]? = some y → R x y

/-- The same error, or related values. -/
inductive RM {X Y : Type} (S : X → Y → Prop) : M X → M Y → Prop
  | ok {x y} : S x y → RM S (.ok x) (.ok y)
  | error (e) : RM S (.error e) (.error e)

namespace RM
variable {X Y X' Y' : Type} {S : X → Y → Prop} {T : X' → Y' → Prop}

theorem pure {x : X} {y : Y} (h : S x y) : RM S (Pure.pure x) (Pure.pure y) := .ok h

theorem throw (e : Err) : RM S (throw e) (throw e) := .error e

theorem bind {x : M X} {y : M Y} {f : X → M X'} {g : Y → M Y'} (h : RM S x y)
    (hf : ∀ r r', S r r' → RM T (f r) (g r')) : RM T (x >>= f) (y >>= g) := by
  cases h with
  | ok h => exact hf _ _ h
  | error e => exact .error e

theorem mono {S' : X → Y → Prop} {x : M X} {y : M Y} (h : RM S x y) (hs : ∀ x y, S x y → S' x y) :
    RM S' x y := by
  cases h with
  | ok h => exact .ok (hs _ _ h)
  | error e => exact .error e

theorem flip {x : M X} {y : M Y} (h : RM S x y) : RM (fun a b => S b a) y x := by
  cases h with
  | ok h => exact .ok h
  | error e => exact .error e

theorem forGo {hi st : Nat} {f : Nat → X → M X} {g : Nat → Y → M Y}
    (hf : ∀ i x y, S x y → RM S (f i x) (g i y)) :
    ∀ (fuel cur : Nat) (x : X) (y : Y), S x y →
      RM S (Verif.forGo hi st f fuel cur x) (Verif.forGo hi st g fuel cur y)
  | 0, cur, x, y, h => by
    unfold Verif.forGo
    split
    · exact .error _
    · exact .ok h
  | fuel + 1, cur, x, y, h => by
    unfold Verif.forGo
    split
    · exact bind (hf cur x y h) fun r r' hr => forGo hf fuel _ r r' hr
    · exact .ok h

theorem forStep {lo hi st : Nat} {x : X} {y : Y} {f : Nat → X → M X} {g : Nat → Y → M Y} (h : S x y)
    (hf : ∀ i x y, S x y → RM S (f i x) (g i y)) :
    RM S (Verif.forStep lo hi st x f) (Verif.forStep lo hi st y g) :=
  forGo hf _ _ _ _ h

theorem foldlM {ι : Type} {f : X → ι → M X} {g : Y → ι → M Y}
    (hf : ∀ i x y, S x y → RM S (f x i) (g y i)) :
    ∀ (l : List ι) (x : X) (y : Y), S x y → RM S (l.foldlM f x) (l.foldlM g y)
  | [], _, _, h => .ok h
  | i :: l, x, y, h => by
    rw [List.foldlM_cons, List.foldlM_cons]
    exact bind (hf i x y h) fun r r' hr => foldlM hf l r r' hr

/-- Code without numbers. -/
theorem self (x : M X) : RM Eq x x := by
  cases x with
  | ok x => exact .ok rfl
  | error e => exact .error e

end RM

namespace RArr
variable {R : α → β → Prop} {a : Array α} {b : Array β}

theorem get (h : RArr R a b) (i : Nat) :
    (∃ x y, a[i]? = some x ∧ b[i]? = some y ∧ R x y) ∨ (a[i]? = none ∧ b[i]? = none) := by
  by_cases hi : i < a.size
  · have hi' : i < b.size := h.1 ▸ hi
    exact .inl ⟨_, _, Array.getElem?_eq_getElem hi, Array.getElem?_eq_getElem hi',
      h.2 i _ _ (Array.getElem?_eq_getElem hi) (Array.getElem?_eq_getElem hi')⟩
  · have hi' : ¬ i < b.size := h.1 ▸ hi
    exact .inr ⟨Array.getElem?_eq_none (Nat.le_of_not_lt hi),
      Array.getElem?_eq_none (Nat.le_of_not_lt hi')⟩

theorem rd (h : RArr R a b) (i : Nat) : RM R (Verif.rd a i) (Verif.rd b i) := by
  unfold Verif.rd
  rcases h.get i with ⟨x, y, hx, hy, hr⟩ | ⟨hx, hy⟩
  · rw [hx, hy]; exact .ok hr
  · rw [hx, hy]; exact .error _

theorem rdAt (h : RArr R a b) (i : Nat) : RM R (Verif.rdAt a i) (Verif.rdAt b i) := by
  unfold Verif.rdAt
  rcases h.get i with ⟨x, y, hx, hy, hr⟩ | ⟨hx, hy⟩
  · rw [hx, hy]; exact .ok hr
  · rw [hx, hy]; exact .error _

theorem set (h : RArr R a b) (i : Nat) {v : α} {w : β} (hv : R v w) :
    RArr R (a.setIfInBounds i v) (b.setIfInBounds i w) := by
  refine ⟨by simp [h.1], fun j x y hx hy => ?_⟩
  rw [Array.getElem?_setIfInBounds] at hx hy
  rw [h.1] at hx
  split at hx
  · rename_i hij
    rw [if_pos hij] at hy
    split at hx
    · rename_i hj
      rw [if_pos hj] at hy
      cases hx
      cases hy
      exact hv
    · exact absurd hx (by simp)
  · rename_i hij
    rw [if_neg hij] at hy
    exact h.2 j x y hx hy

theorem wr (h : RArr R a b) (i : Nat) {v : α} {w : β} (hv : R v w) :
    RM (RArr R) (Verif.wr a i v) (Verif.wr b i w) := by
  unfold Verif.wr
  rw [h.1]
  split
  · exact .ok (h.set i hv)
  · exact .error _

theorem wrAt (h : RArr R a b) (i : Nat) {v : α} {w : β} (hv : R v w) :
    RM (RArr R) (Verif.wrAt a i v) (Verif.wrAt b i w) := by
  unfold Verif.wrAt
  rw [h.1]
  split
  · exact .ok (h.set i hv)
  · exact .error _

theorem zeros [Arith α] [Arith β] (hR : Respects R) (n : Nat) :
    RArr R (Verif.zeros n) (Verif.zeros n) := by
  refine ⟨by simp [Verif.zeros], fun i x y hx hy => ?_⟩
  unfold Verif.zeros at hx hy
  rw [Array.getElem?_replicate] at hx hy
  split at hx
  · rename_i hi
    rw [if_pos hi] at hy
    cases hx
    cases hy
    exact hR.zero
  · exact absurd hx (by simp)

theorem flip (h : RArr R a b) : RArr (fun x y => R y x) b a :=
  ⟨h.1.symm, fun i x y hx hy => h.2 i y x hy hx⟩

end RArr

/-- Tasks that make the same accesses, with related values. -/
inductive RAct (R : α → β → Prop) {X Y : Type} (S : X → Y → Prop) : Act α X → Act β Y → Prop
  | ret {x y} : S x y → RAct R S (.ret x) (.ret y)
  | fail (e) : RAct R S (.fail e) (.fail e)
  | rd (i) {k k'} : (∀ v w, R v w → RAct R S (k v) (k' w)) → RAct R S (.rd i k) (.rd i k')
  | wr (i) {v w k k'} : R v w → RAct R S k k' → RAct R S (.wr i v k) (.wr i w k')
  | rdFlag (j) {k k'} : (∀ b, RAct R S (k b) (k' b)) → RAct R S (.rdFlag j k) (.rdFlag j k')
  | wrFlag (j b) {k k'} : RAct R S k k' → RAct R S (.wrFlag j b k) (.wrFlag j b k')

namespace RAct
variable {R : α → β → Prop} {X Y X' Y' : Type} {S : X → Y → Prop} {T : X' → Y' → Prop}

theorem pure {x : X} {y : Y} (h : S x y) :
    RAct R S (Pure.pure x : Act α X) (Pure.pure y : Act β Y) := .ret h

theorem bind {x : Act α X} {y : Act β Y} {f : X → Act α X'} {g : Y → Act β Y'} (h : RAct R S x y)
    (hf : ∀ r r', S r r' → RAct R T (f r) (g r')) : RAct R T (x >>= f) (y >>= g) := by
  show RAct R T (x.bind f) (y.bind g)
  induction h with
  | ret h => exact hf _ _ h
  | fail e => exact .fail e
  | rd i _ ih => exact .rd i ih
  | wr i hv _ ih => exact .wr i hv ih
  | rdFlag j _ ih => exact .rdFlag j ih
  | wrFlag j b _ ih => exact .wrFlag j b ih

theorem tryCatch {x : Act α X} {y : Act β Y} {f : Err → Act α X} {g : Err → Act β Y}
    (h : RAct R S x y) (hf : ∀ e, RAct R S (f e) (g e)) : RAct R S (x.tryCatch f) (y.tryCatch g) := by
  induction h with
  | ret h => exact .ret h
  | fail e => exact hf e
  | rd i _ ih => exact .rd i ih
  | wr i hv _ ih => exact .wr i hv ih
  | rdFlag j _ ih => exact .rdFlag j ih
  | wrFlag j b _ ih => exact .wrFlag j b ih

/-- Tasks without result. -/
abbrev U : Unit → Unit → Prop := fun _ _ => True

theorem catchOutOfRange {x : Act α Unit} {y : Act β Unit} (h : RAct R U x y) :
    RAct R U x.catchOutOfRange y.catchOutOfRange := by
  refine tryCatch h fun e => ?_
  split
  · exact .ret trivial
  · exact .fail e

theorem ofM {x : M X} {y : M Y} (h : RM S x y) : RAct R S (Act.ofM x) (Act.ofM y) := by
  cases h with
  | ok h => exact .ret h
  | error e => exact .fail e

theorem read (n i : Nat) : RAct R R (Act.read n i) (Act.read n i) := by
  unfold Act.read
  split
  · exact .rd i fun v w h => .ret h
  · exact .fail _

theorem write (n i : Nat) {v : α} {w : β} (h : R v w) : RAct R U (Act.write n i v) (Act.write n i w) := by
  unfold Act.write
  split
  · exact .wr i h (.ret trivial)
  · exact .fail _

theorem writeAt (n i : Nat) {v : α} {w : β} (h : R v w) :
    RAct R U (Act.writeAt n i v) (Act.writeAt n i w) := by
  unfold Act.writeAt
  split
  · exact .wr i h (.ret trivial)
  · exact .fail _

theorem addTo [Arith α] [Arith β] (hR : Respects R) (n i : Nat) {v : α} {w : β} (h : R v w) :
    RAct R U (Act.addTo n i v) (Act.addTo n i w) :=
  bind (read n i) fun _ _ hc => write n i (hR.add hc h)

theorem forGo {hi st : Nat} {f : Nat → X → Act α X} {g : Nat → Y → Act β Y}
    (hf : ∀ i x y, S x y → RAct R S (f i x) (g i y)) :
    ∀ (fuel cur : Nat) (x : X) (y : Y), S x y →
      RAct R S (Verif.forGo hi st f fuel cur x) (Verif.forGo hi st g fuel cur y)
  | 0, cur, x, y, h => by
    unfold Verif.forGo
    split
    · exact .fail _
    · exact .ret h
  | fuel + 1, cur, x, y, h => by
    unfold Verif.forGo
    split
    · exact bind (hf cur x y h) fun r r' hr => forGo hf fuel _ r r' hr
    · exact .ret h

theorem forStep {lo hi st : Nat} {x : X} {y : Y} {f : Nat → X → Act α X} {g : Nat → Y → Act β Y}
    (h : S x y) (hf : ∀ i x y, S x y → RAct R S (f i x) (g i y)) :
    RAct R S (Verif.forStep lo hi st x f) (Verif.forStep lo hi st y g) :=
  forGo hf _ _ _ _ h

theorem flip {x : Act α X} {y : Act β Y} (h : RAct R S x y) :
    RAct (fun a b => R b a) (fun a b => S b a) y x := by
  induction h with
  | ret h => exact .ret h
  | fail e => exact .fail e
  | rd i _ ih => exact .rd i fun v w h => ih w v h
  | wr i hv _ ih => exact .wr i hv ih
  | rdFlag j _ ih => exact .rdFlag j ih
  | wrFlag j b _ ih => exact .wrFlag j b ih

end RAct

/-- Fork/join programs of the same form with related tasks. -/
inductive RTree (R : α → β → Prop) : Tree α → Tree β → Prop
  | act {p q} : RAct R RAct.U p q → RTree R (.act p) (.act q)
  | seq {ts : List (Tree α)} {us : List (Tree β)} : ts.length = us.length →
      (∀ (n : Nat) t u, ts[n]? = some t → us[n]? = some u → RTree R t u) → RTree R (.seq ts) (.seq us)
  | par {ts : List (Tree α)} {us : List (Tree β)} : ts.length = us.length →
      (∀ (n : Nat) t u, ts[n]? = some t → us[n]? = some u → RTree R t u) → RTree R (.par ts) (.par us)

/-- Memories with related cells and equal flags. -/
def RMem (R : α → β → Prop) (m : Mem α) (n : Mem β) : Prop :=
  (∀ i, R (m.cell i) (n.cell i)) ∧ m.flag = n.flag

theorem RMem.set {R : α → β → Prop} {m : Mem α} {n : Mem β} (h : RMem R m n) (i : Nat) {v : α}
    {w : β} (hv : R v w) : RMem R (m.set i v) (n.set i w) := by
  refine ⟨fun j => ?_, h.2⟩
  show R (if j = i then v else m.cell j) (if j = i then w else n.cell j)
  split
  · exact hv
  · exact h.1 j

theorem RMem.setFlag {R : α → β → Prop} {m : Mem α} {n : Mem β} (h : RMem R m n) (j : Nat)
    (b : Bool) : RMem R (m.setFlag j b) (n.setFlag j b) := by
  refine ⟨h.1, ?_⟩
  unfold Mem.setFlag
  rw [h.2]

namespace RTree
variable {R : α → β → Prop}

theorem flip {t : Tree α} {u : Tree β} (h : RTree R t u) : RTree (fun a b => R b a) u t := by
  induction h with
  | act h => exact .act h.flip
  | seq hl _ ih => exact .seq hl.symm fun n t u ht hu => ih n u t hu ht
  | par hl _ ih => exact .par hl.symm fun n t u ht hu => ih n u t hu ht

theorem map_par {ι : Type} (l : List ι) {f : ι → Tree α} {g : ι → Tree β}
    (h : ∀ i, RTree R (f i) (g i)) : RTree R (.par (l.map f)) (.par (l.map g)) := by
  refine .par (by simp) fun n t u ht hu => ?_
  rw [List.getElem?_map] at ht hu
  cases hl : l[n]? with
  | none => rw [hl] at ht; exact absurd ht (by simp)
  | some i =>
    rw [hl] at ht hu
    cases ht
    cases hu
    exact h i

theorem done {t : Tree α} {u : Tree β} (h : RTree R t u) (hd : Done t) : Done u := by
  induction h with
  | act h =>
    cases hd
    cases h
    exact .act
  | seq hl _ _ =>
    cases hd
    rename_i us _ _
    cases us with
    | nil => exact .seq
    | cons => exact absurd hl (by simp)
  | par hl _ ih =>
    cases hd with
    | par hd =>
      refine .par fun u hu => ?_
      obtain ⟨n, hn⟩ := List.getElem?_of_mem hu
      rename_i ts us _
      have hlt : n < ts.length := by
        rw [hl]
        exact (List.getElem?_eq_some_iff.1 hn).1
      exact ih n _ u (List.getElem?_eq_getElem hlt) hn (hd _ (List.getElem_mem hlt))

theorem failed {t : Tree α} {u : Tree β} {e : Err} (h : RTree R t u) (hf : Failed e t) :
    Failed e u := by
  induction h with
  | act h =>
    cases hf
    cases h
    exact .act
  | @seq ts us hl _ ih =>
    cases hf with
    | @seq t ts hf =>
      cases us with
      | nil => exact absurd hl (by simp)
      | cons u us => exact .seq (ih 0 t u rfl rfl hf)
  | @par ts us hl _ ih =>
    cases hf with
    | par ht hf =>
      obtain ⟨n, hn⟩ := List.getElem?_of_mem ht
      have hlt : n < us.length := by
        rw [← hl]
        exact (List.getElem?_eq_some_iff.1 hn).1
      exact .par (List.getElem_mem hlt) (ih n _ _ hn (List.getElem?_eq_getElem hlt) hf)

theorem step {t t' : Tree α} {u : Tree β} {m m' : Mem α} {n : Mem β} (hs : PStep m t m' t')
    (h : RTree R t u) (hm : RMem R m n) :
    ∃ n' u', PStep n u n' u' ∧ RMem R m' n' ∧ RTree R t' u' := by
  induction hs generalizing u with
  | rd =>
    cases h with
    | act h =>
      cases h with
      | rd _ hk => exact ⟨_, _, .rd, hm, .act (hk _ _ (hm.1 _))⟩
  | wr =>
    cases h with
    | act h =>
      cases h with
      | wr _ hv hk => exact ⟨_, _, .wr, hm.set _ hv, .act hk⟩
  | rdFlag =>
    cases h with
    | act h =>
      cases h with
      | rdFlag j hk =>
        refine ⟨_, _, .rdFlag, hm, .act ?_⟩
        rw [hm.2]
        exact hk _
  | wrFlag =>
    cases h with
    | act h =>
      cases h with
      | wrFlag _ _ hk => exact ⟨_, _, .wrFlag, hm.setFlag _ _, .act hk⟩
  | @seqStep m' t t' ts _ ih =>
    cases h with
    | @seq _ us hl hr =>
      cases us with
      | nil => exact absurd hl (by simp)
      | cons u us =>
        obtain ⟨n', u', h1, h2, h3⟩ := ih (hr 0 t u rfl rfl)
        refine ⟨n', _, .seqStep h1, h2, .seq (by simpa using hl) fun k t₁ u₁ ht hu => ?_⟩
        cases k with
        | zero => cases ht; cases hu; exact h3
        | succ k => exact hr (k + 1) t₁ u₁ ht hu
  | @seqNext t ts hd =>
    cases h with
    | @seq _ us hl hr =>
      cases us with
      | nil => exact absurd hl (by simp)
      | cons u us =>
        exact ⟨_, _, .seqNext ((hr 0 t u rfl rfl).done hd), hm, .seq (by simpa using hl)
          fun k t₁ u₁ ht hu => hr (k + 1) t₁ u₁ ht hu⟩
  | @parStep m' t t' ts k hk _ ih =>
    cases h with
    | @par _ us hl hr =>
      have hlt : k < us.length := by
        rw [← hl]
        exact (List.getElem?_eq_some_iff.1 hk).1
      obtain ⟨n', u', h1, h2, h3⟩ := ih (hr k t _ hk (List.getElem?_eq_getElem hlt))
      refine ⟨n', _, .parStep k (List.getElem?_eq_getElem hlt) h1, h2,
        .par (by simpa using hl) fun j t₁ u₁ ht hu => ?_⟩
      rw [List.getElem?_set] at ht hu
      rw [hl] at ht
      by_cases hj : k = j
      · rw [if_pos hj, if_pos hlt] at ht hu
        cases ht
        cases hu
        exact h3
      · rw [if_neg hj] at ht hu
        exact hr j t₁ u₁ ht hu

theorem steps {t t' : Tree α} {m m' : Mem α} (hs : PSteps m t m' t') :
    ∀ {u : Tree β} {n : Mem β}, RTree R t u → RMem R m n →
    ∃ n' u', PSteps n u n' u' ∧ RMem R m' n' ∧ RTree R t' u' := by
  induction hs with
  | refl => exact fun h hm => ⟨_, _, .refl, hm, h⟩
  | step h1 _ ih =>
    intro u n h hm
    obtain ⟨n', u', h2, h3, h4⟩ := step h1 h hm
    obtain ⟨n'', u'', h5, h6, h7⟩ := ih h4 h3
    exact ⟨n'', u'', .step h2 h5, h6, h7⟩

theorem next {t : Tree α} {u : Tree β} {l : Loc} {w : Bool} (h : RTree R t u) (hn : Next t l w) :
    Next u l w := by
  induction hn generalizing u with
  | rd => cases h with | act h => cases h; exact .rd
  | wr => cases h with | act h => cases h; exact .wr
  | rdFlag => cases h with | act h => cases h; exact .rdFlag
  | wrFlag => cases h with | act h => cases h; exact .wrFlag
  | @seq t ts l w _ ih =>
    cases h with
    | @seq _ us hl hr =>
      cases us with
      | nil => exact absurd hl (by simp)
      | cons u us => exact .seq (ih (hr 0 t u rfl rfl))
  | @par t ts l w n hn _ ih =>
    cases h with
    | @par _ us hl hr =>
      have hlt : n < us.length := by
        rw [← hl]
        exact (List.getElem?_eq_some_iff.1 hn).1
      exact .par n (List.getElem?_eq_getElem hlt) (ih (hr n t _ hn (List.getElem?_eq_getElem hlt)))

theorem race {t : Tree α} {u : Tree β} (h : RTree R t u) (hr : Race t) : Race u := by
  induction hr generalizing u with
  | @here ts t₁ t₂ l w k k' hne h1 h2 h3 h4 =>
    cases h with
    | @par _ us hl hr =>
      have hlt : k < us.length := by
        rw [← hl]
        exact (List.getElem?_eq_some_iff.1 h1).1
      have hlt' : k' < us.length := by
        rw [← hl]
        exact (List.getElem?_eq_some_iff.1 h2).1
      exact .here k k' hne (List.getElem?_eq_getElem hlt) (List.getElem?_eq_getElem hlt')
        ((hr k _ _ h1 (List.getElem?_eq_getElem hlt)).next h3)
        ((hr k' _ _ h2 (List.getElem?_eq_getElem hlt')).next h4)
  | @seq t ts _ ih =>
    cases h with
    | @seq _ us hl hr =>
      cases us with
      | nil => exact absurd hl (by simp)
      | cons u us => exact .seq (ih (hr 0 t u rfl rfl))
  | @par t ts ht _ ih =>
    cases h with
    | @par _ us hl hr =>
      obtain ⟨n, hn⟩ := List.getElem?_of_mem ht
      have hlt : n < us.length := by
        rw [← hl]
        exact (List.getElem?_eq_some_iff.1 hn).1
      exact .par (List.getElem_mem hlt) (ih (hr n _ _ hn (List.getElem?_eq_getElem hlt)))

end RTree

theorem RMem.flip {R : α → β → Prop} {m : Mem α} {n : Mem β} (h : RMem R m n) :
    RMem (fun a b => R b a) n m := ⟨h.1, h.2.symm⟩

/-- Whether there is a data race depends on the form of the program only. -/
theorem RTree.raceFree {R : α → β → Prop} {t : Tree α} {u : Tree β} {m : Mem α} {n : Mem β}
    (h : RTree R t u) (hm : RMem R m n) : RaceFree m t ↔ RaceFree n u := by
  constructor
  · intro hf n' u' hs hr
    obtain ⟨m', t', h1, h2, h3⟩ := steps hs h.flip hm.flip
    exact hf m' t' h1 (h3.race hr)
  · intro hf m' t' hs hr
    obtain ⟨n', u', h1, h2, h3⟩ := steps hs h hm
    exact hf n' u' h1 (h3.race hr)

/-- Every outcome of one program has a related outcome of the other one. -/
def RND {X Y : Type} (S : X → Y → Prop) (x : ND X) (y : ND Y) : Prop :=
  (∀ o, x o → ∃ o', y o' ∧ RM S o o') ∧ ∀ o', y o' → ∃ o, x o ∧ RM S o o'

namespace RND
variable {R : α → β → Prop} {X Y X' Y' : Type} {S : X → Y → Prop} {T : X' → Y' → Prop}

theorem pure {x : X} {y : Y} (h : S x y) : RND S (Pure.pure x : ND X) (Pure.pure y : ND Y) :=
  ⟨fun o ho => ⟨.ok y, rfl, by cases ho; exact .ok h⟩, fun o ho => ⟨.ok x, rfl, by cases ho; exact .ok h⟩⟩

theorem fail (e : Err) : RND S (ND.fail e) (ND.fail e) :=
  ⟨fun o ho => ⟨.error e, rfl, by cases ho; exact .error e⟩,
    fun o ho => ⟨.error e, rfl, by cases ho; exact .error e⟩⟩

theorem ofM {x : M X} {y : M Y} (h : RM S x y) : RND S (ND.ofM x) (ND.ofM y) :=
  ⟨fun o ho => ⟨y, rfl, by cases ho; exact h⟩, fun o ho => ⟨x, rfl, by cases ho; exact h⟩⟩

theorem bind {x : ND X} {y : ND Y} {f : X → ND X'} {g : Y → ND Y'} (h : RND S x y)
    (hf : ∀ r r', S r r' → RND T (f r) (g r')) : RND T (x >>= f) (y >>= g) := by
  constructor
  · rintro o (⟨e, he, rfl⟩ | ⟨r, hr, ho⟩)
    · obtain ⟨o', h1, h2⟩ := h.1 _ he
      cases h2
      exact ⟨_, .inl ⟨e, h1, rfl⟩, .error e⟩
    · obtain ⟨o', h1, h2⟩ := h.1 _ hr
      cases h2 with
      | ok h2 =>
        obtain ⟨o'', h3, h4⟩ := (hf _ _ h2).1 _ ho
        exact ⟨o'', .inr ⟨_, h1, h3⟩, h4⟩
  · rintro o (⟨e, he, rfl⟩ | ⟨r, hr, ho⟩)
    · obtain ⟨o', h1, h2⟩ := h.2 _ he
      cases h2
      exact ⟨_, .inl ⟨e, h1, rfl⟩, .error e⟩
    · obtain ⟨o', h1, h2⟩ := h.2 _ hr
      cases h2 with
      | ok h2 =>
        obtain ⟨o'', h3, h4⟩ := (hf _ _ h2).2 _ ho
        exact ⟨o'', .inr ⟨_, h1, h3⟩, h4⟩

theorem forGo {hi st : Nat} {f : Nat → X → ND X} {g : Nat → Y → ND Y}
    (hf : ∀ i x y, S x y → RND S (f i x) (g i y)) :
    ∀ (fuel cur : Nat) (x : X) (y : Y), S x y →
      RND S (Verif.forGo hi st f fuel cur x) (Verif.forGo hi st g fuel cur y)
  | 0, cur, x, y, h => by
    unfold Verif.forGo
    split
    · exact fail _
    · exact pure h
  | fuel + 1, cur, x, y, h => by
    unfold Verif.forGo
    split
    · exact bind (hf cur x y h) fun r r' hr => forGo hf fuel _ r r' hr
    · exact pure h

theorem forStep {lo hi st : Nat} {x : X} {y : Y} {f : Nat → X → ND X} {g : Nat → Y → ND Y}
    (h : S x y) (hf : ∀ i x y, S x y → RND S (f i x) (g i y)) :
    RND S (Verif.forStep lo hi st x f) (Verif.forStep lo hi st y g) :=
  forGo hf _ _ _ _ h

theorem foldlM {ι : Type} {f : X → ι → ND X} {g : Y → ι → ND Y}
    (hf : ∀ i x y, S x y → RND S (f x i) (g y i)) :
    ∀ (l : List ι) (x : X) (y : Y), S x y → RND S (l.foldlM f x) (l.foldlM g y)
  | [], _, _, h => pure h
  | i :: l, x, y, h => by
    rw [List.foldlM_cons, List.foldlM_cons]
    exact bind (hf i x y h) fun r r' hr => foldlM hf l r r' hr

theorem ofArray [Arith α] [Arith β] (hR : Respects R) {a : Array α} {b : Array β} (h : RArr R a b)
    (i : Nat) : R ((Mem.ofArray a).cell i) ((Mem.ofArray b).cell i) := by
  show R ((a[i]?).getD Arith.zero) ((b[i]?).getD Arith.zero)
  rcases h.get i with ⟨x, y, hx, hy, hr⟩ | ⟨hx, hy⟩
  · rw [hx, hy]; exact hr
  · rw [hx, hy]; exact hR.zero

theorem toArray {n : Nat} {c : Nat → α} {d : Nat → β} (h : ∀ i, R (c i) (d i)) :
    RArr R (Verif.toArray n c) (Verif.toArray n d) := by
  refine ⟨by simp [Verif.toArray], fun i x y hx hy => ?_⟩
  unfold Verif.toArray at hx hy
  rw [Array.getElem?_ofFn] at hx hy
  split at hx
  · rename_i hi
    rw [dif_pos hi] at hy
    cases hx
    cases hy
    exact h i
  · exact absurd hx (by simp)

theorem run {c : Nat → α} {d : Nat → β} {fl : Nat → Bool} {t : Tree α} {u : Tree β}
    (hc : ∀ i, R (c i) (d i)) (h : RTree R t u) :
    RND (fun x y => ∀ i, R (x i) (y i)) (ND.run c fl t) (ND.run d fl u) := by
  have hm : RMem R ⟨c, fl⟩ ⟨d, fl⟩ := ⟨hc, rfl⟩
  constructor
  · rintro o (⟨m', t', h1, h2, rfl⟩ | ⟨m', t', e, h1, h2, rfl⟩)
    · obtain ⟨n', u', h3, h4, h5⟩ := RTree.steps h1 h hm
      exact ⟨_, .inl ⟨n', u', h3, h5.done h2, rfl⟩, .ok h4.1⟩
    · obtain ⟨n', u', h3, h4, h5⟩ := RTree.steps h1 h hm
      exact ⟨_, .inr ⟨n', u', e, h3, h5.failed h2, rfl⟩, .error e⟩
  · rintro o (⟨m', t', h1, h2, rfl⟩ | ⟨m', t', e, h1, h2, rfl⟩)
    · obtain ⟨n', u', h3, h4, h5⟩ := RTree.steps h1 h.flip hm.flip
      exact ⟨_, .inl ⟨n', u', h3, h5.done h2, rfl⟩, .ok h4.1⟩
    · obtain ⟨n', u', h3, h4, h5⟩ := RTree.steps h1 h.flip hm.flip
      exact ⟨_, .inr ⟨n', u', e, h3, h5.failed h2, rfl⟩, .error e⟩

theorem runOn [Arith α] [Arith β] (hR : Respects R) {a : Array α} {b : Array β} (ha : RArr R a b)
    {t : Tree α} {u : Tree β} (h : RTree R t u) : RND (RArr R) (ND.runOn a t) (ND.runOn b u) := by
  unfold ND.runOn
  rw [ha.1]
  exact bind (run (ofArray hR ha) h) fun c d hc => pure (toArray hc)

end RND

/-- One task alone. -/
theorem RAct.execOn [Arith α] [Arith β] {R : α → β → Prop} (hR : Respects R) {X Y : Type}
    {S : X → Y → Prop} {p : Act α X} {q : Act β Y} (h : RAct R S p q) {a : Array α} {b : Array β}
    (ha : RArr R a b) : RM (RArr R) (p.execOn a) (q.execOn b) := by
  have key : ∀ m n, RMem R m n → RM S (p.exec m).1 (q.exec n).1 ∧ RMem R (p.exec m).2 (q.exec n).2 := by
    induction h with
    | ret h => exact fun m n hm => ⟨.ok h, hm⟩
    | fail e => exact fun m n hm => ⟨.error e, hm⟩
    | rd i _ ih => exact fun m n hm => ih _ _ (hm.1 i) m n hm
    | wr i hv _ ih => exact fun m n hm => ih _ _ (hm.set i hv)
    | rdFlag j _ ih =>
      intro m n hm
      simp only [Act.exec]
      rw [hm.2]
      exact ih _ m n hm
    | wrFlag j b _ ih => exact fun m n hm => ih _ _ (hm.setFlag j b)
  obtain ⟨h1, h2⟩ := key _ _ (⟨RND.ofArray hR ha, rfl⟩ : RMem R (Mem.ofArray a) (Mem.ofArray b))
  unfold Act.execOn
  revert h1 h2
  generalize p.exec (Mem.ofArray a) = r
  generalize q.exec (Mem.ofArray b) = s
  rcases r with ⟨r | r, m⟩ <;> rcases s with ⟨s | s, n⟩ <;> intro h1 h2
  · cases h1
    exact .error _
  · cases h1
  · cases h1
  · rw [ha.1]
    exact .ok (RND.toArray h2.1)

end Verif
