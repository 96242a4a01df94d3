import Verif.Proof.Param
/-
C131: what a multiplication does (accesses, failures, races, formulas) does not depend on the
elements, for all parameters, also those for which it fails or computes nonsense.
-/
namespace Verif.Props
open Kernel

/-- The operations of two arithmetics respect a relation between their numbers. -/
def Keeps {α β : Type} [Arith α] [Arith β] (R : α → β → Prop) : Prop :=
  R Arith.zero Arith.zero ∧
  (∀ x x' y y', R x x' → R y y' → R (Arith.add x y) (Arith.add x' y')) ∧
  ∀ c c' x x' y y', R c c' → R x x' → R y y' → R (Arith.mac c x y) (Arith.mac c' x' y')

/-- Arrays of the same length, element by element in relation. -/
def Alike {α β : Type} (R : α → β → Prop) (A : Array α) (B : Array β) : Prop :=
  A.size = B.size ∧ ∀ (i : Nat) (h : i < A.size) (h' : i < B.size), R A[i] B[i]

/-- The same failure, or results in relation. -/
def AlikeOut {α β : Type} (R : α → β → Prop) : Except Err (Array α) → Except Err (Array β) → Prop
  | .ok C, .ok C' => Alike R C C'
  | .error e, .error e' => e = e'
  | _, _ => False

/-- Each relation between numbers that the operations respect is handed on from the matrices to the
results: every execution on one pair of matrices has a counterpart on the other pair. -/
def Parametric (run : (α : Type) → [Arith α] → Array α → Array α → ND (Array α)) : Prop :=
  ∀ (α β : Type) [Arith α] [Arith β] (R : α → β → Prop), Keeps R →
  ∀ (A B : Array α) (A' B' : Array β), Alike R A A' → Alike R B B' →
    (∀ o, run α A B o → ∃ o', run β A' B' o' ∧ AlikeOut R o o') ∧
    ∀ o', run β A' B' o' → ∃ o, run α A B o ∧ AlikeOut R o o'

/-- Expressions in the elements of two matrices; `a i` is element `i` of the first vector. -/
inductive Expr where
  | a (i : Nat)
  | b (i : Nat)
  | zero
  | add (s t : Expr)
  | mac (s t u : Expr)
  deriving DecidableEq

/-- Calculating with expressions does nothing but write them down. -/
instance : Arith Expr := ⟨.zero, .add, .mac⟩

/-- The value of an expression for given matrices. -/
def Expr.value {α : Type} [Arith α] (A B : Array α) : Expr → α
  | .a i => A.getD i Arith.zero
  | .b i => B.getD i Arith.zero
  | .zero => Arith.zero
  | .add s t => Arith.add (s.value A B) (t.value A B)
  | .mac s t u => Arith.mac (s.value A B) (t.value A B) (u.value A B)

/-- The consequences: the elements decide nothing. -/
structure ElementsDecideNothing
    (run : (α : Type) → [Arith α] → Array α → Array α → ND (Array α)) : Prop where
  /-- Matrices of the same sizes fail in the same ways, or have results of the same sizes, whatever
  their elements are and however these are calculated with. -/
  outcomes : ∀ (α β : Type) [Arith α] [Arith β] (A B : Array α) (A' B' : Array β),
    A.size = A'.size → B.size = B'.size →
    (∀ e, run α A B (.error e) ↔ run β A' B' (.error e)) ∧
    ∀ n, (∃ C, C.size = n ∧ run α A B (.ok C)) ↔ ∃ C, C.size = n ∧ run β A' B' (.ok C)
  /-- A mapping that respects the operations can be applied before or after the multiplication. -/
  maps : ∀ (α β : Type) [Arith α] [Arith β] (φ : α → β), φ Arith.zero = Arith.zero →
    (∀ x y, φ (Arith.add x y) = Arith.add (φ x) (φ y)) →
    (∀ c x y, φ (Arith.mac c x y) = Arith.mac (φ c) (φ x) (φ y)) →
    ∀ (A B : Array α) (o : Except Err (Array β)), run β (A.map φ) (B.map φ) o ↔
      ∃ o', run α A B o' ∧ o = o'.map (·.map φ)
  /-- The one execution with symbols in place of elements tells everything: what comes out for given
  matrices are the values of the expressions that come out for symbols. -/
  symbols : ∀ (α : Type) [Arith α] (A B : Array α) (o : Except Err (Array α)), run α A B o ↔
    ∃ o', run Expr (Array.ofFn fun i : Fin A.size => .a i) (Array.ofFn fun i : Fin B.size => .b i) o' ∧
      o = o'.map (·.map (Expr.value A B))
  /-- A set of numbers that is closed under the operations and contains all elements of the matrices
  contains all elements of the result. -/
  closed : ∀ (α : Type) [Arith α] (P : α → Prop), P Arith.zero →
    (∀ x y, P x → P y → P (Arith.add x y)) → (∀ c x y, P c → P x → P y → P (Arith.mac c x y)) →
    ∀ (A B : Array α), (∀ x ∈ A, P x) → (∀ x ∈ B, P x) →
    ∀ C, run α A B (.ok C) → ∀ x ∈ C, P x

private theorem alike_map {α β : Type} (φ : α → β) (A : Array α) :
    Alike (fun x y => y = φ x) A (A.map φ) :=
  ⟨by simp, fun i h h' => by simp⟩

private theorem map_alike {α β : Type} {φ : α → β} {A : Array α} {B : Array β}
    (h : Alike (fun x y => y = φ x) A B) : B = A.map φ := by
  refine Array.ext (by simp [h.1]) fun i h1 h2 => ?_
  rw [Array.getElem_map]
  exact h.2 i (h.1 ▸ h1) h1

private theorem out_map {α β : Type} {φ : α → β} {o : Except Err (Array α)}
    {o' : Except Err (Array β)} (h : AlikeOut (fun x y => y = φ x) o o') : o' = o.map (·.map φ) := by
  rcases o with e | C <;> rcases o' with e' | C'
  · rw [show e = e' from h]; rfl
  · exact h.elim
  · exact h.elim
  · rw [map_alike h]; rfl

private theorem naturality {run : (α : Type) → [Arith α] → Array α → Array α → ND (Array α)}
    (h : Parametric run) {α β : Type} [Arith α] [Arith β] {φ : α → β}
    (h0 : φ Arith.zero = Arith.zero) (h1 : ∀ x y, φ (Arith.add x y) = Arith.add (φ x) (φ y))
    (h2 : ∀ c x y, φ (Arith.mac c x y) = Arith.mac (φ c) (φ x) (φ y)) {A B : Array α}
    {A' B' : Array β} (hA : Alike (fun x y => y = φ x) A A') (hB : Alike (fun x y => y = φ x) B B')
    (o : Except Err (Array β)) : run β A' B' o ↔ ∃ o', run α A B o' ∧ o = o'.map (·.map φ) := by
  obtain ⟨f, g⟩ := h α β (fun x y => y = φ x) ⟨h0.symm, fun x x' y y' hx hy => by
      cases hx; cases hy; exact (h1 x y).symm, fun c c' x x' y y' hc hx hy => by
      cases hc; cases hx; cases hy; exact (h2 c x y).symm⟩ A B A' B' hA hB
  constructor
  · intro ho
    obtain ⟨o', h3, h4⟩ := g o ho
    exact ⟨o', h3, out_map h4⟩
  · rintro ⟨o', h3, rfl⟩
    obtain ⟨o'', h4, h5⟩ := f o' h3
    rw [← out_map h5]
    exact h4

/-- **C131**, any program that hands on relations: the elements decide nothing. -/
theorem C131_consequences {run : (α : Type) → [Arith α] → Array α → Array α → ND (Array α)}
    (h : Parametric run) : ElementsDecideNothing run where
  outcomes α β _ _ A B A' B' hA hB := by
    obtain ⟨f, g⟩ := h α β (fun _ _ => True) ⟨trivial, fun _ _ _ _ _ _ => trivial,
      fun _ _ _ _ _ _ _ _ _ => trivial⟩ A B A' B' ⟨hA, fun _ _ _ => trivial⟩
      ⟨hB, fun _ _ _ => trivial⟩
    refine ⟨fun e => ⟨fun he => ?_, fun he => ?_⟩, fun n => ⟨?_, ?_⟩⟩
    · obtain ⟨o', h1, h2⟩ := f _ he
      rcases o' with e' | C
      · rw [show e = e' from h2]; exact h1
      · exact h2.elim
    · obtain ⟨o', h1, h2⟩ := g _ he
      rcases o' with e' | C
      · rw [← show e' = e from h2]; exact h1
      · exact h2.elim
    · rintro ⟨C, hn, hC⟩
      obtain ⟨o', h1, h2⟩ := f _ hC
      rcases o' with e' | C'
      · exact h2.elim
      · exact ⟨C', h2.1 ▸ hn, h1⟩
    · rintro ⟨C, hn, hC⟩
      obtain ⟨o', h1, h2⟩ := g _ hC
      rcases o' with e' | C'
      · exact h2.elim
      · exact ⟨C', h2.1 ▸ hn, h1⟩
  maps α β _ _ φ h0 h1 h2 A B o := naturality h h0 h1 h2 (alike_map φ A) (alike_map φ B) o
  symbols α _ A B o := naturality h (φ := Expr.value A B) rfl (fun _ _ => rfl) (fun _ _ _ => rfl)
    ⟨by simp, fun i h h' => by
      rw [Array.getElem_ofFn]
      show A[i] = A.getD i Arith.zero
      simp [h']⟩
    ⟨by simp, fun i h h' => by
      rw [Array.getElem_ofFn]
      show B[i] = B.getD i Arith.zero
      simp [h']⟩ o
  closed α _ P h0 h1 h2 A B hA hB C hC x hx := by
    obtain ⟨f, -⟩ := h α α (fun x _ => P x) ⟨h0, fun x _ y _ hx hy => h1 x y hx hy,
      fun c _ x _ y _ hc hx hy => h2 c x y hc hx hy⟩ A B A B
      ⟨rfl, fun i h _ => hA _ (Array.getElem_mem h)⟩ ⟨rfl, fun i h _ => hB _ (Array.getElem_mem h)⟩
    obtain ⟨o', h3, h4⟩ := f _ hC
    rcases o' with e | C'
    · exact h4.elim
    · obtain ⟨i, hi, rfl⟩ := Array.getElem_of_mem hx
      exact h4.2 i hi (h4.1 ▸ hi)

section Translate
variable {α β : Type} {R : α → β → Prop}

private theorem keeps [Arith α] [Arith β] (h : Keeps R) : Respects R :=
  ⟨h.1, fun hx hy => h.2.1 _ _ _ _ hx hy, fun hc hx hy => h.2.2 _ _ _ _ _ _ hc hx hy⟩

private theorem alike {A : Array α} {B : Array β} (h : Alike R A B) : RArr R A B :=
  ⟨h.1, fun i x y hx hy => by
    obtain ⟨h1, rfl⟩ := Array.getElem?_eq_some_iff.1 hx
    obtain ⟨h2, rfl⟩ := Array.getElem?_eq_some_iff.1 hy
    exact h.2 i h1 h2⟩

private theorem alikeOut {o : Except Err (Array α)} {o' : Except Err (Array β)}
    (h : RM (RArr R) o o') : AlikeOut R o o' := by
  cases h with
  | ok h => exact ⟨h.1, fun i h1 h2 => h.2 i _ _ (Array.getElem?_eq_getElem h1)
      (Array.getElem?_eq_getElem h2)⟩
  | error e => exact rfl

private theorem parametric {run : (α : Type) → [Arith α] → Array α → Array α → ND (Array α)}
    (h : ∀ {α β : Type} [Arith α] [Arith β] {R : α → β → Prop} {A B : Array α} {A' B' : Array β},
      Respects R → RArr R A A' → RArr R B B' → RND (RArr R) (run α A B) (run β A' B')) :
    Parametric run := by
  intro α β _ _ R hR A B A' B' hA hB
  obtain ⟨f, g⟩ := h (keeps hR) (alike hA) (alike hB)
  refine ⟨fun o ho => ?_, fun o ho => ?_⟩
  · obtain ⟨o', h1, h2⟩ := f o ho
    exact ⟨o', h1, alikeOut h2⟩
  · obtain ⟨o', h1, h2⟩ := g o ho
    exact ⟨o', h1, alikeOut h2⟩

end Translate

/-- **C131.** `naive_matrix_multiply`. -/
theorem C131_naive (N : Nat) :
    Parametric fun _ _ A B => Naive.naive_matrix_multiply N A B :=
  parametric fun hR hA hB => Naive.param hR hA hB N

/-- **C131.** `naive_matrix_multiply_transposed`. -/
theorem C131_naive_transposed (N : Nat) :
    Parametric fun _ _ A B => Naive.naive_matrix_multiply_transposed N A B :=
  parametric fun hR hA hB => Naive.paramT hR hA hB N

/-- **C131.** `single`, all parameters. -/
theorem C131_single (N : Nat) (transposed : Bool) (br bi reps : Nat) :
    Parametric fun _ _ A B => Recursive.single_matrix_multiply N A B transposed br bi reps :=
  parametric fun hR hA hB => Recursive.single_param hR hA hB N transposed br bi reps

/-- **C131.** `pseudodynamic`, all parameters, any number of localities. -/
theorem C131_pseudodynamic (p : StaticImproved.Params) (N : Nat) (transposed : Bool)
    (br bi reps L : Nat) :
    Parametric fun _ _ A B =>
      StaticImproved.pseudodynamic_matrix_multiply p N A B transposed br bi reps L :=
  parametric fun hR hA hB => StaticImproved.improved_param hR hA hB p N transposed bi br reps L

/-- **C131.** `algorithms`, all block sizes. -/
theorem C131_algorithms (N bi br : Nat) :
    Parametric fun _ _ A B => Algorithms.matrix_multiply N A B bi br :=
  parametric fun hR hA hB => Algorithms.param hR hA hB N bi br

/-- **C131.** `looped`, all block sizes. -/
theorem C131_looped (N br bi : Nat) :
    Parametric fun _ _ A B => ND.ofM (Looped.matrix_multiply N A B br bi) :=
  parametric fun hR hA hB => RND.ofM (Looped.param hR hA hB N br bi)

/-- **C131.** `semi`, all block sizes. -/
theorem C131_semi (N bi : Nat) :
    Parametric fun _ _ A B => Semi.matrix_multiply N A B bi :=
  parametric fun hR hA hB => Semi.param hR hA hB N bi

/-- **C131.** `semi` with the disabled blocking. -/
theorem C131_semi_blocked (par : List Bool) (N bi : Nat) :
    Parametric fun _ _ A B => Semi.blocked_matrix_multiply par N A B bi :=
  parametric fun hR hA hB => Semi.blocked_param hR hA hB par N bi

/-- **C131.** `combined`, any values of the macros. -/
theorem C131_combined (b : Tiled.Blocking) (N reps : Nat) :
    Parametric fun _ _ A B => Combined.matrix_multiply b N A B reps :=
  parametric fun hR hA hB => Combined.param hR hA hB b N reps

/-- **C131.** `kernel_tiled`, any values of the macros. -/
theorem C131_kernel_tiled (b : Tiled.Blocking) (N : Nat) (t : Bool) (reps : Nat) :
    Parametric fun _ _ A B => KernelTiled.matrix_multiply b N A B t reps :=
  parametric fun hR hA hB => KernelTiled.param hR hA hB b N t reps

/-- **C131.** `kernel_test`, also for the sizes that are not safe. -/
theorem C131_kernel_test (N : Nat) (t : Bool) (reps : Nat) :
    Parametric fun _ _ A B => KernelTest.matrix_multiply N A B t reps :=
  parametric fun hR hA hB => KernelTest.param hR hA hB N t reps

/-! ### races -/

/-- Whether there is a data race depends neither on the elements of the matrices nor on the numbers
in the shared memory at the start. -/
def SameRaces (tree : (α : Type) → [Arith α] → Array α → Array α → Tree α) : Prop :=
  ∀ (α β : Type) [Arith α] [Arith β] (A B : Array α) (A' B' : Array β),
    A.size = A'.size → B.size = B'.size → ∀ (m : Mem α) (m' : Mem β), m.flag = m'.flag →
    (RaceFree m (tree α A B) ↔ RaceFree m' (tree β A' B'))

private theorem sameRaces {tree : (α : Type) → [Arith α] → Array α → Array α → Tree α}
    (h : ∀ {α β : Type} [Arith α] [Arith β] {R : α → β → Prop} {A B : Array α} {A' B' : Array β},
      Respects R → RArr R A A' → RArr R B B' → RTree R (tree α A B) (tree β A' B')) :
    SameRaces tree := by
  intro α β _ _ A B A' B' hA hB m m' hm
  exact (h (R := fun _ _ => True) ⟨trivial, fun _ _ => trivial, fun _ _ _ => trivial⟩
    ⟨hA, fun _ _ _ _ _ => trivial⟩ ⟨hB, fun _ _ _ _ _ => trivial⟩).raceFree ⟨fun _ => trivial, hm⟩

/-- **C131.** Data races: the parallel parts of all programs, for all parameters. -/
theorem C131_races :
    (∀ N, SameRaces fun _ _ A B => Naive.tree N A B) ∧
    (∀ N, SameRaces fun _ _ A B => Naive.treeT N A B) ∧
    (∀ N transposed br bi reps, SameRaces fun _ _ A B =>
      Async.single_tasks N A B transposed br bi reps) ∧
    (∀ N transposed br bi reps ws, SameRaces fun _ _ A B =>
      Async.improved_tasks ⟨N, A, B, transposed, bi⟩ N br reps ws) ∧
    (∀ N bi br, SameRaces fun _ _ A B => Algorithms.tree N A B bi br) ∧
    (∀ N bi pol, SameRaces fun _ _ A B => Semi.tree N A B bi pol) ∧
    (∀ b pol X Y K, SameRaces fun _ _ A B => Combined.tree b pol X Y K A B) ∧
    (∀ b X Y K, SameRaces fun _ _ A B => KernelTiled.tree b X Y K A B) ∧
    ∀ N, SameRaces fun _ _ A B => KernelTest.tree N A B :=
  ⟨fun N => sameRaces fun hR hA hB => Naive.tree_param hR hA hB N,
    fun N => sameRaces fun hR hA hB => Naive.treeT_param hR hA hB N,
    fun N t br bi reps => sameRaces fun hR hA hB => Async.single_param hR hA hB N t br bi reps,
    fun N t br bi reps ws => sameRaces fun hR hA hB =>
      Async.improved_param hR hA hB N N t bi br reps ws,
    fun N bi br => sameRaces fun hR hA hB => Algorithms.tree_param hR hA hB N bi br,
    fun N bi pol => sameRaces fun hR hA hB => Semi.tree_param hR hA hB N bi pol,
    fun b pol X Y K => sameRaces fun hR hA hB => Combined.tree_param hR hA hB b pol X Y K,
    fun b X Y K => sameRaces fun hR hA hB => KernelTiled.tree_param hR hA hB b X Y K,
    fun N => sameRaces fun hR hA hB => KernelTest.tree_param hR hA hB N⟩

section Examples

/-- The expressions `looped` computes for size 2: `(0 + a₀ b₀) + a₁ b₁` and so on; by `symbols` these
are the results for all matrices. -/
example {α : Type} [Arith α] (A B : Array α) (hA : A.size = 4) (hB : B.size = 4) :
    Looped.matrix_multiply 2 A B 2 2 = .ok (#[
      Expr.mac (.mac .zero (.a 0) (.b 0)) (.a 1) (.b 1), .mac (.mac .zero (.a 0) (.b 2)) (.a 1) (.b 3),
      .mac (.mac .zero (.a 2) (.b 0)) (.a 3) (.b 1),
      .mac (.mac .zero (.a 2) (.b 2)) (.a 3) (.b 3)].map (Expr.value A B)) := by
  refine Eq.symm (((C131_consequences (C131_looped 2 2 2)).symbols α A B (.ok _)).2 ⟨.ok _, ?_, rfl⟩)
  rw [hA, hB]
  show Except.ok _ = Looped.matrix_multiply 2 _ _ 2 2
  rfl

/-- A second matrix with an element too few: one execution with a single number shows that all
executions fail. -/
example {α : Type} [Arith α] (A B : Array α) (hA : A.size = 4) (hB : B.size = 3) :
    Looped.matrix_multiply 2 A B 2 2 = .error .oob := by
  let _ : Arith Unit := ⟨(), fun _ _ => (), fun _ _ _ => ()⟩
  have hU : Looped.matrix_multiply 2 #[(), (), (), ()] #[(), (), ()] 2 2 = .error .oob := rfl
  exact Eq.symm ((((C131_consequences (C131_looped 2 2 2)).outcomes Unit α #[(), (), (), ()]
    #[(), (), ()] A B hA.symm hB.symm).1 .oob).1 hU.symm)

/-- A relation that the operations respect and that is not a mapping: numbers of the same parity. -/
example : @Keeps Int Int ⟨0, (· + ·), fun c x y => c + x * y⟩ ⟨0, (· + ·), fun c x y => c + x * y⟩
    fun x y => x % 2 = y % 2 :=
  ⟨rfl, fun x x' y y' hx hy => by show (x + y) % 2 = (x' + y') % 2; omega,
    fun c c' x x' y y' hc hx hy => by
      show (c + x * y) % 2 = (c' + x' * y') % 2
      rw [Int.add_emod, Int.mul_emod, hc, hx, hy, ← Int.mul_emod, ← Int.add_emod]⟩

/-- The iteration of `semi` with any policy, also one with parallel updates of the same element. -/
example {α : Type} [Arith α] (A B A' B' : Array α) (h : A.size = A'.size) (h' : B.size = B'.size)
    (pol : IndexIterator.Policy) (m : Mem α) :
    RaceFree m (Semi.tree 4 A B 2 pol) ↔ RaceFree m (Semi.tree 4 A' B' 2 pol) :=
  C131_races.2.2.2.2.2.1 4 2 pol α α A B A' B' h h' m m rfl

end Examples

end Verif.Props
