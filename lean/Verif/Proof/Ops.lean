import Verif.SpecOps
import Verif.SpecTiled
import Verif.SpecExperiments
import Verif.Core.Mat
/-
Numbers of operations of the expressions in the specifications.
-/
namespace Verif
open Expr

theorem sum_between {l : List Expr} {lo hi : Nat} (h : ∀ x ∈ l, lo ≤ x.ops ∧ x.ops ≤ hi) :
    l.length * lo ≤ (l.map ops).sum ∧ (l.map ops).sum ≤ l.length * hi := by
  induction l with
  | nil => simp
  | cons a l ih =>
    have h1 := h a List.mem_cons_self
    have h2 := ih fun x hx => h x (List.mem_cons_of_mem _ hx)
    simp only [List.length_cons, List.map_cons, List.sum_cons, Nat.succ_mul]
    omega

theorem totalOps_between {N lo hi : Nat} {G : Nat → Nat → Expr}
    (h : ∀ i, i < N → ∀ j, j < N → lo ≤ (G i j).ops ∧ (G i j).ops ≤ hi) :
    N * N * lo ≤ totalOps (rowMajor N G) ∧ totalOps (rowMajor N G) ≤ N * N * hi := by
  have hl : (rowMajor N G).toList.length = N * N := by simp [rect]
  have := sum_between (l := (rowMajor N G).toList) (lo := lo) (hi := hi) fun x hx => by
    rw [Array.mem_toList_iff] at hx
    simp only [rect, Array.mem_ofFn] at hx
    obtain ⟨p, rfl⟩ := hx
    have hp := p.2
    have hN : 0 < N := Nat.pos_of_ne_zero fun h0 => by subst h0; simp at hp
    exact h _ ((Nat.div_lt_iff_lt_mul hN).2 hp) _ (Nat.mod_lt _ hN)
  rwa [hl] at this

theorem totalOps_const {N c : Nat} {G : Nat → Nat → Expr}
    (h : ∀ i, i < N → ∀ j, j < N → (G i j).ops = c) : totalOps (rowMajor N G) = N * N * c := by
  have := totalOps_between (lo := c) (hi := c) fun i hi j hj => ⟨Nat.le_of_eq (h i hi j hj).symm, Nat.le_of_eq (h i hi j hj)⟩
  omega

theorem holds_inputs (N : Nat) : Holds (inputs N) N N fun _ _ => .input := by
  intro i hi j hj
  have : i * N + j < N * N := idx_lt hi hj
  simp [inputs, this]

theorem foldl_ops {ι : Type} {step : Expr → ι → Expr} {c : Nat} (h : ∀ x i, (step x i).ops = x.ops + c)
    (l : List ι) (x : Expr) : (l.foldl step x).ops = x.ops + l.length * c := by
  induction l generalizing x with
  | nil => simp
  | cons a l ih => rw [List.foldl_cons, ih, h, List.length_cons, Nat.succ_mul]; omega

theorem ops_add (x y : Expr) : Expr.ops (Arith.add x y) = x.ops + y.ops + 1 := rfl

theorem ops_dot (n : Nat) {f g : Nat → Expr} (hf : ∀ k, (f k).ops = 0) (hg : ∀ k, (g k).ops = 0) :
    (dot n f g).ops = 2 * n := by
  unfold dot dotFrom
  rw [foldl_ops (c := 2) (fun x k => by
    show x.ops + (f k).ops + (g k).ops + 2 = _
    rw [hf, hg])]
  show 0 + _ = _
  rw [List.length_range]; omega

theorem ops_bdotFrom (x : Expr) (bs nb : Nat) {f g : Nat → Expr} (hf : ∀ k, (f k).ops = 0)
    (hg : ∀ k, (g k).ops = 0) : (bdotFrom x bs nb f g).ops = x.ops + nb * (2 * bs + 1) := by
  unfold bdotFrom
  rw [foldl_ops (c := 2 * bs + 1) (fun x t => by
    rw [ops_add, ops_dot bs (fun _ => hf _) (fun _ => hg _)]; omega), List.length_range]

theorem ops_bdot (bs nb : Nat) {f g : Nat → Expr} (hf : ∀ k, (f k).ops = 0) (hg : ∀ k, (g k).ops = 0) :
    (bdot bs nb f g).ops = nb * (2 * bs + 1) := by
  unfold bdot
  rw [ops_bdotFrom _ bs nb hf hg]
  exact Nat.zero_add _

theorem ops_repeatDot (r bs nb : Nat) {f g : Nat → Expr} (hf : ∀ k, (f k).ops = 0)
    (hg : ∀ k, (g k).ops = 0) : (Tiled.repeatDot r bs nb f g).ops = r * (nb * (2 * bs + 1)) := by
  unfold Tiled.repeatDot
  induction r with
  | zero => simp only [Function.iterate_zero, id, Nat.zero_mul]; rfl
  | succ r ih => rw [Function.iterate_succ_apply', ops_bdotFrom _ bs nb hf hg, ih, Nat.succ_mul r]

theorem ops_pad (N : Nat) (i k : Nat) : (Tiled.pad N (fun _ _ => Expr.input) i k).ops = 0 := by
  unfold Tiled.pad
  split <;> rfl

theorem ops_quarterBlocksDot (n kc : Nat) {f g : Nat → Expr} (hf : ∀ k, (f k).ops = 0)
    (hg : ∀ k, (g k).ops = 0) : (quarterBlocksDot n kc f g).ops = n / kc * (8 * (kc / 4) + 4) := by
  unfold quarterBlocksDot
  rw [foldl_ops (c := 8 * (kc / 4) + 4) (fun x t => by
    unfold addQuarters quarterDot
    simp only [ops_add, ops_dot _ (fun _ => hf _) (fun _ => hg _)]; omega), List.length_range]
  exact Nat.zero_add _

end Verif
