import Verif.Proof.Schedule
import Verif.Proof.Recursive
/-
Helper lemmas about `static_improved::matrix_multiply`.
-/
set_option linter.unusedSectionVars false
namespace Verif.StaticImproved
open Verif.Kernel Verif.Recursive
variable {α : Type} [Arith α]

/-- The size at which repeated halving of `2^e * q` stops. -/
theorem halving_stops {q br : Nat} (hq : q ≤ br) (e : Nat) :
    ∃ d, d ≤ e ∧ 2 ^ d * q ≤ br ∧ ∀ t, t < e - d → br < 2 ^ (t + 1) * (2 ^ d * q) := by
  induction e with
  | zero => exact ⟨0, by omega, by simpa using hq, fun t ht => by omega⟩
  | succ e ih =>
    by_cases h : 2 ^ (e + 1) * q ≤ br
    · exact ⟨e + 1, by omega, h, fun t ht => by omega⟩
    · obtain ⟨d, h1, h2, h3⟩ := ih
      refine ⟨d, by omega, h2, fun t ht => ?_⟩
      by_cases ht' : t < e - d
      · exact h3 t ht'
      · have : t + 1 + d = e + 1 := by omega
        rw [← Nat.mul_assoc, ← Nat.pow_add, this]; omega

/-- One package: if every leaf returns its block of `G`, so does the recursion. -/
theorem distribute_package {mult : Nat → Nat → Nat → M (Array α)} {br q e N : Nat}
    {G : Nat → Nat → α} (hq : q ≤ br)
    (hm : ∀ d, d ≤ e → ∀ x y, x + 2 ^ d * q ≤ N → y + 2 ^ d * q ≤ N →
      mult x y (2 ^ d * q) = .ok (rect (2 ^ d * q) (2 ^ d * q) fun i j => G (x + i) (y + j)))
    {x y : Nat} (hx : x + 2 ^ e * q ≤ N) (hy : y + 2 ^ e * q ≤ N) :
    distribute_recursively mult br x y (2 ^ e * q) =
      (pure (rect (2 ^ e * q) (2 ^ e * q) fun i j => G (x + i) (y + j)) : ND _) := by
  obtain ⟨d, hd, h1, h2⟩ := halving_stops hq e
  have he : 2 ^ e * q = 2 ^ (e - d) * (2 ^ d * q) := by
    rw [← Nat.mul_assoc, ← Nat.pow_add]; congr 2; omega
  rw [he] at hx hy ⊢
  exact distribute_blocks h1 (hm d hd) (e - d) h2 x y hx hy

/-- Updates made by `insert_submatrix`. -/
def insertUpd (N : Nat) (f : Nat → Nat → α) (w : Work) : List (Upd α) :=
  (List.range w.N).flatMap fun i => (List.range w.N).flatMap fun j =>
    [((w.x + i) * N + (w.y + j), fun _ => f i j)]

theorem insert_does {N : Nat} {w : Work} {s : Array α} {f : Nat → Nat → α}
    (hs : Holds s w.N w.N f) (hx : w.x + w.N ≤ N) (hy : w.y + w.N ≤ N) :
    Act.Does false (insert_submatrix N s w) () (insertUpd N f w) := by
  unfold insert_submatrix insertUpd
  rw [← steps_one]
  refine Act.Does.forStep (by decide) fun i hi => Act.Does.forStep (by decide) fun j hj => ?_
  rw [steps_one, List.mem_range] at hi hj
  exact Act.Does.ofM_bind (hs.rd hi hj) (Act.Does.write (idx_lt (by omega) (by omega)) _)

theorem insertUpd_pos {N : Nat} {f : Nat → Nat → α} {w : Work} {u : Upd α}
    (hu : u ∈ insertUpd N f w) : ∃ r c, Covers w r c ∧ u.1 = r * N + c := by
  simp only [insertUpd, List.mem_flatMap, List.mem_range, List.mem_singleton] at hu
  obtain ⟨i, hi, j, hj, rfl⟩ := hu
  exact ⟨w.x + i, w.y + j, by unfold Covers; omega, rfl⟩

theorem insertUpd_cell {N : Nat} {G : Nat → Nat → α} {w : Work} (hy : w.y + w.N ≤ N)
    {r c : Nat} (h : Covers w r c) (v : α) :
    cellFold (insertUpd N (fun i j => G (w.x + i) (w.y + j)) w) (r * N + c) v = G r c := by
  obtain ⟨h1, h2, h3, h4⟩ := h
  unfold insertUpd
  rw [cellFold_flatMap_unique List.nodup_range (i0 := r - w.x) (List.mem_range.2 (by omega))]
  · rw [cellFold_flatMap_unique List.nodup_range (i0 := c - w.y) (List.mem_range.2 (by omega))]
    · simp [show w.x + (r - w.x) = r by omega, show w.y + (c - w.y) = c by omega]
    · intro j' hj' hne u hu
      simp only [List.mem_singleton, List.mem_range] at hu hj'
      subst hu
      intro he
      have := idx_inj (show w.y + j' < N by omega) (show c < N by omega) he
      omega
  · intro i' hi' hne u hu he
    simp only [List.mem_flatMap, List.mem_singleton, List.mem_range] at hu
    obtain ⟨j', hj', rfl⟩ := hu
    have := idx_inj (show w.y + j' < N by omega) (show c < N by omega) he
    omega

theorem computePackages_eq {mult : Nat → Nat → Nat → M (Array α)} {br : Nat} {ws : List Work}
    {g : Work → Array α}
    (h : ∀ w ∈ ws, distribute_recursively mult br w.x w.y w.N = (pure (g w) : ND _)) :
    computePackages mult br ws = (pure (ws.map fun w => (w, g w)) : ND _) := by
  induction ws with
  | nil => rfl
  | cons w ws ih =>
    rw [computePackages, h w (by simp), ND.pure_bind', ih fun v hv => h v (by simp [hv]),
      ND.pure_bind']
    rfl

/-- One repetition overwrites the whole result if the packages partition it. -/
theorem insert_all {N : Nat} {ws : List Work} {G : Nat → Nat → α} {C : Array α}
    (hC : C.size = N * N) (hin : ∀ w ∈ ws, w.x + w.N ≤ N ∧ w.y + w.N ≤ N)
    (hap : ws.Pairwise Apart) (hcov : ∀ r c, r < N → c < N → ∃ w ∈ ws, Covers w r c) :
    ND.runOn C (.par ((ws.map fun w => (w, rect w.N w.N fun i j => G (w.x + i) (w.y + j))).map
      fun ws => .act (insert_submatrix N ws.2 ws.1))) =
      (pure (rowMajor N G) : ND _) := by
  rw [List.map_map]
  have hpw : ws.Pairwise fun w w' =>
      ∀ u ∈ insertUpd N (fun i j => G (w.x + i) (w.y + j)) w,
      ∀ v ∈ insertUpd N (fun i j => G (w'.x + i) (w'.y + j)) w', u.1 ≠ v.1 := by
    refine List.Pairwise.imp_of_mem ?_ hap
    intro w w' hw hw' h u hu v hv he
    obtain ⟨r, c, h1, h2⟩ := insertUpd_pos hu
    obtain ⟨r', c', h1', h2'⟩ := insertUpd_pos hv
    rw [h2, h2'] at he
    have a := hin w hw
    have a' := hin w' hw'
    obtain ⟨rfl, rfl⟩ := idx_inj (show c < N by unfold Covers at h1; omega)
      (show c' < N by unfold Covers at h1'; omega) he
    exact h r c h1 h1'
  have hdo : Tree.Does false (.par (ws.map ((fun ws : Work × Array α =>
      Tree.act (insert_submatrix N ws.2 ws.1)) ∘
      fun w => (w, rect w.N w.N fun i j => G (w.x + i) (w.y + j))))) _ :=
    Tree.Does.par (fun w hw => .act (insert_does (holds_rect w.N w.N _) (hin w hw).1 (hin w hw).2))
      hpw
  rw [hdo.runOn]
  congr 1
  apply eq_rect (by simpa using hC)
  intro r hr c hc
  have hlt := idx_lt hr hc
  rw [applyA_get, Array.getElem?_eq_getElem (by omega), Option.map_some]
  obtain ⟨w, hw, hwc⟩ := hcov r c hr hc
  obtain ⟨n, hn⟩ := List.getElem?_of_mem hw
  rw [cellFold_flatMap_owner hpw hn]
  · rw [insertUpd_cell (hin w hw).2 hwc]
  · unfold Covers at hwc
    refine ⟨(r * N + c, fun _ => G (w.x + (r - w.x)) (w.y + (c - w.y))), ?_, rfl⟩
    simp only [insertUpd, List.mem_flatMap, List.mem_range, List.mem_singleton]
    exact ⟨r - w.x, by omega, c - w.y, by omega, by
      rw [show w.x + (r - w.x) = r by omega, show w.y + (c - w.y) = c by omega]⟩

/-- Repetitions of a program that always returns the same value. -/
theorem nd_repeat_const {R : Type} {body : Nat → R → ND R} {I : R → Prop} {r : R} (hr : I r)
    (h : ∀ i s, I s → body i s = (pure r : ND _)) {z : R} (hz : I z) (n : Nat) (hn : 0 < n) :
    forStep (m := ND) 0 n 1 z body = (pure r : ND _) := by
  rw [forStep_eq (by decide), steps_one]
  obtain ⟨k, rfl⟩ : ∃ k, n = k + 1 := ⟨n - 1, by omega⟩
  have key : ∀ (l : List Nat), (l.foldlM (fun s i => body i s) r : ND R) = (pure r : ND _) := by
    intro l
    induction l with
    | nil => rfl
    | cons a l ih => rw [List.foldlM_cons, h a r hr, ND.pure_bind', ih]
  rw [List.range_succ_eq_map, List.foldlM_cons, h _ _ hz, ND.pure_bind']
  exact key _

end Verif.StaticImproved
