import Verif.Model.Semi
import Verif.Proof.Kernel
import Verif.Proof.Points
/-
Helper lemmas about semi.cpp, and about iterations that run into an error.
-/
set_option linter.unusedSectionVars false
namespace Verif
variable {ι α : Type}

/-- The tree runs into an error satisfying `E`; parts that come later do not matter. -/
inductive Tree.Fails (E : Err → Prop) : Tree α → Prop
  | act {p : Act α Unit} : p.All (fun _ => False) E → Fails E (.act p)
  | head {t ts} : Fails E t → Fails E (.seq (t :: ts))
  | tail {t ts} : t.Errs E → Fails E (.seq ts) → Fails E (.seq (t :: ts))

theorem Tree.Fails.not_done {E} {t : Tree α} (h : t.Fails E) : ¬ Done t := by
  induction h with
  | act h => intro hd; cases hd; exact h
  | head _ _ => intro hd; cases hd
  | tail _ _ _ => intro hd; cases hd

theorem Tree.Fails.step {E} {t t' : Tree α} {m m'} (hs : PStep m t m' t') (h : t.Fails E) :
    t'.Fails E := by
  induction hs with
  | rd => cases h with | act h => exact .act (h _)
  | wr => cases h with | act h => exact .act h
  | rdFlag => cases h with | act h => exact .act (h _)
  | wrFlag => cases h with | act h => exact .act h
  | seqStep hp ih =>
    cases h with
    | head h => exact .head (ih h)
    | tail h1 h2 => exact .tail (h1.step hp) h2
  | seqNext hd =>
    cases h with
    | head h => exact absurd hd h.not_done
    | tail _ h => exact h
  | parStep => cases h

theorem Tree.Fails.steps {E} {t t' : Tree α} {m m'} (hs : PSteps m t m' t') (h : t.Fails E) :
    t'.Fails E := by
  induction hs with
  | refl => exact h
  | step hs _ ih => exact ih (h.step hs)

theorem Tree.Fails.failed {E} {t : Tree α} {e} (hf : Failed e t) (h : t.Fails E) : E e := by
  induction hf with
  | act => cases h with | act h => exact h
  | seq hf ih =>
    cases h with
    | head h => exact ih h
    | tail h _ => exact h.failed hf
  | par => cases h

theorem Tree.Fails.runOn [Arith α] {E} {a : Array α} {t : Tree α} (h : t.Fails E)
    {o : Except Err (Array α)} (ho : ND.runOn a t o) : ∃ e, E e ∧ o = .error e := by
  rcases ho with ⟨e', ho, he⟩ | ⟨r, ho, hr⟩
  · rcases ho with ⟨m', t', _, _, he'⟩ | ⟨m', t', e'', hs, hf, he'⟩
    · cases he'
    · cases he'; exact ⟨_, (h.steps hs).failed hf, he⟩
  · rcases ho with ⟨m', t', hs, hd, _⟩ | ⟨m', t', e', _, _, he⟩
    · exact absurd hd (h.steps hs).not_done
    · cases he

/-- If some call never returns, the iteration does not complete. -/
theorem IndexIterator.stuck_of_leaf {t : IndexIterator.Calls ι} {f : ι → Act α Unit} {i : ι}
    (hi : i ∈ t.leaves) (h : (f i).NoRet) : (t.toTree f).Stuck := by
  match t with
  | .call j =>
    rw [IndexIterator.Calls.leaves, List.mem_singleton] at hi
    subst hi
    rw [IndexIterator.Calls.toTree]; exact .act h
  | .fail e => rw [IndexIterator.Calls.leaves] at hi; cases hi
  | .seq ts =>
    rw [IndexIterator.leaves_seq] at hi
    obtain ⟨t, ht, hi⟩ := List.mem_flatMap.1 hi
    rw [IndexIterator.toTree_seq]
    exact .seq (List.mem_map_of_mem ht) (stuck_of_leaf hi h)
  | .par ts =>
    rw [IndexIterator.leaves_par] at hi
    obtain ⟨t, ht, hi⟩ := List.mem_flatMap.1 hi
    rw [IndexIterator.toTree_par]
    exact .par (List.mem_map_of_mem ht) (stuck_of_leaf hi h)

/-- The errors of an iteration are the errors of its calls. -/
theorem IndexIterator.Calls.Good.errs {R : ι → ι → Prop} {t : IndexIterator.Calls ι} (h : t.Good R)
    {E : Err → Prop} {f : ι → Act α Unit} (hf : ∀ i ∈ t.leaves, (f i).All (fun _ => True) E) :
    (t.toTree f).Errs E := by
  induction h with
  | call =>
    rw [Calls.leaves] at hf
    rw [Calls.toTree]
    exact .act (hf _ (by simp))
  | @seq ts h1 ih =>
    rw [IndexIterator.leaves_seq] at hf
    rw [IndexIterator.toTree_seq]
    refine .seq fun u hu => ?_
    obtain ⟨t, ht, rfl⟩ := List.mem_map.1 hu
    exact ih t ht fun i hi => hf i (List.mem_flatMap.2 ⟨t, ht, hi⟩)
  | @par ts h1 hp ih =>
    rw [IndexIterator.leaves_par] at hf
    rw [IndexIterator.toTree_par]
    refine .par fun u hu => ?_
    obtain ⟨t, ht, rfl⟩ := List.mem_map.1 hu
    exact ih t ht fun i hi => hf i (List.mem_flatMap.2 ⟨t, ht, hi⟩)

end Verif

namespace Verif.Semi
open IndexIterator Kernel
variable {α : Type} [Arith α]

theorem someLt_nodup {l : List (List Nat)} (h : l.Pairwise SomeLt) : l.Nodup :=
  h.imp fun {p q} ⟨d, hd⟩ he => by subst he; omega

theorem onGrid_two {X Y sx sy : Nat} {p : List Nat} :
    OnGrid [0, 0] [X, Y] [sx, sy] p ↔ p.length = 2 ∧
      (∃ t, p.getD 0 0 = t * sx ∧ p.getD 0 0 < X) ∧
      (∃ t, p.getD 1 0 = t * sy ∧ p.getD 1 0 < Y) := by
  unfold OnGrid
  refine and_congr Iff.rfl ⟨fun h => ?_, fun h d hd => ?_⟩
  · have h0 := h 0 (by simp)
    have h1 := h 1 (by simp)
    simp only [List.getD_cons_zero, List.getD_cons_succ, Nat.zero_add] at h0 h1
    exact ⟨h0, h1⟩
  · obtain ⟨h0, h1⟩ := h
    match d, hd with
    | 0, _ => simpa using h0
    | 1, _ => simpa using h1

theorem copy_ok {N : Nat} {src : Array α} {a : Nat → Nat → α} (h : Holds src N N a) :
    copy N ⟨2, [([1, 1], [false, false])]⟩ src = ND.pure (rowMajor N a) := by
  unfold copy
  obtain ⟨hg, hp, hm⟩ := loop_nest_spec (R := fun _ _ => False) (dim := 2) (mn := [0, 0])
    (mx := [N, N]) (st := [1, 1]) (by decide) rfl rfl
  have hit : iterate_indices 2 ⟨2, [([1, 1], [false, false])]⟩ [0, 0] [N, N] =
      loop_nest 2 [0, 0] [N, N] [1, 1] := rfl
  have hd := hg.does (A := false) (f := fun p : List Nat => (do
    let v ← Act.ofM (rd src (p.getD 0 0 * N + p.getD 1 0))
    Act.write (N * N) (p.getD 0 0 * N + p.getD 1 0) v : Act α Unit))
    (us := fun p => [(p.getD 0 0 * N + p.getD 1 0, fun _ => a (p.getD 0 0) (p.getD 1 0))])
    (fun _ _ h => h.elim) (fun p hp => by
      obtain ⟨_, ⟨_, _, h0⟩, ⟨_, _, h1⟩⟩ := onGrid_two.1 ((hm p).1 hp)
      exact Act.Does.ofM_bind (h.rd h0 h1) (Act.Does.write (idx_lt h0 h1) _))
  rw [hit, hd.runOn]
  refine congrArg ND.pure (applyA_rect (by simp) (zeros_holds N N) fun i hi j hj => ?_)
  rw [cellFold_flatMap_unique (i0 := [i, j]) (someLt_nodup hp)
    ((hm _).2 (onGrid_two.2 ⟨rfl, ⟨i, by simp, hi⟩, ⟨j, by simp, hj⟩⟩))]
  · simp
  · intro p hp' hne u hu
    simp only [List.mem_singleton] at hu
    subst hu
    intro he
    obtain ⟨hl, ⟨_, _, h0⟩, ⟨_, _, h1⟩⟩ := onGrid_two.1 ((hm p).1 hp')
    obtain ⟨e0, e1⟩ := idx_inj h1 hj he
    match p, hl with
    | [x, y], _ => simp at e0 e1; exact hne (by rw [e0, e1])

theorem inner8_ok {N : Nat} {A B : Array α} {bi x y k : Nat} {a b : Nat → Nat → α}
    (hA : Holds A N N a) (hB : Holds B N N b) (hx : x + 3 < N) (hy : y + 1 < N) (hk : k + bi ≤ N) :
    inner8 N A B bi x y k =
      .ok (dots8 bi (fun r l => a r (k + l)) (fun c l => b c (k + l)) x y) := by
  have hmac : ∀ i j l, i ≤ 3 → j ≤ 1 → l < bi → ∀ r, macAt A B ((x + i) * N + k + l)
      ((y + j) * N + k + l) r = .ok (Arith.mac r (a (x + i) (k + l)) (b (y + j) (k + l))) := by
    intro i j l hi hj hl r
    rw [Nat.add_assoc, Nat.add_assoc]
    unfold macAt
    rw [hA.rd (i := x + i) (j := k + l) (by omega) (by omega),
      hB.rd (i := y + j) (j := k + l) (by omega) (by omega)]
    rfl
  unfold inner8
  rw [forStep_ok (g := fun s l => (⟨
      Arith.mac s.r00 (a x (k + l)) (b y (k + l)), Arith.mac s.r01 (a x (k + l)) (b (y + 1) (k + l)),
      Arith.mac s.r10 (a (x + 1) (k + l)) (b y (k + l)),
      Arith.mac s.r11 (a (x + 1) (k + l)) (b (y + 1) (k + l)),
      Arith.mac s.r20 (a (x + 2) (k + l)) (b y (k + l)),
      Arith.mac s.r21 (a (x + 2) (k + l)) (b (y + 1) (k + l)),
      Arith.mac s.r30 (a (x + 3) (k + l)) (b y (k + l)),
      Arith.mac s.r31 (a (x + 3) (k + l)) (b (y + 1) (k + l))⟩ : Acc8 α))
    (by decide)]
  · congr 1
    rw [steps_one]
    generalize hF : List.foldl _ _ _ = F
    have hF' : F = ⟨F.r00, F.r01, F.r10, F.r11, F.r20, F.r21, F.r30, F.r31⟩ := rfl
    rw [hF', dots8]
    congr
    · rw [← hF]; exact foldl_proj Acc8.r00 (fun _ _ => rfl) _ _
    · rw [← hF]; exact foldl_proj Acc8.r01 (fun _ _ => rfl) _ _
    · rw [← hF]; exact foldl_proj Acc8.r10 (fun _ _ => rfl) _ _
    · rw [← hF]; exact foldl_proj Acc8.r11 (fun _ _ => rfl) _ _
    · rw [← hF]; exact foldl_proj Acc8.r20 (fun _ _ => rfl) _ _
    · rw [← hF]; exact foldl_proj Acc8.r21 (fun _ _ => rfl) _ _
    · rw [← hF]; exact foldl_proj Acc8.r30 (fun _ _ => rfl) _ _
    · rw [← hF]; exact foldl_proj Acc8.r31 (fun _ _ => rfl) _ _
  · intro l hl s
    rw [steps_one, List.mem_range] at hl
    simp only [hmac 0 0 l (by omega) (by omega) hl, hmac 0 1 l (by omega) (by omega) hl,
      hmac 1 0 l (by omega) (by omega) hl, hmac 1 1 l (by omega) (by omega) hl,
      hmac 2 0 l (by omega) (by omega) hl, hmac 2 1 l (by omega) (by omega) hl,
      hmac 3 0 l (by omega) (by omega) hl, hmac 3 1 l (by omega) (by omega) hl,
      M_bind_ok, M_pure]
    rfl

/-- Updates made by the call for `p`. -/
def upd (N bi : Nat) (a b : Nat → Nat → α) (p : List Nat) : List (Upd α) :=
  upd8 N (fun r c => dot bi (fun l => a r (p.getD 2 0 + l)) (fun l => b c (p.getD 2 0 + l)))
    (p.getD 0 0) (p.getD 1 0)

theorem body_does {N : Nat} {A B : Array α} {bi : Nat} {p : List Nat} {a b : Nat → Nat → α}
    (hA : Holds A N N a) (hB : Holds B N N b) (hx : p.getD 0 0 + 3 < N) (hy : p.getD 1 0 + 1 < N)
    (hk : p.getD 2 0 + bi ≤ N) :
    Act.Does false (body N A B bi p) () (upd N bi a b p) :=
  Act.Does.ofM_bind (inner8_ok hA hB hx hy hk) (store8_does hx hy)

/-- The policy of the three-dimensional iteration. -/
theorem tree_eq (N : Nat) (A B : Array α) (bi : Nat) :
    tree N A B bi ⟨3, [([4, 2, bi], [false, false, false])]⟩ =
      (loop_nest 3 [0, 0, 0] [N, N, N] [4, 2, bi]).toTree (body N A B bi) := rfl

theorem steps_pos (bi : Nat) (hbi : 0 < bi) :
    ∀ d, d < [4, 2, bi].length → 0 < [4, 2, bi].getD d 0 := by
  intro d hd
  match d, hd with
  | 0, _ => simp
  | 1, _ => simp
  | 2, _ => exact hbi

theorem tree_result {N : Nat} {A B : Array α} {bi : Nat} {a b : Nat → Nat → α}
    (hA : Holds A N N a) (hB : Holds B N N b) (h4 : 4 ∣ N) (hbi : 0 < bi) (hd : bi ∣ N) :
    ND.runOn (zeros (N * N)) (tree N A B bi ⟨3, [([4, 2, bi], [false, false, false])]⟩) =
      ND.pure (rowMajor N fun i j => bdot bi (N / bi) (a i) (b j)) := by
  obtain ⟨hg, hp, hm⟩ := loop_nest_spec (R := fun _ _ => False) (dim := 3) (mn := [0, 0, 0])
    (mx := [N, N, N]) (st := [4, 2, bi]) (steps_pos bi hbi) rfl rfl
  have hin : ∀ p, p ∈ (loop_nest 3 [0, 0, 0] [N, N, N] [4, 2, bi]).leaves →
      p.getD 0 0 + 3 < N ∧ p.getD 1 0 + 1 < N ∧ p.getD 2 0 + bi ≤ N := by
    intro p hp
    obtain ⟨_, ⟨t, e0, h0⟩, ⟨u, e1, h1⟩, ⟨v, e2, h2⟩⟩ := onGrid_three.1 ((hm p).1 hp)
    obtain ⟨q, hq⟩ := h4
    obtain ⟨w, hw⟩ := hd
    refine ⟨by omega, by omega, ?_⟩
    rw [e2, hw] at h2
    rw [e2, hw, Nat.mul_comm bi w]
    rw [Nat.mul_comm bi w] at h2
    have := Nat.mul_le_mul_right bi (show v + 1 ≤ w from Nat.lt_of_mul_lt_mul_right h2)
    rw [Nat.add_mul] at this
    omega
  have hdoes := hg.does (A := false) (f := body N A B bi) (us := upd N bi a b)
    (fun _ _ h => h.elim) (fun p hp => body_does hA hB (hin p hp).1 (hin p hp).2.1 (hin p hp).2.2)
  rw [tree_eq, hdoes.runOn]
  refine congrArg ND.pure (applyA_rect (by simp) (zeros_holds N N) fun i hi j hj => ?_)
  obtain ⟨q, hq⟩ := h4
  rw [cellFold_filter (fun p => decide (p.getD 0 0 = i / 4 * 4 ∧ p.getD 1 0 = j / 2 * 2))]
  · rw [filter_k hp hm hbi ⟨i / 4, rfl, by omega⟩ ⟨j / 2, rfl, by omega⟩, List.flatMap_map,
      cellFold_flatMap]
    have e : steps 0 N bi = steps 0 (N / bi * bi) bi := by rw [Nat.div_mul_cancel hd]
    rw [e, steps_mul _ _ hbi, List.foldl_map]
    unfold bdot bdotFrom
    refine foldl_congr' (fun t _ s => ?_) _
    exact upd8_cell (by simp; omega) (by simp; omega) (by simp; omega) (by simp; omega)
      (by simp; omega) s
  · intro p hp' hq' u hu he
    have hq' := of_decide_eq_false hq'
    obtain ⟨r, c, h1, h2, h3, h4, h5⟩ := upd8_pos hu
    obtain ⟨_, ⟨t, e0, _⟩, ⟨v, e1, _⟩, _⟩ := onGrid_three.1 ((hm p).1 hp')
    have := hin p hp'
    rw [h5] at he
    obtain ⟨rfl, rfl⟩ := idx_inj (show c < N by omega) hj he
    exact hq' ⟨by omega, by omega⟩

/-! ### outside the domain -/

theorem inner8_errs {N : Nat} {A B : Array α} {bi x y k : Nat} {e : Err}
    (h : inner8 N A B bi x y k = .error e) : e = .oob := by
  unfold inner8 at h
  rw [forStep_eq (by decide)] at h
  refine (foldlM_err (P := fun _ => True) (E := fun e => e = .oob) (fun k _ s _ => ?_)
    trivial).2 e h
  refine ⟨fun _ _ => trivial, fun e he => ?_⟩
  rcases bind_error he with h | ⟨v, _, he⟩; · exact macAt_errs h
  rcases bind_error he with h | ⟨v, _, he⟩; · exact macAt_errs h
  rcases bind_error he with h | ⟨v, _, he⟩; · exact macAt_errs h
  rcases bind_error he with h | ⟨v, _, he⟩; · exact macAt_errs h
  rcases bind_error he with h | ⟨v, _, he⟩; · exact macAt_errs h
  rcases bind_error he with h | ⟨v, _, he⟩; · exact macAt_errs h
  rcases bind_error he with h | ⟨v, _, he⟩; · exact macAt_errs h
  rcases bind_error he with h | ⟨v, _, he⟩; · exact macAt_errs h
  cases he

theorem bind_ok {σ τ : Type} {x : M σ} {f : σ → M τ} {v : τ} (h : (x >>= f) = .ok v) :
    ∃ u, x = .ok u ∧ f u = .ok v := by
  cases x with
  | ok u => exact ⟨u, rfl, h⟩
  | error e => cases h

theorem body_errs (N : Nat) (A B : Array α) (bi : Nat) (p : List Nat) :
    (body N A B bi p).All (fun _ => True) (fun e => e = .oob) := by
  unfold body
  refine Act.All.bind (P' := fun _ => True)
    (Act.All.ofM (fun _ _ => trivial) fun e he => inner8_errs he) fun s _ => ?_
  repeat' (refine Act.All.bind (addTo_errs _ _ _) fun _ _ => ?_)
  exact addTo_errs _ _ _

theorem inner8_not_ok {N : Nat} {A B : Array α} {bi x y k l : Nat} (hl : l < bi)
    (h : A.size ≤ (x + 3) * N + k + l) (s : Acc8 α) : inner8 N A B bi x y k ≠ .ok s := by
  unfold inner8
  rw [forStep_eq (by decide)]
  refine foldlM_not_ok (i0 := l) (by rw [steps_one]; exact List.mem_range.2 hl)
    (fun s s' hk => ?_) _ _
  have hmac : ∀ q r, macAt A B ((x + 3) * N + k + l) q r = .error .oob := by
    intro q r; rw [macAt, rd_oob h]; rfl
  simp only [hmac, M_bind_error] at hk
  obtain ⟨_, _, hk⟩ := bind_ok hk
  obtain ⟨_, _, hk⟩ := bind_ok hk
  obtain ⟨_, _, hk⟩ := bind_ok hk
  obtain ⟨_, _, hk⟩ := bind_ok hk
  obtain ⟨_, _, hk⟩ := bind_ok hk
  obtain ⟨_, _, hk⟩ := bind_ok hk
  cases hk

theorem body_noRet {N : Nat} {A B : Array α} {bi : Nat} {p : List Nat} {l : Nat} (hl : l < bi)
    (h : A.size ≤ (p.getD 0 0 + 3) * N + p.getD 2 0 + l) : (body N A B bi p).NoRet :=
  Act.NoRet.bind_left (Act.All.ofM (fun r hr => inner8_not_ok hl h r hr) fun _ _ => trivial)

theorem addTo_all {n i : Nat} (h : i < n) (v : α) (E : Err → Prop) :
    (Act.addTo n i v).All (fun _ => True) E := by
  unfold Act.addTo Act.read Act.write
  simp only [if_pos h]; exact fun _ => trivial

theorem addTo_noRet {n i : Nat} (h : n ≤ i) (v : α) : (Act.addTo n i v).NoRet := by
  unfold Act.addTo Act.read
  simp only [if_neg (Nat.not_lt.2 h)]; exact trivial

theorem body_zero_all {N : Nat} {A B : Array α} (h : 4 ≤ N) (E : Err → Prop) :
    (body N A B 0 [0, 0, 0]).All (fun _ => True) E := by
  have hlt : ∀ i j, i < 4 → j < 2 → (0 + i) * N + (0 + j) < N * N := fun i j hi hj =>
    idx_lt (by omega) (by omega)
  unfold body
  refine Act.All.bind (P' := fun _ => True)
    (Act.All.ofM (fun _ _ => trivial) fun e he => by cases he) fun s _ => ?_
  refine Act.All.bind (addTo_all (hlt 0 0 (by decide) (by decide)) _ _) fun _ _ => ?_
  refine Act.All.bind (addTo_all (hlt 0 1 (by decide) (by decide)) _ _) fun _ _ => ?_
  refine Act.All.bind (addTo_all (hlt 1 0 (by decide) (by decide)) _ _) fun _ _ => ?_
  refine Act.All.bind (addTo_all (hlt 1 1 (by decide) (by decide)) _ _) fun _ _ => ?_
  refine Act.All.bind (addTo_all (hlt 2 0 (by decide) (by decide)) _ _) fun _ _ => ?_
  refine Act.All.bind (addTo_all (hlt 2 1 (by decide) (by decide)) _ _) fun _ _ => ?_
  refine Act.All.bind (addTo_all (hlt 3 0 (by decide) (by decide)) _ _) fun _ _ => ?_
  exact addTo_all (hlt 3 1 (by decide) (by decide)) _ _

theorem body_zero_oob {N : Nat} {A B : Array α} (h : N < 4) :
    (body N A B 0 [0, 0, 0]).All (fun _ => False) (fun e => e = .oob) := by
  have hn : (body N A B 0 [0, 0, 0]).NoRet := by
    unfold body
    refine Act.NoRet.bind_right fun s => ?_
    iterate 6 refine Act.NoRet.bind_right fun _ => ?_
    refine Act.NoRet.bind_left (addTo_noRet ?_ _)
    exact Nat.mul_le_mul_right N (show N ≤ 0 + 3 by omega)
  exact ((body_errs N A B 0 _).and hn).mono (fun _ h => h.2) fun _ h => h.1

end Verif.Semi
