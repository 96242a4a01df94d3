import Verif.Proof.Console
/-
The parts of the output in which nothing is found, and those in which a number is read (C108).
-/
set_option linter.unusedSectionVars false
namespace Verif.Console
open Driver IEEE Double
variable {α : Type} [Arith α]


theorem not_infix {key : String} {l : List Char} (h : ¬ Occurs key l) : ¬ key.toList <:+: l :=
  fun ⟨a, b, e⟩ => h ⟨a, b, e.symm⟩

/-- A case distinction over the keys. -/
theorem keyCases {P : String → Prop} (h1 : P "total time: ") (h2 : P "average time per run: ")
    (h3 : P "performance: ") (h4 : P "check passed") (h5 : P "check failed!") :
    ∀ key ∈ keys, P key := by
  intro key hk
  simp only [keys, List.mem_cons, List.not_mem_nil, or_false] at hk
  rcases hk with rfl | rfl | rfl | rfl | rfl <;> assumption

theorem key_ne : ∀ key ∈ keys, key.toList ≠ [] ∧ '\n' ∉ key.toList ∧ '"' ∉ key.toList := by
  refine keyCases ?_ ?_ ?_ ?_ ?_ <;> simp

theorem quiet_dec' (n : Nat) : ∀ key ∈ keys, quiet key.toList (dec n) = true := by
  refine keyCases ?_ ?_ ?_ ?_ ?_ <;> simp <;> exact quiet_dec (by decide) n

theorem quiet_caught {x : Outside} (hx : Plain x) :
    ∀ key ∈ keys, quiet key.toList (lines x.caught) = true := fun key hk =>
  quiet_lines (key_ne key hk).2.1 (key_ne key hk).1 fun l hl => not_infix (hx.caught l hl key hk)

theorem quiet_ids {x : Outside} (hx : Plain x) : ∀ key ∈ keys,
    quiet key.toList (lines (x.ids.map fun id => "computing on id: ".toList ++ id)) = true := by
  intro key hk
  have hq : quiet key.toList "computing on id: ".toList = true := by
    revert key
    refine keyCases ?_ ?_ ?_ ?_ ?_ <;> simp [quiet, compat]
  have := hx.ids
  revert this
  generalize x.ids = ids
  intro h
  induction ids with
  | nil => rfl
  | cons id ids ih =>
    rw [List.map_cons, lines, List.flatMap_cons, List.append_assoc, List.append_assoc]
    rw [← List.append_assoc id]
    refine quiet_append hq (quiet_append ?_ (ih fun id hid => h id (List.mem_cons_of_mem _ hid)))
    exact quiet_end (key_ne key hk).2.1 (key_ne key hk).1 (not_infix (h id List.mem_cons_self key hk))

theorem quiet_warning (n : Nat) (name : String) (h : name = "looped" ∨ name = "semi") :
    ∀ key ∈ keys, quiet key.toList (warning name n) = true := by
  unfold warning
  split
  · rcases h with rfl | rfl
    · refine keyCases ?_ ?_ ?_ ?_ ?_ <;> simp [quiet, compat]
    · refine keyCases ?_ ?_ ?_ ?_ ?_ <;> simp [quiet, compat]
  · exact fun _ _ => rfl

theorem quiet_times {o : Opts} {x : Outside} (hx : Plain x) :
    ∀ key ∈ keys, key ≠ "total time: " → quiet key.toList (timesText o x) = true := by
  intro key hk hn
  unfold timesText
  simp only [List.append_assoc]
  refine quiet_append ?_ (quiet_append (quiet_dec' _ key hk) (quiet_append ?_ ?_))
  · revert key
    refine keyCases ?_ ?_ ?_ ?_ ?_ <;> simp [quiet, compat]
  · revert key
    refine keyCases ?_ ?_ ?_ ?_ ?_ <;> simp [quiet, compat]
  · rw [show "s".toList ++ endl = 's' :: endl by simp]
    revert key
    refine keyCases ?_ ?_ ?_ ?_ ?_ <;> intros <;>
      exact quiet_numeral' (hx.fmt _) (by simp [clear]) (by simp [endl, quiet, compat])

theorem quiet_average {o : Opts} {x : Outside} (hx : Plain x) :
    ∀ key ∈ keys, key ≠ "average time per run: " → quiet key.toList (averageText o x) = true := by
  intro key hk hn
  unfold averageText
  simp only [List.append_assoc]
  refine quiet_append ?_ (quiet_append (quiet_dec' _ key hk) (quiet_append ?_ ?_))
  · revert key
    refine keyCases ?_ ?_ ?_ ?_ ?_ <;> simp [quiet, compat]
  · revert key
    refine keyCases ?_ ?_ ?_ ?_ ?_ <;> simp [quiet, compat]
  · rw [show "s (repetitions = ".toList = 's' :: " (repetitions = ".toList by simp, List.cons_append]
    have h := quiet_dec' o.repetitions key hk
    have h1 : quiet key.toList " (repetitions = ".toList = true := by
      revert key
      refine keyCases ?_ ?_ ?_ ?_ ?_ <;> simp [quiet, compat]
    have h2 : quiet key.toList (")".toList ++ endl) = true := by
      revert key
      refine keyCases ?_ ?_ ?_ ?_ ?_ <;> simp [quiet, compat, endl]
    refine quiet_numeral' (hx.fmt _) ?_ (quiet_append h1 (quiet_append h h2))
    revert key
    refine keyCases ?_ ?_ ?_ ?_ ?_ <;> simp [clear]

theorem quiet_performance {o : Opts} {x : Outside} (hx : Plain x) :
    ∀ key ∈ keys, key ≠ "performance: " → quiet key.toList (performanceText o x) = true := by
  intro key hk hn
  unfold performanceText
  simp only [List.append_assoc]
  refine quiet_append ?_ (quiet_append (quiet_dec' _ key hk) (quiet_append ?_ ?_))
  · revert key
    refine keyCases ?_ ?_ ?_ ?_ ?_ <;> simp [quiet, compat]
  · revert key
    refine keyCases ?_ ?_ ?_ ?_ ?_ <;> simp [quiet, compat]
  · rw [show "Gflops (average across repetitions)".toList ++ endl =
      'G' :: ("flops (average across repetitions)".toList ++ endl) by simp]
    revert key
    refine keyCases ?_ ?_ ?_ ?_ ?_ <;> intros <;>
      exact quiet_numeral' (hx.fmt _) (by simp [clear]) (by simp [endl, quiet, compat])

theorem quiet_inner {b : Tiled.Blocking} {N r : Nat} {d : Double} {x : Outside}
    (hx : Plain x) :
    ∀ key ∈ keys, key ≠ "performance: " → quiet key.toList (innerText x b N r d) = true := by
  intro key hk hn
  unfold innerText
  dsimp only
  generalize N + Tiled.padOf N b.L3_X = X
  generalize N + Tiled.padOf N b.L3_Y = Y
  generalize N + Tiled.padOf N b.L3_K_STEP = K
  simp only [List.append_assoc]
  have h1 : ∀ s ∈ ["duration inner: ", "[X_size = ", ", Y_size = ", ", K_size = ",
      "] inner performance: "], quiet key.toList s.toList = true := by
    intro s hs
    simp only [List.mem_cons, List.not_mem_nil, or_false] at hs
    revert key
    rcases hs with rfl | rfl | rfl | rfl | rfl <;>
      refine keyCases ?_ ?_ ?_ ?_ ?_ <;> simp [quiet, compat]
  have h2 : clear key.toList 's' = true := by
    revert key
    refine keyCases ?_ ?_ ?_ ?_ ?_ <;> simp [clear]
  have h3 : clear key.toList 'G' = true := by
    revert key
    refine keyCases ?_ ?_ ?_ ?_ ?_ <;> simp [clear]
  have h4 : quiet key.toList endl = true := by
    revert key
    refine keyCases ?_ ?_ ?_ ?_ ?_ <;> simp [quiet, compat, endl]
  have h5 : quiet key.toList "flops (average across repetitions)".toList = true := by
    revert key
    refine keyCases ?_ ?_ ?_ ?_ ?_ <;> simp [quiet, compat]
  rw [show ∀ r, "s".toList ++ r = 's' :: r by simp, show ∀ r,
    "Gflops (average across repetitions)".toList ++ r =
      'G' :: ("flops (average across repetitions)".toList ++ r) by simp]
  refine quiet_append (h1 _ (by simp)) (quiet_numeral' (hx.fmt _) h2 (quiet_append h4 ?_))
  refine quiet_append (h1 _ (by simp)) (quiet_append (quiet_dec' _ key hk) ?_)
  refine quiet_append (h1 _ (by simp)) (quiet_append (quiet_dec' _ key hk) ?_)
  refine quiet_append (h1 _ (by simp)) (quiet_append (quiet_dec' _ key hk) ?_)
  refine quiet_append (h1 _ (by simp)) (quiet_numeral' (hx.fmt _) h3 (quiet_append h5 h4))

theorem quiet_algorithm {e : Env α} {o : Opts} {x : Outside} (hx : Plain x) :
    ∀ key ∈ keys, o.algorithm ≠ "combined" ∨ key ≠ "performance: " →
      quiet key.toList (algorithmText e o x) = true := by
  intro key hk hn
  unfold algorithmText
  have h1 : quiet key.toList ("using parallel single node algorithm".toList ++ endl) = true := by
    clear hn
    revert key
    refine keyCases ?_ ?_ ?_ ?_ ?_ <;> simp [quiet, compat, endl]
  have h2 : quiet key.toList ("using pseudodynamic distributed algorithm".toList ++ endl) = true := by
    clear hn h1
    revert key
    refine keyCases ?_ ?_ ?_ ?_ ?_ <;> simp [quiet, compat, endl]
  have h3 : quiet key.toList ("info: root node is not used for computation".toList ++ endl) = true := by
    clear hn h1 h2
    revert key
    refine keyCases ?_ ?_ ?_ ?_ ?_ <;> simp [quiet, compat, endl]
  split
  · exact quiet_append h1 (quiet_caught hx key hk)
  split
  · refine quiet_append h2 (quiet_append ?_ (quiet_caught hx key hk))
    split
    · exact quiet_append h3 (quiet_ids hx key hk)
    · rfl
  split
  · exact quiet_warning _ _ (.inl rfl) key hk
  split
  · exact quiet_warning _ _ (.inl rfl) key hk
  split
  · exact quiet_warning _ _ (.inr rfl) key hk
  split
  · next hc => exact quiet_inner hx key hk (hn.resolve_left fun h => h hc)
  · rfl

theorem quiet_frame : ∀ key ∈ keys, quiet key.toList ("before HPX".toList ++ endl) = true ∧
    quiet key.toList ("in HPX main".toList ++ endl) = true ∧
    quiet key.toList ("after HPX".toList ++ endl) = true ∧
    quiet key.toList "non-HPX ".toList = true := by
  refine keyCases ?_ ?_ ?_ ?_ ?_ <;> simp [quiet, compat, endl]

theorem quiet_kernel {o : Opts} {x : Outside} (hx : Plain x) : ∀ key ∈ keys,
    o.algorithm ∉ ["kernel_test", "kernel_tiled"] ∨
      (key ≠ "total time: " ∧ key ≠ "average time per run: " ∧
        (key ≠ "performance: " ∨ o.algorithm = "kernel_test")) →
    quiet key.toList (kernelText o x) = true := by
  intro key hk hn
  unfold kernelText
  have hf := (quiet_frame key hk).2.2.2
  split
  · next h =>
    rcases hn with hn | hn
    · exact absurd (by simp [h]) hn
    · exact quiet_append (quiet_append hf (quiet_times hx key hk hn.1))
        (quiet_append hf (quiet_average hx key hk hn.2.1))
  split
  · next h1 h =>
    rcases hn with hn | hn
    · exact absurd (by simp [h]) hn
    · exact quiet_append (quiet_inner hx key hk (hn.2.2.resolve_right h1))
        (quiet_append (quiet_append hf (quiet_times hx key hk hn.1))
          (quiet_append hf (quiet_average hx key hk hn.2.1)))
  · rfl

theorem quiet_check {o : Opts} {x : Outside} (hx : Plain x) (ok : Bool) : ∀ key ∈ keys,
    key ≠ (if ok then "check passed" else "check failed!") →
    quiet key.toList (checkText o x ok) = true := by
  intro key hk hn
  unfold checkText
  have h4 : quiet key.toList endl = true := by
    revert key
    refine keyCases ?_ ?_ ?_ ?_ ?_ <;> simp [quiet, compat, endl]
  have h1 : quiet key.toList "info: repetitions > 1: checking only last iteration".toList = true := by
    clear hn h4
    revert key
    refine keyCases ?_ ?_ ?_ ?_ ?_ <;> simp [quiet, compat]
  have h2 : quiet key.toList "naive matMult took ".toList = true ∧ quiet key.toList "[s]".toList = true ∧
      quiet key.toList "[N = ".toList = true ∧ quiet key.toList "] performance reference: ".toList = true ∧
      quiet key.toList "Gflops (reference implementation)".toList = true ∧
      clear key.toList ' ' = true := by
    clear hn h4 h1
    revert key
    refine keyCases ?_ ?_ ?_ ?_ ?_ <;> simp [quiet, compat, clear]
  obtain ⟨h21, h22, h23, h24, h25, h26⟩ := h2
  rw [show " [s]".toList = ' ' :: "[s]".toList by simp,
    show " Gflops (reference implementation)".toList =
      ' ' :: "Gflops (reference implementation)".toList by simp]
  simp only [List.append_assoc, List.cons_append]
  refine quiet_append ?_ (quiet_append h21 (quiet_numeral' (hx.fmt _) h26 (quiet_append h22 ?_)))
  · split
    · exact quiet_append h1 h4
    · rfl
  refine quiet_append h4 (quiet_append h23 (quiet_append (quiet_dec' _ key hk) ?_))
  refine quiet_append h24 (quiet_numeral' (hx.fmt _) h26 (quiet_append h25 (quiet_append h4 ?_)))
  clear h1 h21 h22 h23 h24 h25 h26 h4
  revert key
  cases ok <;> refine keyCases ?_ ?_ ?_ ?_ ?_ <;> simp [quiet, compat, endl]

/-- Reading a number from `hd ++ key ++ number ++ stop ++ tl`. -/
theorem read_number {key stop : String} {hd n r : List Char}
    (hk : key ∈ ["total time: ", "average time per run: ", "performance: "])
    (hs : stop ∈ ["s", "Gflops"]) (hn : Numeral n) (hq : quiet key.toList hd = true) :
    Reads key stop (hd ++ (key.toList ++ (n ++ (stop.toList ++ r)))) n := by
  apply reads_of_search
  rw [search_quiet hq]
  have hg : group stop.toList (n ++ (stop.toList ++ r)) = some n := by
    simp only [List.mem_cons, List.not_mem_nil, or_false] at hs
    rcases hs with rfl | rfl
    · rw [show "s".toList = ['s'] by simp]
      refine group_numeral fun c hc => ⟨?_, ?_⟩ <;> rintro rfl <;>
        exact numeral_not_mem hn (by decide) (by decide) hc
    · rw [show "Gflops".toList = ['G', 'f', 'l', 'o', 'p', 's'] by simp]
      refine group_numeral fun c hc => ⟨?_, ?_⟩ <;> rintro rfl <;>
        exact numeral_not_mem hn (by decide) (by decide) hc
  cases hkey : key.toList with
  | nil =>
    simp only [List.mem_cons, List.not_mem_nil, or_false] at hk
    rcases hk with rfl | rfl | rfl <;> simp at hkey
  | cons k ks => exact search_hit hg

theorem quiet_begin : ∀ key ∈ keys, quiet key.toList "[N = ".toList = true ∧
    quiet key.toList "] ".toList = true := by
  refine keyCases ?_ ?_ ?_ ?_ ?_ <;> simp [quiet, compat]

theorem number_reads {key stop : String} {N : Nat} {a n r hd w s' : List Char}
    (hk : key ∈ ["total time: ", "average time per run: ", "performance: "])
    (hs : stop ∈ ["s", "Gflops"]) (hn : Numeral n) (hq : quiet key.toList hd = true)
    (hw : w = "] ".toList ++ key.toList) (hs' : s' = stop.toList ++ a) :
    Reads key stop (hd ++ ("[N = ".toList ++ dec N ++ w ++ n ++ s' ++ r)) n := by
  have hk' : key ∈ keys := by
    simp only [keys, List.mem_cons, List.not_mem_nil, or_false] at hk ⊢
    tauto
  have hb := quiet_begin _ hk'
  have := @read_number key stop (hd ++ ("[N = ".toList ++ (dec N ++ "] ".toList)))
    n (a ++ r) hk hs hn
    (quiet_append hq (quiet_append hb.1 (quiet_append (quiet_dec' _ _ hk') hb.2)))
  rw [hw, hs']
  revert this
  generalize "[N = ".toList = x1
  generalize "] ".toList = x2
  intro this
  simpa only [List.append_assoc] using this

theorem times_reads {o : Opts} {x : Outside} (hx : Plain x) {hd r : List Char}
    (hq : quiet "total time: ".toList hd = true) :
    Reads "total time: " "s" (hd ++ (timesText o x ++ r)) (x.fmt x.duration) := by
  unfold timesText
  rw [List.append_assoc _ endl r]
  exact number_reads (a := []) (by simp) (by simp) (hx.fmt _) hq (by simp) (by simp)

theorem average_reads {o : Opts} {x : Outside} (hx : Plain x) {hd r : List Char}
    (hq : quiet "average time per run: ".toList hd = true) :
    Reads "average time per run: " "s" (hd ++ (averageText o x ++ r))
      (x.fmt (div x.duration (ofNat o.repetitions))) := by
  unfold averageText
  rw [List.append_assoc _ endl r, List.append_assoc _ _ (endl ++ r),
    List.append_assoc _ _ (_ ++ (endl ++ r))]
  exact number_reads (a := " (repetitions = ".toList) (by simp) (by simp) (hx.fmt _) hq (by simp)
    (by simp)

theorem performance_reads {o : Opts} {x : Outside} (hx : Plain x) {hd r : List Char}
    (hq : quiet "performance: ".toList hd = true) :
    Reads "performance: " "Gflops" (hd ++ (performanceText o x ++ r))
      (x.fmt (Report.performance o.repetitions o.N o.N o.N x.duration)) := by
  unfold performanceText
  rw [List.append_assoc _ endl r]
  exact number_reads (a := " (average across repetitions)".toList) (by simp) (by simp) (hx.fmt _) hq
    (by simp) (by simp)
theorem inner_reads {b : Tiled.Blocking} {N r X Y K : Nat} {d : Double} {x : Outside}
    (hx : Plain x) {hd tl : List Char} (hX : X = N + Tiled.padOf N b.L3_X)
    (hY : Y = N + Tiled.padOf N b.L3_Y) (hK : K = N + Tiled.padOf N b.L3_K_STEP)
    (hq : quiet "performance: ".toList hd = true) :
    Reads "performance: " "Gflops" (hd ++ (innerText x b N r d ++ tl))
      (x.fmt (Report.performance r X Y K d)) := by
  have hk : "performance: " ∈ keys := by simp [keys]
  have h1 : ∀ s ∈ ["duration inner: ", "[X_size = ", ", Y_size = ", ", K_size = ",
      "] inner "], quiet "performance: ".toList s.toList = true := by
    intro s hs
    simp only [List.mem_cons, List.not_mem_nil, or_false] at hs
    rcases hs with rfl | rfl | rfl | rfl | rfl <;> simp [quiet, compat]
  have h2 : quiet "performance: ".toList (x.fmt d ++ "s".toList) = true := by
    rw [show "s".toList = ['s'] by simp]
    exact quiet_numeral (hx.fmt _) (by simp [clear])
  have h3 : quiet "performance: ".toList endl = true := by simp [quiet, compat, endl]
  have i1 := h1 "duration inner: " (by simp)
  have i2 := h1 "[X_size = " (by simp)
  have i3 := h1 ", Y_size = " (by simp)
  have i4 := h1 ", K_size = " (by simp)
  have i5 := h1 "] inner " (by simp)
  clear h1
  unfold innerText
  dsimp only
  rw [← hX, ← hY, ← hK, show "] inner performance: ".toList =
    "] inner ".toList ++ "performance: ".toList by simp,
    show "Gflops (average across repetitions)".toList =
      "Gflops".toList ++ " (average across repetitions)".toList by simp]
  revert h2 i1 i2 i3 i4 i5
  generalize "duration inner: ".toList = s1
  generalize "[X_size = ".toList = s2
  generalize ", Y_size = ".toList = s3
  generalize ", K_size = ".toList = s4
  generalize "] inner ".toList = s5
  generalize "s".toList = s6
  generalize " (average across repetitions)".toList = s7
  intro h2 i1 i2 i3 i4 i5
  have := @read_number "performance: " "Gflops" (hd ++ (s1 ++ ((x.fmt d ++ s6) ++ (endl ++ (s2 ++
      (dec X ++ (s3 ++ (dec Y ++ (s4 ++ (dec K ++ s5))))))))))
    (x.fmt (Report.performance r X Y K d)) (s7 ++ (endl ++ tl))
    (by simp) (by simp) (hx.fmt _) (by
      refine quiet_append hq (quiet_append i1 (quiet_append h2 (quiet_append h3 ?_)))
      refine quiet_append i2 (quiet_append (quiet_dec' _ _ hk) ?_)
      refine quiet_append i3 (quiet_append (quiet_dec' _ _ hk) ?_)
      exact quiet_append i4 (quiet_append (quiet_dec' _ _ hk) i5))
  revert this
  generalize "performance: " = key
  generalize "Gflops" = stop
  intro this
  simpa only [List.append_assoc] using this

end Verif.Console
