import Verif.Proof.ConsoleParts
import Verif.Props.DriverFloat
/-
C108: what the program writes, and what evaluate.py reads from it.
-/
set_option linter.unusedSectionVars false
namespace Verif.Props
open Driver IEEE Double Console
variable {α : Type} [Arith α]

/-- The algorithms that run in `hpx_main`. -/
private abbrev hpxNames : List String :=
  ["single", "pseudodynamic", "algorithms", "looped", "semi", "combined", "proposal"]

private theorem names_cases {a : String} (h : a ∈ names) :
    a ∈ hpxNames ∧ a ∉ ["kernel_test", "kernel_tiled"] ∨
      a ∉ hpxNames ∧ a ∈ ["kernel_test", "kernel_tiled"] := by
  simp only [names, List.mem_cons, List.not_mem_nil, or_false] at h
  rcases h with rfl | rfl | rfl | rfl | rfl | rfl | rfl | rfl | rfl <;> simp [hpxNames]

/-- The output of an algorithm that runs in `hpx_main`. -/
private theorem console_in (e : Env α) (o : Opts) (x : Outside) (r : Report α)
    (h : o.algorithm ∈ hpxNames) (h' : o.algorithm ∉ ["kernel_test", "kernel_tiled"]) :
    ∃ p q, console e o x r = (p ++ algorithmText e o x) ++ (timesText o x ++ (averageText o x ++
      (q ++ endText e o x r))) ∧ ∀ key ∈ keys, quiet key.toList p = true ∧ quiet key.toList q = true := by
  refine ⟨"before HPX".toList ++ endl ++ ("in HPX main".toList ++ endl), "after HPX".toList ++ endl, ?_,
    fun key hk => ?_⟩
  · unfold console hpxText
    rw [if_pos h, show kernelText o x = [] by
      simp only [List.mem_cons, List.not_mem_nil, or_false, not_or] at h'
      rw [kernelText, if_neg h'.1, if_neg h'.2]]
    generalize "before HPX".toList ++ endl = s1
    generalize "in HPX main".toList ++ endl = s2
    generalize "after HPX".toList ++ endl = s3
    simp only [List.append_assoc, List.nil_append]
  · have hf := quiet_frame key hk
    exact ⟨quiet_append hf.1 hf.2.1, hf.2.2.1⟩

/-- The output of an algorithm that runs after HPX. -/
private theorem console_out (e : Env α) (o : Opts) (x : Outside) (r : Report α)
    (h : o.algorithm ∉ hpxNames) (h' : o.algorithm ∈ ["kernel_test", "kernel_tiled"]) :
    ∃ p q, console e o x r = (p ++ ((if o.algorithm = "kernel_tiled" then
        innerText x KernelTiled.blocking o.N o.repetitions x.duration else []) ++ q)) ++
        (timesText o x ++ (q ++ (averageText o x ++ endText e o x r))) ∧
      ∀ key ∈ keys, quiet key.toList p = true ∧ quiet key.toList q = true := by
  refine ⟨"before HPX".toList ++ endl ++ ("in HPX main".toList ++ endl ++ ("after HPX".toList ++ endl)),
    "non-HPX ".toList, ?_, fun key hk => ?_⟩
  · unfold console hpxText
    rw [if_neg h]
    have : kernelText o x = (if o.algorithm = "kernel_tiled" then
        innerText x KernelTiled.blocking o.N o.repetitions x.duration else []) ++ ("non-HPX ".toList ++
          timesText o x ++ ("non-HPX ".toList ++ averageText o x)) := by
      unfold kernelText
      simp only [List.mem_cons, List.not_mem_nil, or_false] at h'
      rcases h' with h' | h'
      · rw [if_pos h', if_neg (by rw [h']; decide)]
        rfl
      · rw [if_neg (by rw [h']; decide), if_pos h', if_pos h']
    rw [this]
    generalize "before HPX".toList ++ endl = s1
    generalize "in HPX main".toList ++ endl = s2
    generalize "after HPX".toList ++ endl = s3
    generalize "non-HPX ".toList = s4
    simp only [List.append_assoc, List.nil_append]
  · have hf := quiet_frame key hk
    exact ⟨quiet_append hf.1 (quiet_append hf.2.1 hf.2.2.1), hf.2.2.2⟩

private theorem quiet_tiled {o : Opts} {x : Outside} (hx : Plain x) {key : String} (hk : key ∈ keys)
    (hn : o.algorithm ≠ "kernel_tiled" ∨ key ≠ "performance: ") :
    quiet key.toList (if o.algorithm = "kernel_tiled" then
      innerText x KernelTiled.blocking o.N o.repetitions x.duration else []) = true := by
  split
  · next h => exact quiet_inner hx key hk (hn.resolve_left fun h' => h' h)
  · rfl

/-- **C108.** With `--verbose=0` and the name of an algorithm, the two regular expressions for times
give the measured time and this time divided by the repetitions, whatever the algorithm, the sizes,
the times and the outcome of the check are. -/
theorem C108_times (e : Env α) (o : Opts) (x : Outside) (hx : Plain x) (r : Report α)
    (hn : o.algorithm ∈ names) :
    Reads "total time: " "s" (console e o x r) (x.fmt x.duration) ∧
      Reads "average time per run: " "s" (console e o x r)
        (x.fmt (div x.duration (ofNat o.repetitions))) := by
  have hT : "total time: " ∈ keys := by simp [keys]
  have hV : "average time per run: " ∈ keys := by simp [keys]
  rcases names_cases hn with ⟨h1, h2⟩ | ⟨h1, h2⟩
  · obtain ⟨p, q, hc, hq⟩ := console_in e o x r h1 h2
    rw [hc]
    refine ⟨times_reads hx (quiet_append (hq _ hT).1 (quiet_algorithm hx _ hT (.inr (by decide)))), ?_⟩
    rw [← List.append_assoc _ (timesText o x)]
    exact average_reads hx (quiet_append (quiet_append (hq _ hV).1
      (quiet_algorithm hx _ hV (.inr (by decide)))) (quiet_times hx _ hV (by decide)))
  · obtain ⟨p, q, hc, hq⟩ := console_out e o x r h1 h2
    rw [hc]
    refine ⟨times_reads hx (quiet_append (hq _ hT).1 (quiet_append
      (quiet_tiled hx hT (.inr (by decide))) (hq _ hT).2)), ?_⟩
    rw [← List.append_assoc _ (timesText o x), ← List.append_assoc _ q]
    exact average_reads hx (quiet_append (quiet_append (quiet_append (hq _ hV).1 (quiet_append
      (quiet_tiled hx hV (.inr (by decide))) (hq _ hV).2)) (quiet_times hx _ hV (by decide)))
      (hq _ hV).2)

/-- Everything before the end of the output. -/
private theorem console_end (e : Env α) (o : Opts) (x : Outside) (hx : Plain x) (r : Report α)
    (hn : o.algorithm ∈ names) : ∃ p, console e o x r = p ++ endText e o x r ∧
      ∀ key ∈ keys, key ∈ ["check passed", "check failed!"] ∨
        key = "performance: " ∧ o.algorithm ∉ ["combined", "kernel_tiled"] →
        quiet key.toList p = true := by
  have hk' : ∀ key : String, (key ∈ ["check passed", "check failed!"] ∨
      key = "performance: " ∧ o.algorithm ∉ ["combined", "kernel_tiled"]) →
      key ≠ "total time: " ∧ key ≠ "average time per run: " ∧
      (o.algorithm ≠ "combined" ∨ key ≠ "performance: ") ∧
      (o.algorithm ≠ "kernel_tiled" ∨ key ≠ "performance: ") := by
    intro key hk
    simp only [List.mem_cons, List.not_mem_nil, or_false, not_or] at hk
    rcases hk with (rfl | rfl) | ⟨rfl, ha⟩
    · exact ⟨by decide, by decide, .inr (by decide), .inr (by decide)⟩
    · exact ⟨by decide, by decide, .inr (by decide), .inr (by decide)⟩
    · exact ⟨by decide, by decide, .inl ha.1, .inl ha.2⟩
  rcases names_cases hn with ⟨h1, h2⟩ | ⟨h1, h2⟩
  · obtain ⟨p, q, hc, hq⟩ := console_in e o x r h1 h2
    refine ⟨(p ++ algorithmText e o x) ++ (timesText o x ++ (averageText o x ++ q)), ?_, ?_⟩
    · rw [hc]
      simp only [List.append_assoc]
    · intro key hk hk2
      obtain ⟨k1, k2, k3, _⟩ := hk' key hk2
      exact quiet_append (quiet_append (hq key hk).1 (quiet_algorithm hx key hk k3))
        (quiet_append (quiet_times hx key hk k1) (quiet_append (quiet_average hx key hk k2)
          (hq key hk).2))
  · obtain ⟨p, q, hc, hq⟩ := console_out e o x r h1 h2
    refine ⟨(p ++ ((if o.algorithm = "kernel_tiled" then
        innerText x KernelTiled.blocking o.N o.repetitions x.duration else []) ++ q)) ++
        (timesText o x ++ (q ++ averageText o x)), ?_, ?_⟩
    · rw [hc]
      simp only [List.append_assoc]
    · intro key hk hk2
      obtain ⟨k1, k2, _, k3⟩ := hk' key hk2
      exact quiet_append (quiet_append (hq key hk).1 (quiet_append (quiet_tiled hx hk k3) (hq key hk).2))
        (quiet_append (quiet_times hx key hk k1) (quiet_append (hq key hk).2
          (quiet_average hx key hk k2)))

/-- **C108.** On the root locality the regular expression for the performance gives the performance
computed by the driver, for every algorithm except `combined` and `kernel_tiled`; the line with the
performance of the reference is not confused with it. -/
theorem C108_performance (e : Env α) (hroot : e.root = true) (o : Opts) (hh : o.help = false)
    (x : Outside) (hx : Plain x) (r : Report α) (hr : main e o (.ok r)) (hn : o.algorithm ∈ names)
    (ha : o.algorithm ∉ ["combined", "kernel_tiled"]) :
    Reads "performance: " "Gflops" (console e o x r)
      (x.fmt (Report.performance o.repetitions o.N o.N o.N x.duration)) := by
  have hP : "performance: " ∈ keys := by simp [keys]
  have hinv := ((C62_exit_status e o r hh hr).1 hn).2
  obtain ⟨p, hc, hq⟩ := console_end e o x hx r hn
  rw [hc, endText, if_neg (by rw [hinv]; decide), if_pos hroot]
  exact performance_reads hx (hq _ hP (.inr ⟨rfl, ha⟩))

/-- **C108.** For `combined` and `kernel_tiled` the same regular expression gives another number:
the "inner" performance, computed with the padded sizes (the least multiples of 420, 256 and 256 that
are not below `N`), for `combined` also with another time. -/
theorem C108_inner (e : Env α) (o : Opts) (x : Outside) (hx : Plain x) (r : Report α) (X Y K : Nat)
    (hX : 420 ∣ X ∧ o.N ≤ X ∧ X < o.N + 420) (hY : 256 ∣ Y ∧ o.N ≤ Y ∧ Y < o.N + 256)
    (hK : 256 ∣ K ∧ o.N ≤ K ∧ K < o.N + 256) :
    (o.algorithm = "combined" → Reads "performance: " "Gflops" (console e o x r)
      (x.fmt (Report.performance o.repetitions X Y K x.inner))) ∧
    (o.algorithm = "kernel_tiled" → Reads "performance: " "Gflops" (console e o x r)
      (x.fmt (Report.performance o.repetitions X Y K x.duration))) := by
  have hP : "performance: " ∈ keys := by simp [keys]
  have hpad : ∀ L N X : Nat, 0 < L → L ∣ X → N ≤ X → X < N + L → X = N + Tiled.padOf N L := by
    intro L N X hL hd h1 h2
    have hm := Nat.div_add_mod N L
    have hlt := Nat.mod_lt N hL
    obtain ⟨c, rfl⟩ := hd
    unfold Tiled.padOf
    dsimp only
    generalize N / L = d at *
    generalize N % L = m at *
    by_cases h0 : m = 0
    · subst h0
      rw [Nat.sub_zero, if_pos rfl, ← hm]
      rw [← hm] at h1 h2
      have hcd : d ≤ c := Nat.le_of_mul_le_mul_left (by omega) hL
      have hdc : c < d + 1 := Nat.lt_of_mul_lt_mul_left (a := L) (by rw [Nat.mul_add]; omega)
      rw [show c = d by omega]
      rfl
    · rw [if_neg (by omega), ← hm]
      rw [← hm] at h1 h2
      have hcd : d < c := Nat.lt_of_mul_lt_mul_left (a := L) (by omega)
      have hdc : c < d + 2 := Nat.lt_of_mul_lt_mul_left (a := L) (by rw [Nat.mul_add]; omega)
      rw [show c = d + 1 by omega, Nat.mul_add]
      omega
  have hX' := hpad 420 o.N X (by decide) hX.1 hX.2.1 hX.2.2
  have hY' := hpad 256 o.N Y (by decide) hY.1 hY.2.1 hY.2.2
  have hK' := hpad 256 o.N K (by decide) hK.1 hK.2.1 hK.2.2
  constructor
  · intro ha
    obtain ⟨p, q, hc, hq⟩ := console_in e o x r (by rw [ha]; decide) (by rw [ha]; decide)
    rw [hc, show algorithmText e o x = innerText x Combined.blocking o.N o.repetitions x.inner by
      unfold algorithmText
      rw [if_neg (by rw [ha]; decide), if_neg (by rw [ha]; decide), if_neg (by rw [ha]; decide),
        if_neg (by rw [ha]; decide), if_neg (by rw [ha]; decide), if_pos ha], List.append_assoc]
    exact inner_reads hx hX' hY' hK' (hq _ hP).1
  · intro ha
    obtain ⟨p, q, hc, hq⟩ := console_out e o x r (by rw [ha]; decide) (by rw [ha]; decide)
    rw [hc, if_pos ha, List.append_assoc, List.append_assoc]
    exact inner_reads hx hX' hY' hK' (hq _ hP).1

/-- **C108.** With an unknown name (in which none of the texts occurs) neither times nor a
performance are written: `re.search` returns `None`, on which evaluate.py calls `group`. -/
theorem C108_unknown (e : Env α) (o : Opts) (hh : o.help = false) (x : Outside) (r : Report α)
    (hr : main e o (.ok r)) (hn : o.algorithm ∉ names)
    (hk : ∀ key ∈ keys, ¬ Occurs key o.algorithm.toList) :
    Unreadable "total time: " "s" (console e o x r) ∧
      Unreadable "average time per run: " "s" (console e o x r) ∧
      Unreadable "performance: " "Gflops" (console e o x r) := by
  have hinv := ((C62_exit_status e o r hh hr).2 hn).2
  have h1 : o.algorithm ∉ hpxNames := fun h => hn (by
    simp only [List.mem_cons, List.not_mem_nil, or_false] at h
    simp only [names, List.mem_cons, List.not_mem_nil, or_false]
    tauto)
  have h2 : kernelText o x = [] := by
    simp only [names, List.mem_cons, List.not_mem_nil, or_false, not_or] at hn
    rw [kernelText, if_neg hn.2.2.2.2.2.2.2.1, if_neg hn.2.2.2.2.2.2.2.2]
  have hq : ∀ key ∈ keys, quiet key.toList (console e o x r) = true := by
    intro key hkey
    have hf := quiet_frame key hkey
    have ht : quiet key.toList (" not a valid algorithm".toList ++ endl) = true ∧
        quiet key.toList "\"".toList = true := by
      have : ∀ key ∈ keys, quiet key.toList (" not a valid algorithm".toList ++ endl) = true ∧
          quiet key.toList "\"".toList = true := by
        refine keyCases ?_ ?_ ?_ ?_ ?_ <;> simp [quiet, compat, endl]
      exact this key hkey
    have ho : quiet key.toList (o.algorithm.toList ++ ['"']) = true :=
      quiet_end (key_ne key hkey).2.2 (key_ne key hkey).1 fun ⟨a, b, h⟩ =>
        hk key hkey ⟨a, b, h.symm⟩
    unfold console hpxText endText
    rw [if_neg h1, h2, if_pos hinv, show "\" not a valid algorithm".toList =
      ['"'] ++ " not a valid algorithm".toList by simp]
    revert hf ht
    generalize "before HPX".toList ++ endl = s1
    generalize "in HPX main".toList ++ endl = s2
    generalize "after HPX".toList ++ endl = s3
    generalize "non-HPX ".toList = s4
    generalize " not a valid algorithm".toList = s5
    generalize "\"".toList = s6
    rintro ⟨f1, f2, f3, _⟩ ⟨t1, t2⟩
    have := quiet_append f1 (quiet_append f2 (quiet_append f3 (quiet_append t2 (quiet_append ho t1))))
    simpa only [List.append_assoc, List.append_nil, List.nil_append] using this
  have hu : ∀ key ∈ keys, key.toList ≠ [] → ∀ stop, search key.toList stop (console e o x r) = none := by
    intro key hkey h0 stop
    have := search_quiet (stop := stop) (r := []) (hq key hkey)
    rw [List.append_nil] at this
    rw [this, search, if_neg h0]
  exact ⟨unreadable_of_search (hu _ (by simp [keys]) (by simp) _),
    unreadable_of_search (hu _ (by simp [keys]) (by simp) _),
    unreadable_of_search (hu _ (by simp [keys]) (by simp) _)⟩

private theorem not_occurs {key : String} {t : List Char} (h0 : key.toList ≠ [])
    (h : quiet key.toList t = true) : ¬ Occurs key t := by
  rintro ⟨a, b, hab⟩
  have hs := search_quiet (stop := []) (r := []) h
  rw [List.append_nil, search, if_neg h0] at hs
  exact search_none hs a [] ⟨⟨b, by simpa using hab⟩, by simp⟩

/-- **C108.** On the root locality, with `--check`: the output contains "check passed" exactly if the
result is accepted, and "error: check failed!" exactly if it is not. -/
theorem C108_verdict (e : Env α) (hroot : e.root = true) (o : Opts) (hh : o.help = false)
    (x : Outside) (hx : Plain x) (r : Report α) (hr : main e o (.ok r)) (hn : o.algorithm ∈ names)
    (hc : o.check = true) :
    (Occurs "check passed" (console e o x r) ↔ Accepts e o.N r.C) ∧
      (Occurs "error: check failed!" (console e o x r) ↔ ¬ Accepts e o.N r.C) := by
  obtain ⟨hp, hf⟩ := C51_check e o r hh hr hn hroot hc
  have hinv := ((C62_exit_status e o r hh hr).1 hn).2
  obtain ⟨p, hc, hq⟩ := console_end e o x hx r hn
  have k1 : "check passed" ∈ keys := by simp [keys]
  have k2 : "check failed!" ∈ keys := by simp [keys]
  have q1 := hq _ k1 (.inl (by simp))
  have q2 := hq _ k2 (.inl (by simp))
  by_cases hacc : Accepts e o.N r.C
  · have hck := hp.2 hacc
    have ht : console e o x r = p ++ (performanceText o x ++ checkText o x true) := by
      rw [hc, endText, if_neg (by rw [hinv]; decide), if_pos hroot, hck]
    have hno := not_occurs (by simp) (quiet_append q2 (quiet_append
      (quiet_performance (o := o) hx _ k2 (by decide)) (quiet_check (o := o) hx true _ k2 (by decide))))
    rw [← ht] at hno
    refine ⟨⟨fun _ => hacc, fun _ => ?_⟩, ⟨fun h => absurd ?_ hno, fun h => absurd hacc h⟩⟩
    · rw [ht]
      unfold checkText
      simp only [if_true, ← List.append_assoc]
      exact ⟨_, _, rfl⟩
    · obtain ⟨a, b, hab⟩ := h
      refine ⟨a ++ "error: ".toList, b, ?_⟩
      rw [hab, show "error: check failed!".toList = "error: ".toList ++ "check failed!".toList by simp]
      simp only [List.append_assoc]
  · have hck := hf.2 hacc
    have ht : console e o x r = p ++ (performanceText o x ++ checkText o x false) := by
      rw [hc, endText, if_neg (by rw [hinv]; decide), if_pos hroot, hck]
    have hno := not_occurs (by simp) (quiet_append q1 (quiet_append
      (quiet_performance (o := o) hx _ k1 (by decide)) (quiet_check (o := o) hx false _ k1 (by decide))))
    rw [← ht] at hno
    refine ⟨⟨fun h => absurd h hno, fun h => absurd h hacc⟩, fun _ => hacc, fun _ => ?_⟩
    rw [ht]
    unfold checkText
    simp only [Bool.false_eq_true, if_false, ← List.append_assoc]
    exact ⟨_, _, rfl⟩

/-- **C108.** Without `--check`, or on another locality, neither of the two is written. -/
theorem C108_no_verdict (e : Env α) (o : Opts) (hh : o.help = false)
    (x : Outside) (hx : Plain x) (r : Report α) (hr : main e o (.ok r)) (hn : o.algorithm ∈ names)
    (hc : ¬ (e.root = true ∧ o.check = true)) :
    ¬ Occurs "check passed" (console e o x r) ∧ ¬ Occurs "check failed!" (console e o x r) := by
  have hno := C51_no_check e o r hh hr hc
  have hinv := ((C62_exit_status e o r hh hr).1 hn).2
  obtain ⟨p, hc, hq⟩ := console_end e o x hx r hn
  have key : ∀ key ∈ ["check passed", "check failed!"], ¬ Occurs key (console e o x r) := by
    intro key hk
    have hk' : key ∈ keys ∧ key ≠ "performance: " ∧ key.toList ≠ [] := by
      simp only [List.mem_cons, List.not_mem_nil, or_false] at hk
      rcases hk with rfl | rfl <;> simp [keys]
    rw [hc, endText, if_neg (by rw [hinv]; decide), hno]
    refine not_occurs hk'.2.2 (quiet_append (hq key hk'.1 (.inl hk)) ?_)
    split
    · exact quiet_append (quiet_performance hx key hk'.1 hk'.2.1) rfl
    · rfl
  exact ⟨key _ (by simp), key _ (by simp)⟩

/-- **C108.** The ten runs of evaluate.py: on every number of localities and in every execution the
program computes the right result, and evaluate.py reads the performance that belongs to the size,
the number of repetitions and the measured time. -/
theorem C108_evaluate (e : Env α) (hx : ExactForIdentity e)
    (hcl : ∀ p, e.close (e.rand p) (e.rand p) = true) (hl : 1 ≤ e.localities) (hroot : e.root = true)
    (o : Opts) (ho : o ∈ evaluated) (x : Outside) (hp : Plain x) :
    ∃ r, main e o = ND.pure r ∧ r.C = rowMajor o.N (entryA e o.N) ∧
      Reads "total time: " "s" (console e o x r) (x.fmt x.duration) ∧
      Reads "average time per run: " "s" (console e o x r)
        (x.fmt (div x.duration (ofNat o.repetitions))) ∧
      Reads "performance: " "Gflops" (console e o x r)
        (x.fmt (Report.performance o.repetitions o.N o.N o.N x.duration)) := by
  have hd : Documented o ∧ o.algorithm = "pseudodynamic" := by
    have : ∃ k r b, 9 ≤ k ∧ 1 ≤ r ∧ (b = 128 ∨ b = 0) ∧ o = evaluate (2 ^ k) r true b := by
      simp only [evaluated, List.map_cons, List.map_nil, List.cons_append, List.nil_append,
        List.mem_cons, List.not_mem_nil, or_false] at ho
      rcases ho with h | h | h | h | h | h | h | h | h | h
      · exact ⟨9, 10, 128, by decide, by decide, .inl rfl, h⟩
      · exact ⟨10, 10, 128, by decide, by decide, .inl rfl, h⟩
      · exact ⟨11, 5, 128, by decide, by decide, .inl rfl, h⟩
      · exact ⟨12, 2, 128, by decide, by decide, .inl rfl, h⟩
      · exact ⟨13, 1, 128, by decide, by decide, .inl rfl, h⟩
      · exact ⟨9, 10, 0, by decide, by decide, .inr rfl, h⟩
      · exact ⟨10, 10, 0, by decide, by decide, .inr rfl, h⟩
      · exact ⟨11, 5, 0, by decide, by decide, .inr rfl, h⟩
      · exact ⟨12, 2, 0, by decide, by decide, .inr rfl, h⟩
      · exact ⟨13, 1, 0, by decide, by decide, .inr rfl, h⟩
    obtain ⟨k, r, b, hk, hr, hb, rfl⟩ := this
    refine ⟨⟨rfl, ⟨k, hk, rfl⟩, rfl, hr, rfl, rfl, ?_⟩, rfl⟩
    rcases hb with rfl | rfl
    · exact .inl rfl
    · exact .inr ⟨rfl, by simp [evaluate]⟩
  obtain ⟨hd, ha⟩ := hd
  have hm := C83_documented e hx hcl hl o hd (by rw [ha]; simp)
  have hn : o.algorithm ∈ names := by rw [ha]; simp [names]
  refine ⟨_, hm, rfl, ?_⟩
  obtain ⟨h1, h2⟩ := C108_times e o x hp (passed e o (rowMajor o.N (entryA e o.N))) hn
  refine ⟨h1, h2, C108_performance e hroot o hd.help x hp _ ?_ hn (by rw [ha]; decide)⟩
  rw [hm]
  rfl

/-- **C108.** A regular expression gives at most one number. -/
theorem C108_unique (key stop : String) (text g g' : List Char) (h : Reads key stop text g)
    (h' : Reads key stop text g') : g = g' := by
  obtain ⟨b, ⟨⟨a, ha⟩, hn⟩, hm⟩ := h
  obtain ⟨b', ⟨⟨a', ha'⟩, hn'⟩, hm'⟩ := h'
  have h1 := hm b' g' ⟨⟨a', ha'⟩, hn'⟩
  have h2 := hm' b g ⟨⟨a, ha⟩, hn⟩
  have hb : b.length = b'.length := by omega
  have hg : g.length = g'.length := by omega
  rw [ha] at ha'
  simp only [List.append_assoc] at ha'
  have e1 := List.append_inj ha' hb
  have e2 := List.append_inj e1.2 rfl
  exact (List.append_inj e2.2 hg).1

section Examples

/-- All numbers are written as 0.5; one exception was caught. -/
private def out : Outside where
  fmt := fun _ => "0.5".toList
  duration := ofNat 2
  inner := ofNat 1
  reference := ofNat 3
  ids := ["{0000000200000000, 0000000000000000}".toList]
  caught := ["in kernel: \"vector::_M_range_check\"".toList]

private theorem out_plain : Plain out := by
  have hq : ∀ key ∈ keys,
      quiet key.toList ("in kernel: \"vector::_M_range_check\"".toList) = true ∧
      quiet key.toList ("{0000000200000000, 0000000000000000}".toList) = true := by
    refine keyCases ?_ ?_ ?_ ?_ ?_ <;> simp [quiet, compat]
  refine ⟨fun _ c hc => ?_, fun l hl key hk => ?_, fun l hl key hk => ?_⟩
  · simp only [out] at hc
    simp at hc
    rcases hc with rfl | rfl | rfl <;> decide
  · simp only [out, List.mem_singleton] at hl
    rw [hl]
    exact not_occurs (key_ne key hk).1 (hq key hk).2
  · simp only [out, List.mem_singleton] at hl
    rw [hl]
    exact not_occurs (key_ne key hk).1 (hq key hk).1

private def envI (same : Bool) : Env Int where
  one := 1
  rand k := (k * 7 + 3) % 16
  close x y := same && x == y
  absDiff x y := (x - y).natAbs
  root := true
  localities := 3
  relOk _ _ := false
  junk _ := #[]

private theorem envI_exact (b : Bool) : @ExactForIdentity Int (exact Int) (envI b) :=
  @ExactForIdentity.mk Int (exact Int) (envI b)
    (fun p => by show (0 : Int) + (envI b).rand p * 1 = _; simp)
    (fun x y _ _ => by show x + y * (0 : Int) = x; simp)
    (fun x _ => by show (0 : Int) + x = x; simp) fun x _ => by show x + (0 : Int) = x; simp

-- the first run of evaluate.py, on three localities
example : let _ := exact Int
    ∃ r, main (envI true) (evaluate 512 10 true 128) = ND.pure r ∧
      Reads "performance: " "Gflops" (console (envI true) (evaluate 512 10 true 128) out r)
        "0.5".toList := by
  intro _
  obtain ⟨r, h, _, _, _, h'⟩ := @C108_evaluate Int (exact Int) (envI true) (envI_exact true)
    (fun p => by simp [envI]) (by decide) rfl (evaluate 512 10 true 128)
    (by simp [evaluated]) out out_plain
  exact ⟨r, h, h'⟩

-- a run that fails its check
example : let _ := exact Int
    ∃ r, main (envI false) { N := 4, check := true, block_result := 0 } = ND.pure r ∧
      Occurs "error: check failed!"
        (console (envI false) { N := 4, check := true, block_result := 0 } out r) := by
  intro _
  obtain ⟨b, h, _⟩ := @C83_block_result_zero Int (exact Int) (envI false) (envI_exact false)
    { N := 4, check := true, block_result := 0 } rfl rfl (by decide) rfl rfl rfl
  refine ⟨_, h, ?_⟩
  refine (@C108_verdict Int (exact Int) (envI false) rfl { N := 4, check := true, block_result := 0 }
    rfl out out_plain _ (by rw [h]; rfl) (by simp [names]) rfl).2.2 ?_
  rintro ⟨_, hc⟩
  obtain ⟨_, _, h2⟩ := hc 0 (by decide) 0 (by decide)
  simp [envI] at h2

-- an unknown name
example : let _ := exact Int
    ∃ r, main (envI true) { algorithm := "singel" } = ND.pure r ∧
      Unreadable "performance: " "Gflops" (console (envI true) { algorithm := "singel" } out r) := by
  intro _
  have h := @C50_unknown Int (exact Int) (envI true) { algorithm := "singel" } rfl (by simp [names])
  refine ⟨_, h, (@C108_unknown Int (exact Int) (envI true) { algorithm := "singel" } rfl out _
    (by rw [h]; rfl) (by simp [names]) fun key hk => ?_).2.2⟩
  refine not_occurs (key_ne key hk).1 ?_
  revert key
  refine keyCases ?_ ?_ ?_ ?_ ?_ <;> simp [quiet, compat]

-- padded sizes for N = 1000
example : Reads "performance: " "Gflops"
    (console (envI true) { N := 1000, algorithm := "kernel_tiled" } out ⟨0, false, none, #[]⟩)
    (out.fmt (Report.performance 1 1260 1024 1024 out.duration)) :=
  (@C108_inner Int (exact Int) (envI true) { N := 1000, algorithm := "kernel_tiled" } out out_plain _
    1260 1024 1024 ⟨⟨3, rfl⟩, by simp, by simp⟩ ⟨⟨4, rfl⟩, by simp, by simp⟩
    ⟨⟨4, rfl⟩, by simp, by simp⟩).2 rfl

end Examples

end Verif.Props
