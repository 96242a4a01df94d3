import Verif.Proof.CommandLine
import Verif.Props.Console
/-
C120: what a command line means.
-/
namespace Verif.Props
open Driver Console
open CommandLine (Doubles application parse)
variable {α : Type} [Arith α] {δ : Type}

/-! ### C120: the command line -/

/-- **C120.** A correct command line means exactly one choice of options. -/
theorem C120_meaning (x : Doubles δ) (args : List Text) (hm : ∀ a ∈ args, Modelled a)
    (hc : Correct x.read args) :
    ∃ o r, Meaning x.read x.five_percent args o r ∧
      ∀ o' r', Meaning x.read x.five_percent args o' r' → o' = o ∧ r' = r := by
  obtain ⟨g, hg⟩ := (CommandLine.accepted_iff hm).2 hc
  obtain ⟨o, r, _, h⟩ := CommandLine.extract_ok hg
  exact ⟨o, r, h, fun o' r' h' => CommandLine.meaning_fun hc h' h⟩

/-- **C120.** The program runs with the options that a correct command line means. -/
theorem C120_accepted (x : Doubles δ) (env : δ → Env α) (args : List Text) (hm : ∀ a ∈ args, Modelled a)
    (hc : Correct x.read args) (o : Opts) (r : δ) (h : Meaning x.read x.five_percent args o r) :
    application x env args = main (env r) o := by
  obtain ⟨g, hg⟩ := (CommandLine.accepted_iff hm).2 hc
  obtain ⟨o', r', he, h'⟩ := CommandLine.extract_ok hg
  obtain ⟨rfl, rfl⟩ := CommandLine.meaning_fun hc h h'
  exact CommandLine.application_eq hg he

/-- **C120.** After any other command line the program ends with status 0: it computes nothing, makes no
check and reports no invalid algorithm. -/
theorem C120_rejected (x : Doubles δ) (env : δ → Env α) (args : List Text) (hm : ∀ a ∈ args, Modelled a)
    (hc : ¬ Correct x.read args) : application x env args = ND.pure ⟨0, false, none, #[]⟩ := by
  have hn : parse x args = none := by
    rw [Option.eq_none_iff_forall_ne_some]
    intro g hg
    exact hc ((CommandLine.accepted_iff hm).1 ⟨g, hg⟩)
  unfold application
  rw [hn]
  exact C50_worker (env x.five_percent)

/-- **C120.** The order of the arguments does not matter. -/
theorem C120_order (x : Doubles δ) (env : δ → Env α) (args args' : List Text) (hp : args.Perm args')
    (hm : ∀ a ∈ args, Modelled a) : application x env args = application x env args' := by
  have hm' : ∀ a ∈ args', Modelled a := fun a ha => hm a (hp.mem_iff.2 ha)
  have hg : ∀ name t, Gives args name t ↔ Gives args' name t := fun name t => hp.mem_iff
  have key : ∀ {a b : List Text}, a.Perm b → (∀ name t, Gives a name t ↔ Gives b name t) →
      Correct x.read a → Correct x.read b := by
    intro a b h hg hc
    exact ⟨fun n hn => h.countP_eq _ ▸ hc.once n hn, h.count_eq _ ▸ hc.help,
      fun n hn t ht => hc.numbers n hn t ((hg n t).2 ht), fun n hn t ht => hc.truths n hn t ((hg n t).2 ht),
      fun ht => hc.text ((hg _ _).2 ht), fun t ht => hc.ratio t ((hg _ t).2 ht)⟩
  by_cases hc : Correct x.read args
  · have hc' := key hp hg hc
    obtain ⟨o, r, h, _⟩ := C120_meaning x args hm hc
    rw [C120_accepted x env args hm hc o r h]
    have hs : ∀ {β : Type} {P : Text → β → Prop} {name : String} {d v : β}, Sets P args name d v →
        Sets P args' name d v := by
      intro β P name d v hs
      rcases hs with ⟨t, ht, hv⟩ | ⟨hn, hv⟩
      · exact .inl ⟨t, (hg _ _).1 ht, hv⟩
      · exact .inr ⟨fun t ht => hn t ((hg _ _).2 ht), hv⟩
    refine (C120_accepted x env args' hm' hc' o r ⟨hs h.N, hs h.transposed, hs h.repetitions, hs h.verbose,
      hs h.block_result, hs h.block_input, hs h.check, hs h.algorithm, hs h.min_work_size,
      hs h.max_work_difference, hs h.relative, h.help.trans hp.mem_iff⟩).symm
  · have hc' : ¬ Correct x.read args' := fun h => hc (key hp.symm (fun n t => (hg n t).symm) h)
    rw [C120_rejected x env args hm hc, C120_rejected x env args' hm' hc']

/-- **C120.** Every choice of options can be requested: all values in the range of their types, and any name
of an algorithm that is not empty. -/
theorem C120_reachable (x : Doubles δ) (env : δ → Env α) (o : Opts)
    (h : ∀ n ∈ [o.N, o.repetitions, o.verbose, o.block_result, o.block_input, o.min_work_size,
      o.max_work_difference], n < 2 ^ 64) (ha : o.algorithm ≠ "") :
    Correct x.read (written o) ∧ Meaning x.read x.five_percent (written o) o x.five_percent ∧
      application x env (written o) = main (env x.five_percent) o := by
  have hp := CommandLine.parse_written (x := x) o h ha
  have he := CommandLine.extract_all (x := x) o
  refine ⟨(CommandLine.accepted_iff (CommandLine.modelled_written o)).1 ⟨_, hp⟩, ?_,
    CommandLine.application_eq hp he⟩
  obtain ⟨o', r, he', hm⟩ := CommandLine.extract_ok hp
  rw [he] at he'
  cases he'
  exact hm

/-- **C120.** The numbers that options can have are those below 2^64. -/
theorem C120_range (n : Nat) : (∃ t, Unsigned t n) ↔ n < 2 ^ 64 := by
  constructor
  · rintro ⟨t, h⟩
    cases h with
    | plain k m h => exact h
    | plus k m h => exact h
    | minus k m h => exact Nat.mod_lt _ (by decide)
  · intro h
    exact ⟨_, .plain 0 n h⟩

/-- **C120.** A negative number is not rejected: `--name=-m` sets the option to 2^64 - m. -/
theorem C120_negative (x : Doubles δ) (m : Nat) (h0 : 1 ≤ m) (hm : m < 2 ^ 64) (name : String)
    (hn : name ∈ numeric) :
    Correct x.read [front name ++ '-' :: dec m] ∧ Unsigned ('-' :: dec m) (2 ^ 64 - m) := by
  have hu : Unsigned ('-' :: dec m) (2 ^ 64 - m) := by
    have := Unsigned.minus 0 m hm
    rwa [Nat.mod_eq_of_lt (by omega)] at this
  have hname : name ∈ optionNames := by simp [optionNames, hn]
  refine ⟨?_, hu⟩
  refine (CommandLine.accepted_iff fun a ha => .inr (.inr ⟨name, hname, ?_⟩)).1 ?_
  · rw [List.mem_singleton.1 ha]; exact ⟨_, rfl⟩
  · obtain ⟨d, hd⟩ := CommandLine.declared_numeric (x := x) hn
    refine ⟨⟨[(name.toList, .u64 (2 ^ 64 - m))], false⟩, ?_⟩
    unfold parse
    rw [List.foldlM_cons, CommandLine.store_front hname hd (by simp) rfl (v := .u64 (2 ^ 64 - m))]
    · rfl
    · show (CommandLine.toU64 _).map _ = _
      rw [CommandLine.toU64_iff.2 hu]; rfl

/-! ### The documented commands -/

/-- **C120.** The commands of README.md request N = 8192, no check, and the default values otherwise; so those
for `single`, `pseudodynamic`, `kernel_test` and `kernel_tiled` give the right result. -/
theorem C120_readme (x : Doubles δ) (env : δ → Env α) (hx : ExactForIdentity (env x.five_percent))
    (hcl : ∀ p, (env x.five_percent).close ((env x.five_percent).rand p) ((env x.five_percent).rand p) = true)
    (hl : 1 ≤ (env x.five_percent).localities) (algorithm : String)
    (ha : algorithm ∈ ["single", "pseudodynamic", "kernel_test", "kernel_tiled"]) :
    application x env (readmeCommand algorithm) =
      ND.pure ⟨0, false, none, rowMajor 8192 (entryA (env x.five_percent) 8192)⟩ := by
  have hne : algorithm ≠ "" := by
    rintro rfl; simp at ha
  rw [CommandLine.application_eq (o := { N := 8192, algorithm := algorithm }) (r := x.five_percent)
    (CommandLine.parse_readme hne) ?_, C83_documented _ hx hcl hl]
  · simp [passed]
  · exact ⟨rfl, ⟨13, by decide, rfl⟩, rfl, Nat.le_refl 1, rfl, rfl, .inl rfl⟩
  · simp only [List.mem_cons, List.not_mem_nil, or_false] at ha ⊢
    rcases ha with h | h | h | h <;> simp [h]
  · refine Eq.trans (b := .ok (⟨8192, true, 1, 0, 128, 128, false, String.ofList algorithm.toList, 256, 10000,
      false⟩, x.five_percent)) rfl ?_
    rw [String.ofList_toList]

/-- **C120.** The command of README.md for `combined` ends with an exception. -/
theorem C120_readme_combined (x : Doubles δ) (env : δ → Env α) :
    ∃ msg, application x env (readmeCommand "combined") = ND.fail (.exception msg) := by
  rw [CommandLine.application_eq (o := { N := 8192, algorithm := "combined" }) (r := x.five_percent)
    (CommandLine.parse_readme (by decide)) ?_]
  · exact C83_combined _ _ ⟨rfl, ⟨13, by decide, rfl⟩, rfl, Nat.le_refl 1, rfl, rfl, .inl rfl⟩ rfl
  · refine Eq.trans (b := .ok (⟨8192, true, 1, 0, 128, 128, false, String.ofList "combined".toList, 256, 10000,
      false⟩, x.five_percent)) rfl ?_
    rw [String.ofList_toList]

/-- **C120.** The commands of evaluate.py, without the option that the program does not declare, request what
C108 is about. -/
theorem C120_evaluate (x : Doubles δ) (env : δ → Env α) (n repetition : Nat) (transposed : Bool)
    (blockInput cores threads : Nat) (hn : n < 2 ^ 64) (hr : repetition < 2 ^ 64) (hb : blockInput < 2 ^ 64) :
    application x env (evaluateCommand n repetition transposed blockInput cores threads) =
      main (env x.five_percent) (Console.evaluate n repetition transposed blockInput) :=
  CommandLine.application_eq (CommandLine.parse_evaluate hn hr hb) rfl

/-! ### Examples -/

section Examples

/-- Values of `double` are not read here. -/
private def noDoubles : Doubles Unit := ⟨fun _ => none, ()⟩

private def line : List Text := ["--check=TRUE".toList, "--hpx:threads=4".toList, "--n-value=+007".toList]

private theorem line_modelled : ∀ a ∈ line, Modelled a := by
  intro a ha
  simp only [line, List.mem_cons, List.not_mem_nil, or_false] at ha
  rcases ha with rfl | rfl | rfl
  · exact .inr (.inr ⟨"check", by decide, "TRUE".toList, rfl⟩)
  · exact .inl ⟨"threads=4".toList, rfl⟩
  · exact .inr (.inr ⟨"n-value", by decide, "+007".toList, rfl⟩)

private theorem line_correct : Correct noDoubles.read line :=
  (CommandLine.accepted_iff (x := noDoubles) line_modelled).1 ⟨_, rfl⟩

-- a number with sign and zeros
example (o : Opts) (r : Unit) (h : Meaning noDoubles.read () line o r) : o.N = 7 :=
  CommandLine.sets_fun (Means := Unsigned) (fun _ _ _ => CommandLine.unsigned_fun)
    (line_correct.once "n-value" (by decide)) h.N
    (.inl ⟨"+007".toList, by simp [Gives, line, front], .plus 2 7 (by decide)⟩)

-- the hypotheses are met, and the options are those that one expects
example (env : Unit → Env α) : application noDoubles env line = main (env ()) { N := 7, check := true } := by
  refine (C120_accepted noDoubles env line line_modelled line_correct { N := 7, check := true } () ?_)
  exact CommandLine.extract_ok (x := noDoubles) (args := line) (g := ⟨[("check".toList, .bool true),
    ("n-value".toList, .u64 7)], false⟩) rfl |>.elim fun o h => h.elim fun r h => by
      have : Except.ok (({ N := 7, check := true } : Opts), ()) = Except.ok (ε := Err) (o, r) :=
        Eq.trans (by rfl) h.1
      cases this
      exact h.2

-- the same in another order
example (env : Unit → Env α) :
    application noDoubles env line = application noDoubles env line.reverse :=
  C120_order noDoubles env line _ (List.reverse_perm _).symm line_modelled

-- a size given twice is rejected
example (env : Unit → Env α) :
    application noDoubles env ["--n-value=4".toList, "--n-value=4".toList] = ND.pure ⟨0, false, none, #[]⟩ := by
  refine C120_rejected noDoubles env _ (fun a ha => ?_) fun h => absurd (h.once "n-value" (by decide)) (by decide)
  simp only [List.mem_cons, List.not_mem_nil, or_false, or_self] at ha
  subst ha
  exact .inr (.inr ⟨"n-value", by decide, "4".toList, rfl⟩)

-- a size with a unit is rejected
example (env : Unit → Env α) :
    application noDoubles env ["--n-value=4k".toList] = ND.pure ⟨0, false, none, #[]⟩ := by
  refine C120_rejected noDoubles env _ (fun a ha => ?_) fun h => ?_
  · rw [List.mem_singleton.1 ha]
    exact .inr (.inr ⟨"n-value", by decide, "4k".toList, rfl⟩)
  · obtain ⟨n, hn⟩ := h.numbers "n-value" (by decide) "4k".toList (by simp [Gives, front])
    rw [← CommandLine.toU64_iff] at hn
    exact absurd hn (by
      have : CommandLine.toU64 "4k".toList = none := rfl
      rw [this]; exact fun h => nomatch h)

-- options with values of several digits
example (env : Unit → Env α) : application noDoubles env (written { N := 1000, algorithm := "looped", help := true }) =
    main (env ()) { N := 1000, algorithm := "looped", help := true } :=
  (C120_reachable noDoubles env { N := 1000, algorithm := "looped", help := true }
    (by intro n hn; simp at hn; omega) (by decide)).2.2

-- `--repetitions=-1`
example : Correct noDoubles.read ["--repetitions=-1".toList] ∧ Unsigned "-1".toList 18446744073709551615 :=
  C120_negative noDoubles 1 (by decide) (by decide) "repetitions" (by decide)

-- the first run of evaluate.py
example (env : Unit → Env α) : application noDoubles env (evaluateCommand 512 10 true 128 4 8) =
    main (env ()) (Console.evaluate 512 10 true 128) :=
  C120_evaluate noDoubles env 512 10 true 128 4 8 (by decide) (by decide) (by decide)

-- a command of README.md, with integers
private def envI : Env Int where
  one := 1
  rand k := (k * 7 + 3) % 16
  close x y := x == y
  absDiff x y := (x - y).natAbs
  root := true
  localities := 3
  relOk _ _ := false
  junk _ := #[]

example : let _ := exact Int
    application noDoubles (fun _ => envI) (readmeCommand "pseudodynamic") =
      ND.pure ⟨0, false, none, rowMajor 8192 (entryA envI 8192)⟩ :=
  @C120_readme Int (exact Int) Unit noDoubles (fun _ => envI)
    (@ExactForIdentity.mk Int (exact Int) envI
      (fun p => by show (0 : Int) + envI.rand p * 1 = _; simp)
      (fun x y _ _ => by show x + y * (0 : Int) = x; simp)
      (fun x _ => by show (0 : Int) + x = x; simp) fun x _ => by show x + (0 : Int) = x; simp)
    (fun p => by simp [envI]) (by decide) "pseudodynamic" (by decide)

end Examples

end Verif.Props
