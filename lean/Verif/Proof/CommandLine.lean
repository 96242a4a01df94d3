import Verif.SpecCommandLine
import Verif.Proof.Console
import Verif.Core.Upd
import Mathlib.Tactic.IntervalCases
/-
Proofs about Model/CommandLine.lean.
-/
set_option linter.unusedSectionVars false
namespace Verif.CommandLine
open Console (Text dec)
open Driver (Opts Env Globals Report)
variable {α : Type} [Arith α] {δ : Type} {x : Doubles δ}

/-! ### Numbers -/

theorem isDigit_iff {c : Char} : c.isDigit = true ↔ ∃ d, d < 10 ∧ c = Nat.digitChar d := by
  constructor
  · intro h
    refine ⟨c.toNat - 48, ?_, ?_⟩
    · simp only [Char.isDigit, ge_iff_le, Bool.and_eq_true, decide_eq_true_eq, UInt32.le_iff_toNat_le] at h
      have : c.toNat = c.val.toNat := rfl
      simp at h
      omega
    · simp only [Char.isDigit, ge_iff_le, Bool.and_eq_true, decide_eq_true_eq, UInt32.le_iff_toNat_le] at h
      have hc : c.toNat = c.val.toNat := rfl
      simp at h
      have : ∀ n, 48 ≤ n → n ≤ 57 → Char.ofNat n = Nat.digitChar (n - 48) := by
        intro n h1 h2
        obtain ⟨k, rfl⟩ : ∃ k, n = 48 + k := ⟨n - 48, by omega⟩
        have hk : k < 10 := by omega
        interval_cases k <;> rfl
      rw [← this c.toNat (by omega) (by omega), Char.ofNat_toNat]
  · rintro ⟨d, hd, rfl⟩
    interval_cases d <;> rfl

theorem digits_shape : ∀ (t : Text), t ≠ [] → (∀ c ∈ t, c.isDigit = true) →
    ∃ k, t = List.replicate k '0' ++ dec (Nat.ofDigitChars 10 t 0) := by
  intro t
  induction t using List.reverseRecOn with
  | nil => intro h; exact absurd rfl h
  | append_singleton t c ih =>
    intro _ hall
    obtain ⟨d, hd, rfl⟩ := isDigit_iff.1 (hall c (by simp))
    have hval : Nat.ofDigitChars 10 (t ++ [d.digitChar]) 0 = 10 * Nat.ofDigitChars 10 t 0 + d := by
      rw [Nat.ofDigitChars_append, Nat.ofDigitChars_cons_digitChar_of_lt_ten hd, Nat.ofDigitChars_nil]
    rw [hval]
    rcases List.eq_nil_or_concat t with rfl | ⟨_, _, ht⟩
    · refine ⟨0, ?_⟩
      simp only [List.nil_append, Nat.ofDigitChars_nil, List.replicate_zero, Nat.mul_zero, Nat.zero_add]
      exact (Nat.toDigits_of_lt_base hd).symm
    · have hne : t ≠ [] := by rw [ht]; simp
      obtain ⟨k, hk⟩ := ih hne fun c hc => hall c (by simp [hc])
      rcases Nat.eq_zero_or_pos (Nat.ofDigitChars 10 t 0) with h0 | h0
      · refine ⟨k + 1, ?_⟩
        rw [h0] at hk ⊢
        rw [hk, Nat.mul_zero, Nat.zero_add]
        have h1 : dec 0 = ['0'] := rfl
        have h2 : dec d = [d.digitChar] := Nat.toDigits_of_lt_base hd
        rw [h1, h2, List.replicate_succ']
      · refine ⟨k, ?_⟩
        conv_lhs => rw [hk]
        rw [List.append_assoc]
        congr 1
        unfold dec
        rw [Nat.toDigits_of_base_le (n := 10 * Nat.ofDigitChars 10 t 0 + d) (by omega) (by omega)]
        congr 2
        · omega
        · congr 1; omega

theorem digits_zeros {k m : Nat} (hm : m < 2 ^ 64) : digits (List.replicate k '0' ++ dec m) = some m := by
  have hv : Nat.ofDigitChars 10 (List.replicate k '0' ++ dec m) 0 = m := by
    rw [Nat.ofDigitChars_append, Nat.ofDigitChars_replicate_zero, Nat.mul_zero]
    exact Nat.ofDigitChars_ten_toDigits
  unfold digits
  rw [hv, if_pos]
  refine ⟨?_, ?_, hm⟩
  · intro h
    have := congrArg List.length h
    have hp : 0 < (dec m).length := Nat.length_toDigits_pos
    simp only [List.length_append, List.length_replicate, List.length_nil] at this
    omega
  · rw [List.all_eq_true]
    intro c hc
    rw [List.mem_append] at hc
    rcases hc with hc | hc
    · rw [(List.mem_replicate.1 hc).2]; rfl
    · exact Nat.isDigit_of_mem_toDigits (by decide) (by decide) hc

theorem digits_iff {t : Text} {n : Nat} :
    digits t = some n ↔ n < 2 ^ 64 ∧ ∃ k, t = List.replicate k '0' ++ dec n := by
  constructor
  · intro h
    unfold digits at h
    split at h
    case isTrue hc =>
      cases h
      exact ⟨hc.2.2, digits_shape t hc.1 (by simpa using hc.2.1)⟩
    case isFalse => cases h
  · rintro ⟨hn, k, rfl⟩
    exact digits_zeros hn

theorem digits_head {t : Text} {n : Nat} (h : digits t = some n) : ∀ c s, t = c :: s → c.isDigit = true := by
  rintro c s rfl
  unfold digits at h
  split at h
  case isTrue hc => simpa using (List.all_eq_true.1 hc.2.1 c (by simp))
  case isFalse => cases h

theorem toU64_iff {t : Text} {n : Nat} : toU64 t = some n ↔ Unsigned t n := by
  constructor
  · intro h
    unfold toU64 at h
    split at h
    · rw [Option.map_eq_some_iff] at h
      obtain ⟨m, hm, rfl⟩ := h
      obtain ⟨hlt, k, rfl⟩ := digits_iff.1 hm
      exact .minus k m hlt
    · obtain ⟨hlt, k, rfl⟩ := digits_iff.1 h
      exact .plus k n hlt
    · obtain ⟨hlt, k, rfl⟩ := digits_iff.1 h
      exact .plain k n hlt
  · intro h
    cases h with
    | plain k m hm =>
      have := digits_zeros (k := k) hm
      unfold toU64
      split
      · have := digits_head this _ _ (by assumption); simp at this
      · have := digits_head this _ _ (by assumption); simp at this
      · exact this
    | plus k m hm => exact digits_zeros hm
    | minus k m hm =>
      show (digits (List.replicate k '0' ++ dec m)).map _ = _
      rw [digits_zeros hm]; rfl

theorem toBool_iff {t : Text} {b : Bool} : toBool t = some b ↔ Says t b := by
  unfold toBool Says
  generalize t.map Char.toLower = s
  dsimp only
  constructor
  · intro h
    split at h
    · cases h; simpa using ‹_›
    · split at h
      · cases h; simpa using ‹_›
      · cases h
  · intro h
    cases b with
    | true =>
      rw [if_pos]
      simpa using h
    | false =>
      have h' : s = "off".toList ∨ s = "no".toList ∨ s = "0".toList ∨ s = "false".toList := by simpa using h
      rw [if_neg, if_pos h']
      rcases h' with rfl | rfl | rfl | rfl <;> decide

theorem unsigned_fun {t : Text} {m n : Nat} (h : Unsigned t m) (h' : Unsigned t n) : m = n := by
  rw [← toU64_iff] at h h'
  rw [h] at h'
  cases h'; rfl

theorem says_fun {t : Text} {b c : Bool} (h : Says t b) (h' : Says t c) : b = c := by
  rw [← toBool_iff] at h h'
  rw [h] at h'
  cases h'; rfl

theorem unsigned_ne_nil {n : Nat} : ¬ Unsigned [] n := by
  rw [← toU64_iff]
  simp [toU64, digits]

theorem says_ne_nil {b : Bool} : ¬ Says [] b := by
  cases b <;> simp [Says]

/-! ### Arguments -/

theorem classify_value {a name t : Text} (h : classify a = .value name t) :
    a = "--".toList ++ name ++ "=".toList ++ t := by
  unfold classify at h
  split at h
  · cases h
  · split at h
    · cases h
    · split at h
      case isTrue hc =>
        cases h
        obtain ⟨s, rfl⟩ := List.isPrefixOf_iff_prefix.1 hc.1
        have hd : ("--".toList ++ s).drop 2 = s := rfl
        rw [hd]
        have hmem : '=' ∈ s := by simpa using hc.2
        have hne : s.dropWhile (· ≠ '=') ≠ [] := by
          intro h0
          have h1 := List.takeWhile_append_dropWhile (p := fun c => decide (c ≠ '=')) (l := s)
          rw [h0, List.append_nil] at h1
          rw [← h1] at hmem
          have := List.all_eq_true.1 (List.all_takeWhile (p := fun c => decide (c ≠ '=')) (l := s)) _ hmem
          simp at this
        obtain ⟨c, u, hcu⟩ := List.exists_cons_of_ne_nil hne
        have hc' : c = '=' := by
          have := List.head_dropWhile_not (p := fun c => decide (c ≠ '=')) (l := s) hne
          simp only [hcu, List.head_cons] at this
          simpa using this
        subst hc'
        conv_lhs => rw [← List.takeWhile_append_dropWhile (p := fun c => decide (c ≠ '=')) (l := s)]
        rw [hcu]
        simp
      case isFalse => cases h

theorem names_eq {name : String} (h : name ∈ optionNames) :
    '=' ∉ name.toList ∧ ∀ s, ¬ "hpx:".toList <+: name.toList ++ s := by
  simp only [optionNames, numeric, List.cons_append, List.nil_append, List.mem_cons, List.not_mem_nil, or_false] at h
  rcases h with rfl | rfl | rfl | rfl | rfl | rfl | rfl | rfl | rfl | rfl | rfl <;>
    exact ⟨by decide, fun s hp => by simp [List.cons_prefix_cons] at hp⟩

theorem classify_front {name : String} (h : name ∈ optionNames) (t : Text) :
    classify (front name ++ t) = .value name.toList t := by
  obtain ⟨h1, h2⟩ := names_eq h
  have ha : front name ++ t = '-' :: '-' :: (name.toList ++ '=' :: t) := by simp [front]
  rw [ha]
  unfold classify
  rw [if_neg, if_neg, if_pos]
  · have hd : List.drop 2 ('-' :: '-' :: (name.toList ++ '=' :: t)) = name.toList ++ '=' :: t := rfl
    rw [hd, List.takeWhile_append_of_pos, List.dropWhile_append_of_pos]
    · simp
    · intro c hc; simpa using fun h : c = '=' => h1 (h ▸ hc)
    · intro c hc; simpa using fun h : c = '=' => h1 (h ▸ hc)
  · exact ⟨List.isPrefixOf_iff_prefix.2 ⟨_, rfl⟩, by simp⟩
  · intro h0
    have : '=' ∈ "--help".toList := by rw [← h0]; simp
    exact absurd this (by decide)
  · rw [List.isPrefixOf_iff_prefix]
    intro hp
    have : "hpx:".toList <+: name.toList ++ '=' :: t := by simpa [List.cons_prefix_cons] using hp
    exact h2 _ this

theorem classify_help : classify "--help".toList = .help := by
  unfold classify
  rw [if_neg (by decide), if_pos rfl]

theorem classify_hpx {a : Text} (h : "--hpx:".toList <+: a) : classify a = .hpx := by
  unfold classify
  rw [if_pos (List.isPrefixOf_iff_prefix.2 h)]

theorem classify_help_iff {a : Text} : classify a = .help ↔ a = "--help".toList := by
  constructor
  · intro h
    unfold classify at h
    split at h
    · cases h
    · split at h
      · assumption
      · split at h <;> cases h
  · rintro rfl; exact classify_help

/-! ### Reading the arguments -/

/-- What an argument contributes; `none`: an error. -/
def entry (x : Doubles δ) (a : Text) : Option (List (Text × Value δ)) :=
  match classify a with
  | .hpx => some []
  | .help => some []
  | .value name t =>
    match (declared x).lookup name with
    | none => none
    | some d => if t = [] then none else (convert x t d).map fun v => [(name, v)]
  | .other => none

/-- The name of the option that is given. -/
def nameOf (a : Text) : Option Text :=
  match classify a with
  | .value name _ => some name
  | _ => none

theorem entry_names {a : Text} {l : List (Text × Value δ)} (h : entry x a = some l) :
    l.map Prod.fst = (nameOf a).toList := by
  unfold entry at h
  unfold nameOf
  split at h
  · rename_i hc; rw [hc]; cases h; rfl
  · rename_i hc; rw [hc]; cases h; rfl
  · rename_i hc; rw [hc]
    split at h
    · cases h
    · split at h
      · cases h
      · rw [Option.map_eq_some_iff] at h
        obtain ⟨v, _, rfl⟩ := h
        rfl
  · cases h

theorem lookup_isSome {β : Type} {l : List (Text × β)} {name : Text} :
    (l.lookup name).isSome = true ↔ name ∈ l.map Prod.fst := by
  induction l with
  | nil => simp
  | cons p l ih =>
    obtain ⟨n, v⟩ := p
    rw [List.lookup_cons]
    by_cases h : name = n
    · subst h; simp
    · have : (name == n) = false := by simpa using h
      rw [this]
      simp only [ih, List.map_cons, List.mem_cons, h, false_or]

theorem lookup_mem {β : Type} {l : List (Text × β)} {name : Text} {v : β} (hnd : (l.map Prod.fst).Nodup) :
    l.lookup name = some v ↔ (name, v) ∈ l := by
  induction l with
  | nil => simp
  | cons p l ih =>
    obtain ⟨n, w⟩ := p
    rw [List.map_cons, List.nodup_cons] at hnd
    rw [List.lookup_cons]
    by_cases h : name = n
    · subst h
      simp only [beq_self_eq_true, Option.some.injEq, List.mem_cons, Prod.mk.injEq, true_and]
      constructor
      · intro h; exact .inl h.symm
      · rintro (h | h)
        · exact h.symm
        · exact absurd (List.mem_map.2 ⟨_, h, rfl⟩) hnd.1
    · have : (name == n) = false := by simpa using h
      rw [this]
      simp only [ih hnd.2, List.mem_cons, Prod.mk.injEq, h, false_and, false_or]

theorem store_eq (g : Given δ) (a : Text) (g' : Given δ) : store x g a = some g' ↔
    ∃ l, entry x a = some l ∧ (∀ n ∈ l.map Prod.fst, n ∉ g.values.map Prod.fst) ∧
      ¬ (classify a = .help ∧ g.help = true) ∧
      g' = ⟨g.values ++ l, g.help || decide (a = "--help".toList)⟩ := by
  have hhelp : ∀ {a}, classify a = .help ↔ a = "--help".toList := classify_help_iff
  unfold store entry
  cases hc : classify a with
  | hpx =>
    have hne : a ≠ "--help".toList := fun h => by rw [hhelp.2 h] at hc; cases hc
    simp only [hne, decide_false, Bool.or_false, Option.some.injEq]
    constructor
    · rintro rfl
      exact ⟨[], rfl, by simp, by simp, by simp⟩
    · rintro ⟨l, rfl, _, _, rfl⟩
      simp
  | help =>
    have he : a = "--help".toList := hhelp.1 hc
    cases hg : g.help
    · simp only [he, decide_true, Bool.or_true, Option.some.injEq]
      constructor
      · intro h
        exact ⟨[], rfl, by simp, by simp, by simpa [eq_comm] using h⟩
      · rintro ⟨l, rfl, _, _, rfl⟩
        simp
    · simp
  | other => simp
  | value name t =>
    have hne : a ≠ "--help".toList := fun h => by rw [hhelp.2 h] at hc; cases hc
    cases hd : (declared x).lookup name with
    | none => simp [hd]
    | some d =>
      simp only [hd]
      by_cases ht : t = []
      · simp [ht]
      · simp only [ht, if_false]
        cases hv : convert x t d with
        | none => simp
        | some v =>
          by_cases hs : (g.values.lookup name).isSome = true
          · have hm := lookup_isSome.1 hs
            simp only [hs, if_true, Option.map_some, Option.some.injEq]
            constructor
            · intro h; cases h
            · rintro ⟨l, rfl, h, _⟩
              exact absurd hm (h name (by simp))
          · have hm : name ∉ g.values.map Prod.fst := fun h => hs (lookup_isSome.2 h)
            rw [if_neg hs]
            simp only [Option.map_some, Option.some.injEq]
            constructor
            · rintro rfl
              refine ⟨_, rfl, fun n hn => ?_, fun h => (nomatch h.1), ?_⟩
              · simp only [List.map_cons, List.map_nil, List.mem_singleton] at hn
                subst hn; exact hm
              · simp only [hne, decide_false, Bool.or_false]
            · rintro ⟨l, rfl, _, _, rfl⟩
              simp only [hne, decide_false, Bool.or_false]

/-- What the whole command line contributes. -/
theorem fold_eq : ∀ (args : List Text) (g g' : Given δ), (g.values.map Prod.fst).Nodup →
    (args.foldlM (store x) g = some g' ↔
      (∀ a ∈ args, (entry x a).isSome) ∧
      (g.values.map Prod.fst ++ args.filterMap nameOf).Nodup ∧
      args.count "--help".toList + g.help.toNat ≤ 1 ∧
      g' = ⟨g.values ++ (args.filterMap (entry x)).flatten, g.help || decide ("--help".toList ∈ args)⟩) := by
  intro args
  induction args with
  | nil =>
    intro g g' hnd
    have hb : g.help.toNat ≤ 1 := Bool.toNat_le g.help
    rw [List.foldlM_nil]
    constructor
    · intro h
      cases h
      exact ⟨by simp, by simpa using hnd, by simpa using hb, by simp⟩
    · rintro ⟨_, _, _, rfl⟩
      simp [pure]
  | cons a args ih =>
    intro g g' hnd
    rw [List.foldlM_cons]
    simp only [Option.bind_eq_bind, Option.bind_eq_some_iff, store_eq]
    constructor
    · rintro ⟨g1, ⟨l, hl, hdis, hh, rfl⟩, hf⟩
      have hn := entry_names hl
      have hnd' : ((g.values ++ l).map Prod.fst).Nodup := by
        rw [List.map_append, List.nodup_append]
        refine ⟨hnd, ?_, ?_⟩
        · rw [hn]; cases nameOf a <;> simp
        · intro p hp q hq h; exact hdis q hq (h ▸ hp)
      obtain ⟨h1, h2, h3, rfl⟩ := (ih _ _ hnd').1 hf
      refine ⟨?_, ?_, ?_, ?_⟩
      · intro b hb
        rcases List.mem_cons.1 hb with rfl | hb
        · rw [hl]; rfl
        · exact h1 b hb
      · rw [List.map_append, hn] at h2
        cases hna : nameOf a with
        | none => simpa [hna, List.filterMap_cons] using h2
        | some n => simpa [hna, List.filterMap_cons] using h2
      · rw [List.count_cons]
        by_cases ha : a = "--help".toList
        · have hg : g.help = false := by
            rw [← Bool.not_eq_true]; exact fun h => hh ⟨classify_help_iff.2 ha, h⟩
          simp only [ha, hg, decide_true, Bool.or_true, Bool.toNat_true, Bool.toNat_false, beq_self_eq_true,
            if_true] at h3 ⊢
          omega
        · have : (a == "--help".toList) = false := by simpa using ha
          simp only [ha, decide_false, Bool.or_false, this] at h3 ⊢
          simpa using h3
      · simp only [List.filterMap_cons, hl, List.flatten_cons, List.append_assoc,
          List.mem_cons, Bool.or_assoc, Bool.decide_or, eq_comm (a := a)]
    · rintro ⟨h1, h2, h3, rfl⟩
      obtain ⟨l, hl⟩ := Option.isSome_iff_exists.1 (h1 a (by simp))
      have hn := entry_names hl
      have h2' : ((g.values ++ l).map Prod.fst ++ args.filterMap nameOf).Nodup := by
        rw [List.map_append, hn]
        cases hna : nameOf a with
        | none => simpa [hna, List.filterMap_cons] using h2
        | some n => simpa [hna, List.filterMap_cons] using h2
      have hnd' := (List.nodup_append.1 h2').1
      refine ⟨⟨g.values ++ l, g.help || decide (a = "--help".toList)⟩, ⟨l, hl, ?_, ?_, rfl⟩, ?_⟩
      · intro n hn' hg
        rw [List.map_append, List.nodup_append] at hnd'
        exact hnd'.2.2 n hg n hn' rfl
      · rintro ⟨ha, hg⟩
        rw [classify_help_iff.1 ha, hg, List.count_cons_self] at h3
        simp at h3
      · refine (ih _ _ hnd').2 ⟨fun b hb => h1 b (by simp [hb]), h2', ?_, ?_⟩
        · rw [List.count_cons] at h3
          by_cases ha : a = "--help".toList
          · cases hg : g.help
            · simp only [ha, hg, decide_true, Bool.or_true, Bool.toNat_true, Bool.toNat_false, beq_self_eq_true,
                if_true] at h3 ⊢
              omega
            · simp only [ha, hg, beq_self_eq_true, if_true, Bool.toNat_true] at h3
              omega
          · have : (a == "--help".toList) = false := by simpa using ha
            simp only [ha, decide_false, Bool.or_false, this] at h3 ⊢
            simpa using h3
        · simp only [List.filterMap_cons, hl, List.flatten_cons, List.append_assoc,
            List.mem_cons, Bool.or_assoc, Bool.decide_or, eq_comm (a := a)]

theorem parse_eq {args : List Text} {g : Given δ} : parse x args = some g ↔
    (∀ a ∈ args, (entry x a).isSome) ∧ (args.filterMap nameOf).Nodup ∧ args.count "--help".toList ≤ 1 ∧
      g = ⟨(args.filterMap (entry x)).flatten, decide ("--help".toList ∈ args)⟩ := by
  have := fold_eq (x := x) args ⟨[], false⟩ g (by simp)
  simpa [parse] using this

/-- The names of the values that are stored. -/
theorem stored_names : ∀ (args : List Text), (∀ a ∈ args, (entry x a).isSome) →
    ((args.filterMap (entry x)).flatten).map Prod.fst = args.filterMap nameOf := by
  intro args
  induction args with
  | nil => intro _; rfl
  | cons a args ih =>
    intro h
    obtain ⟨l, hl⟩ := Option.isSome_iff_exists.1 (h a (by simp))
    have hn := entry_names hl
    have := ih fun b hb => h b (by simp [hb])
    rw [List.filterMap_cons, hl]
    simp only [List.flatten_cons, List.map_append, hn, this]
    cases hna : nameOf a <;> simp [hna]

theorem nameOf_iff {name : String} (h : name ∈ optionNames) {a : Text} :
    nameOf a = some name.toList ↔ front name <+: a := by
  constructor
  · intro hn
    unfold nameOf at hn
    split at hn
    · rename_i n t hc
      cases hn
      rw [classify_value hc]
      exact ⟨t, by simp [front]⟩
    · cases hn
  · rintro ⟨t, rfl⟩
    unfold nameOf
    rw [classify_front h]

/-- The stored values. -/
theorem stored_mem {args : List Text} {name : String} (h : name ∈ optionNames) {v : Value δ} :
    (name.toList, v) ∈ (args.filterMap (entry x)).flatten ↔
      ∃ t d, Gives args name t ∧ t ≠ [] ∧ (declared x).lookup name.toList = some d ∧ convert x t d = some v := by
  constructor
  · intro hm
    obtain ⟨l, hl, hv⟩ := List.mem_flatten.1 hm
    obtain ⟨a, ha, he⟩ := List.mem_filterMap.1 hl
    unfold entry at he
    split at he
    · cases he; cases hv
    · cases he; cases hv
    · rename_i n t hc
      split at he
      · cases he
      · rename_i d hd
        split at he
        · cases he
        · rename_i ht
          rw [Option.map_eq_some_iff] at he
          obtain ⟨w, hw, rfl⟩ := he
          simp only [List.mem_singleton, Prod.mk.injEq] at hv
          obtain ⟨rfl, rfl⟩ := hv
          refine ⟨t, d, ?_, ht, hd, hw⟩
          have := classify_value hc
          unfold Gives front
          rw [← this]; exact ha
    · cases he
  · rintro ⟨t, d, hg, ht, hd, hv⟩
    refine List.mem_flatten.2 ⟨[(name.toList, v)], List.mem_filterMap.2 ⟨_, hg, ?_⟩, by simp⟩
    unfold entry
    rw [classify_front h]
    simp only [hd, ht, if_false, hv, Option.map_some]

/-- An option of an accepted command line. -/
theorem get_eq {args : List Text} {g : Given δ} (hp : parse x args = some g) {name : String}
    (h : name ∈ optionNames) {d : Value δ} (hd : (declared x).lookup name.toList = some d) :
    ∃ v, g.get x name.toList = .ok v ∧
      ((∃ t, Gives args name t ∧ convert x t d = some v) ∨ ((∀ t, ¬ Gives args name t) ∧ v = d)) := by
  obtain ⟨h1, h2, _, rfl⟩ := parse_eq.1 hp
  have hnd : (((args.filterMap (entry x)).flatten).map Prod.fst).Nodup := by rw [stored_names _ h1]; exact h2
  unfold Given.get
  dsimp only
  cases hl : (args.filterMap (entry x)).flatten.lookup name.toList with
  | some v =>
    obtain ⟨t, d', hg, _, hd', hv⟩ := (stored_mem h).1 ((lookup_mem hnd).1 hl)
    rw [hd] at hd'; cases hd'
    exact ⟨v, rfl, .inl ⟨t, hg, hv⟩⟩
  | none =>
    dsimp only
    rw [hd]
    refine ⟨d, rfl, .inr ⟨fun t hg => ?_, rfl⟩⟩
    have : (args.filterMap (entry x)).flatten.lookup name.toList ≠ none := by
      rw [← Option.isSome_iff_ne_none, lookup_isSome, stored_names _ h1]
      exact List.mem_filterMap.2 ⟨_, hg, (nameOf_iff h).2 ⟨t, rfl⟩⟩
    exact this hl

theorem get_u64 {args : List Text} {g : Given δ} (hp : parse x args = some g) {name : String} {d : Nat}
    (h : name ∈ optionNames) (hd : (declared x).lookup name.toList = some (.u64 d)) :
    ∃ n, (do (← g.get x name.toList).asU64) = Except.ok n ∧ Sets Unsigned args name d n := by
  obtain ⟨v, hv, h | ⟨h, rfl⟩⟩ := get_eq hp h hd
  · obtain ⟨t, hg, hc⟩ := h
    obtain ⟨n, hn, rfl⟩ := Option.map_eq_some_iff.1 hc
    exact ⟨n, by rw [hv]; rfl, .inl ⟨t, hg, toU64_iff.1 hn⟩⟩
  · exact ⟨d, by rw [hv]; rfl, .inr ⟨h, rfl⟩⟩

theorem get_bool {args : List Text} {g : Given δ} (hp : parse x args = some g) {name : String} {d : Bool}
    (h : name ∈ optionNames) (hd : (declared x).lookup name.toList = some (.bool d)) :
    ∃ n, (do (← g.get x name.toList).asBool) = Except.ok n ∧ Sets Says args name d n := by
  obtain ⟨v, hv, h | ⟨h, rfl⟩⟩ := get_eq hp h hd
  · obtain ⟨t, hg, hc⟩ := h
    obtain ⟨n, hn, rfl⟩ := Option.map_eq_some_iff.1 hc
    exact ⟨n, by rw [hv]; rfl, .inl ⟨t, hg, toBool_iff.1 hn⟩⟩
  · exact ⟨d, by rw [hv]; rfl, .inr ⟨h, rfl⟩⟩

theorem get_str {args : List Text} {g : Given δ} (hp : parse x args = some g) {name : String} {d : Text}
    (h : name ∈ optionNames) (hd : (declared x).lookup name.toList = some (.str d)) :
    ∃ n, (do (← g.get x name.toList).asStr) = Except.ok n ∧ Sets (fun t s => s = t) args name d n := by
  obtain ⟨v, hv, h | ⟨h, rfl⟩⟩ := get_eq hp h hd
  · obtain ⟨t, hg, hc⟩ := h
    cases hc
    exact ⟨t, by rw [hv]; rfl, .inl ⟨t, hg, rfl⟩⟩
  · exact ⟨d, by rw [hv]; rfl, .inr ⟨h, rfl⟩⟩

theorem get_dbl {args : List Text} {g : Given δ} (hp : parse x args = some g) {name : String} {d : δ}
    (h : name ∈ optionNames) (hd : (declared x).lookup name.toList = some (.dbl d)) :
    ∃ n, (do (← g.get x name.toList).asDbl) = Except.ok n ∧
      Sets (fun t v => x.read t = some v) args name d n := by
  obtain ⟨v, hv, h | ⟨h, rfl⟩⟩ := get_eq hp h hd
  · obtain ⟨t, hg, hc⟩ := h
    obtain ⟨n, hn, rfl⟩ := Option.map_eq_some_iff.1 hc
    exact ⟨n, by rw [hv]; rfl, .inl ⟨t, hg, hn⟩⟩
  · exact ⟨d, by rw [hv]; rfl, .inr ⟨h, rfl⟩⟩

/-- The values of an accepted command line. -/
theorem extract_ok {args : List Text} {g : Given δ} (hp : parse x args = some g) :
    ∃ o r, extract x g = .ok (o, r) ∧ Meaning x.read x.five_percent args o r := by
  obtain ⟨n1, h1, s1⟩ := get_u64 hp (name := "n-value") (d := 4) (by decide) rfl
  obtain ⟨n2, h2, s2⟩ := get_u64 hp (name := "block-result") (d := 128) (by decide) rfl
  obtain ⟨n3, h3, s3⟩ := get_u64 hp (name := "verbose") (d := 0) (by decide) rfl
  obtain ⟨n4, h4, s4⟩ := get_str hp (name := "algorithm") (d := "single".toList) (by decide) rfl
  obtain ⟨n5, h5, s5⟩ := get_bool hp (name := "check") (d := false) (by decide) rfl
  obtain ⟨n6, h6, s6⟩ := get_bool hp (name := "transposed") (d := true) (by decide) rfl
  obtain ⟨n7, h7, s7⟩ := get_u64 hp (name := "block-input") (d := 128) (by decide) rfl
  obtain ⟨n8, h8, s8⟩ := get_u64 hp (name := "repetitions") (d := 1) (by decide) rfl
  obtain ⟨n9, h9, s9⟩ := get_u64 hp (name := "min-work-size") (d := 256) (by decide) rfl
  obtain ⟨n10, h10, s10⟩ := get_u64 hp (name := "max-work-difference") (d := 10000) (by decide) rfl
  obtain ⟨n11, h11, s11⟩ := get_dbl hp (name := "max-relative-work-difference") (d := x.five_percent)
    (by decide) rfl
  refine ⟨⟨n1, n6, n8, n3, n2, n7, n5, String.ofList n4, n9, n10, g.help⟩, n11, ?_,
    ⟨s1, s6, s8, s3, s2, s7, s5, ?_, s9, s10, s11, ?_⟩⟩
  · unfold extract
    simp only [← bind_assoc, h1, h2, h3, h4, h5, h6, h7, h8, h9, h10, h11]
    rfl
  · rcases s4 with ⟨t, hg, rfl⟩ | ⟨h, rfl⟩
    · exact .inl ⟨n4, hg, rfl⟩
    · exact .inr ⟨h, rfl⟩
  · obtain ⟨_, _, _, rfl⟩ := parse_eq.1 hp
    exact decide_eq_true_iff

theorem declared_numeric {name : String} (h : name ∈ numeric) :
    ∃ d, (declared x).lookup name.toList = some (.u64 d) := by
  simp only [numeric, List.mem_cons, List.not_mem_nil, or_false] at h
  rcases h with rfl | rfl | rfl | rfl | rfl | rfl | rfl <;> exact ⟨_, rfl⟩

theorem declared_truth {name : String} (h : name ∈ ["transposed", "check"]) :
    ∃ d, (declared x).lookup name.toList = some (.bool d) := by
  simp only [List.mem_cons, List.not_mem_nil, or_false] at h
  rcases h with rfl | rfl <;> exact ⟨_, rfl⟩

theorem entry_front {name : String} (h : name ∈ optionNames) {d : Value δ}
    (hd : (declared x).lookup name.toList = some d) (t : Text) :
    (entry x (front name ++ t)).isSome ↔ t ≠ [] ∧ (convert x t d).isSome := by
  unfold entry
  rw [classify_front h]
  simp only [hd]
  by_cases ht : t = []
  · simp [ht]
  · simp [ht]

theorem count_names {args : List Text} {name : String} (h : name ∈ optionNames) :
    (args.filterMap nameOf).count name.toList = args.countP fun a => (front name).isPrefixOf a := by
  rw [List.count_filterMap]
  refine List.countP_congr fun a _ => ?_
  rw [beq_iff_eq, nameOf_iff h, List.isPrefixOf_iff_prefix]

/-- The accepted command lines. -/
theorem accepted_iff {args : List Text} (hm : ∀ a ∈ args, Modelled a) :
    (∃ g, parse x args = some g) ↔ Correct x.read args := by
  constructor
  · rintro ⟨g, hp⟩
    obtain ⟨h1, h2, h3, _⟩ := parse_eq.1 hp
    refine ⟨fun name hn => ?_, h3, fun name hn t hg => ?_, fun name hn t hg => ?_, fun hg => ?_, fun t hg => ?_⟩
    · rw [← count_names hn]
      exact List.nodup_iff_count_le_one.1 h2 _
    · obtain ⟨d, hd⟩ := declared_numeric (x := x) hn
      have := ((entry_front (by simp [optionNames, hn]) hd t).1 (h1 _ hg)).2
      obtain ⟨v, hv⟩ := Option.isSome_iff_exists.1 this
      obtain ⟨n, hn, _⟩ := Option.map_eq_some_iff.1 hv
      exact ⟨n, toU64_iff.1 hn⟩
    · obtain ⟨d, hd⟩ := declared_truth (x := x) hn
      have hn' : name ∈ optionNames := by
        simp only [List.mem_cons, List.not_mem_nil, or_false] at hn
        rcases hn with rfl | rfl <;> decide
      have := ((entry_front hn' hd t).1 (h1 _ hg)).2
      obtain ⟨v, hv⟩ := Option.isSome_iff_exists.1 this
      obtain ⟨n, hn, _⟩ := Option.map_eq_some_iff.1 hv
      exact ⟨n, toBool_iff.1 hn⟩
    · exact ((entry_front (x := x) (name := "algorithm") (d := .str "single".toList) (by decide) rfl []).1
        (h1 _ hg)).1 rfl
    · have := (entry_front (x := x) (name := "max-relative-work-difference") (d := .dbl x.five_percent)
        (by decide) rfl t).1 (h1 _ hg)
      refine ⟨this.1, ?_⟩
      obtain ⟨v, hv⟩ := Option.isSome_iff_exists.1 this.2
      obtain ⟨n, hn, _⟩ := Option.map_eq_some_iff.1 hv
      rw [hn]; rfl
  · intro hc
    refine ⟨_, parse_eq.2 ⟨fun a ha => ?_, ?_, hc.help, rfl⟩⟩
    · rcases hm a ha with h | rfl | ⟨name, hn, t, rfl⟩
      · unfold entry; rw [classify_hpx h]; rfl
      · unfold entry; rw [classify_help]; rfl
      · have hn' := hn
        simp only [optionNames, List.mem_append, List.mem_cons, List.not_mem_nil, or_false] at hn'
        have truth : name ∈ ["transposed", "check"] → (entry x (front name ++ t)).isSome = true := by
          intro h
          obtain ⟨d, hd⟩ := declared_truth (x := x) h
          obtain ⟨n, hu⟩ := hc.truths name h t ha
          refine (entry_front hn hd t).2 ⟨?_, ?_⟩
          · rintro rfl; exact says_ne_nil hu
          · simp [convert, toBool_iff.2 hu]
        rcases hn' with h | h | h | rfl | rfl
        · obtain ⟨d, hd⟩ := declared_numeric (x := x) h
          obtain ⟨n, hu⟩ := hc.numbers name h t ha
          refine (entry_front hn hd t).2 ⟨?_, ?_⟩
          · rintro rfl; exact unsigned_ne_nil hu
          · simp [convert, toU64_iff.2 hu]
        · exact truth (by simp [h])
        · exact truth (by simp [h])
        · refine (entry_front (d := .str "single".toList) hn rfl t).2 ⟨?_, rfl⟩
          rintro rfl
          exact hc.text ha
        · refine (entry_front (d := .dbl x.five_percent) hn rfl t).2 ?_
          obtain ⟨h0, h1⟩ := hc.ratio t ha
          exact ⟨h0, by simpa [convert] using h1⟩
    · rw [List.nodup_iff_count_le_one]
      intro n
      by_cases hn : n ∈ args.filterMap nameOf
      · obtain ⟨a, ha, hna⟩ := List.mem_filterMap.1 hn
        rcases hm a ha with h | rfl | ⟨name, hname, h⟩
        · unfold nameOf at hna; rw [classify_hpx h] at hna; cases hna
        · unfold nameOf at hna; rw [classify_help] at hna; cases hna
        · rw [(nameOf_iff hname).2 h] at hna
          cases hna
          rw [count_names hname]
          exact hc.once name hname
      · rw [List.count_eq_zero_of_not_mem hn]; exact Nat.zero_le _

/-- If something is given once, its value is determined. -/
theorem sets_fun {β : Type} {Means : Text → β → Prop} (hf : ∀ t v w, Means t v → Means t w → v = w)
    {args : List Text} {name : String} (h1 : (args.countP fun a => (front name).isPrefixOf a) ≤ 1)
    {d v w : β} (hv : Sets Means args name d v) (hw : Sets Means args name d w) : v = w := by
  rcases hv with ⟨t, ht, hv⟩ | ⟨hn, rfl⟩
  · rcases hw with ⟨u, hu, hw⟩ | ⟨hn, _⟩
    · have : t = u := by
        by_contra hne
        have hne' : front name ++ t ≠ front name ++ u := fun h => hne (List.append_cancel_left h)
        have hsub : [front name ++ t, front name ++ u].Subperm args := by
          refine List.subperm_of_subset (by simpa using hne') fun a ha => ?_
          simp only [List.mem_cons, List.not_mem_nil, or_false] at ha
          rcases ha with rfl | rfl
          · exact ht
          · exact hu
        have := hsub.countP_le (fun a => (front name).isPrefixOf a)
        have h2 : ∀ s, (front name).isPrefixOf (front name ++ s) = true :=
          fun s => List.isPrefixOf_iff_prefix.2 ⟨s, rfl⟩
        simp only [List.countP_cons, h2, List.countP_nil, if_true] at this
        omega
      subst this
      exact hf _ _ _ hv hw
    · exact absurd ht (hn t)
  · rcases hw with ⟨u, hu, _⟩ | ⟨_, rfl⟩
    · exact absurd hu (hn u)
    · rfl

theorem meaning_fun {read : Text → Option δ} {five : δ} {args : List Text} (hc : Correct read args)
    {o o' : Opts} {r r' : δ} (h : Meaning read five args o r) (h' : Meaning read five args o' r') :
    o = o' ∧ r = r' := by
  have hu : ∀ t v w, Unsigned t v → Unsigned t w → v = w := fun _ _ _ => unsigned_fun
  have hs : ∀ t v w, Says t v → Says t w → v = w := fun _ _ _ => says_fun
  refine ⟨?_, sets_fun (fun t v w h h' => by rw [h] at h'; cases h'; rfl) (hc.once _ (by decide))
    h.relative h'.relative⟩
  cases o; cases o'
  rw [Opts.mk.injEq]
  refine ⟨sets_fun hu (hc.once _ (by decide)) h.N h'.N,
    sets_fun hs (hc.once _ (by decide)) h.transposed h'.transposed,
    sets_fun hu (hc.once _ (by decide)) h.repetitions h'.repetitions,
    sets_fun hu (hc.once _ (by decide)) h.verbose h'.verbose,
    sets_fun hu (hc.once _ (by decide)) h.block_result h'.block_result,
    sets_fun hu (hc.once _ (by decide)) h.block_input h'.block_input,
    sets_fun hs (hc.once _ (by decide)) h.check h'.check,
    sets_fun (fun t v w h h' => h.trans h'.symm) (hc.once _ (by decide)) h.algorithm h'.algorithm,
    sets_fun hu (hc.once _ (by decide)) h.min_work_size h'.min_work_size,
    sets_fun hu (hc.once _ (by decide)) h.max_work_difference h'.max_work_difference,
    Bool.eq_iff_iff.2 (h.help.trans h'.help.symm)⟩

theorem store_front {g : Given δ} {name : String} (h : name ∈ optionNames) {d v : Value δ} {t : Text}
    (hd : (declared x).lookup name.toList = some d) (ht : t ≠ []) (hl : g.values.lookup name.toList = none)
    (hv : convert x t d = some v) :
    store x g (front name ++ t) = some ⟨g.values ++ [(name.toList, v)], g.help⟩ := by
  unfold store
  rw [classify_front h]
  simp only [hd, ht, if_false, hl, hv, Option.isSome_none, Option.map_some, Bool.false_eq_true]

theorem store_hpx {g : Given δ} (t : Text) : store x g ("--hpx:".toList ++ t) = some g := by
  unfold store
  rw [classify_hpx ⟨t, rfl⟩]

theorem dec_ne_nil (n : Nat) : dec n ≠ [] := by
  intro h
  have hp : 0 < (dec n).length := Nat.length_toDigits_pos
  rw [h] at hp
  exact absurd hp (by decide)

theorem toU64_dec {n : Nat} (h : n < 2 ^ 64) : toU64 (dec n) = some n :=
  toU64_iff.2 (Unsigned.plain 0 n h)

theorem convert_u64 {n d : Nat} (h : n < 2 ^ 64) : convert x (dec n) (.u64 d) = some (.u64 n) := by
  show (toU64 (dec n)).map Value.u64 = _
  rw [toU64_dec h]; rfl

theorem convert_bool {b d : Bool} : convert x (if b then "1" else "0").toList (.bool d) = some (.bool b) := by
  cases b <;> rfl

theorem bool_ne_nil {b : Bool} : (if b then "1" else "0").toList ≠ [] := by
  cases b <;> simp

/-- The values of a command line that asks for all options. -/
def all (o : Opts) : List (Text × Value δ) :=
  [("n-value".toList, .u64 o.N), ("transposed".toList, .bool o.transposed),
   ("repetitions".toList, .u64 o.repetitions), ("verbose".toList, .u64 o.verbose),
   ("block-result".toList, .u64 o.block_result), ("block-input".toList, .u64 o.block_input),
   ("check".toList, .bool o.check), ("algorithm".toList, .str o.algorithm.toList),
   ("min-work-size".toList, .u64 o.min_work_size), ("max-work-difference".toList, .u64 o.max_work_difference)]

theorem parse_written (o : Opts) (h : ∀ n ∈ [o.N, o.repetitions, o.verbose, o.block_result, o.block_input,
    o.min_work_size, o.max_work_difference], n < 2 ^ 64) (ha : o.algorithm ≠ "") :
    parse x (written o) = some ⟨all o, o.help⟩ := by
  simp only [List.mem_cons, List.not_mem_nil, or_false, forall_eq_or_imp, forall_eq] at h
  obtain ⟨h1, h2, h3, h4, h5, h6, h7⟩ := h
  have ha' : o.algorithm.toList ≠ [] := by simpa using ha
  unfold parse written
  rw [List.foldlM_append]
  simp only [List.foldlM_cons, List.foldlM_nil]
  rw [store_front (by decide) rfl (dec_ne_nil _) rfl (convert_u64 h1)]; dsimp only [Option.bind_eq_bind, Option.bind_some]
  rw [store_front (by decide) rfl bool_ne_nil rfl convert_bool]; dsimp only [Option.bind_some]
  rw [store_front (by decide) rfl (dec_ne_nil _) rfl (convert_u64 h2)]; dsimp only [Option.bind_some]
  rw [store_front (by decide) rfl (dec_ne_nil _) rfl (convert_u64 h3)]; dsimp only [Option.bind_some]
  rw [store_front (by decide) rfl (dec_ne_nil _) rfl (convert_u64 h4)]; dsimp only [Option.bind_some]
  rw [store_front (by decide) rfl (dec_ne_nil _) rfl (convert_u64 h5)]; dsimp only [Option.bind_some]
  rw [store_front (by decide) rfl bool_ne_nil rfl convert_bool]; dsimp only [Option.bind_some]
  rw [store_front (by decide) rfl ha' rfl rfl]; dsimp only [Option.bind_some]
  rw [store_front (by decide) rfl (dec_ne_nil _) rfl (convert_u64 h6)]; dsimp only [Option.bind_some]
  rw [store_front (by decide) rfl (dec_ne_nil _) rfl (convert_u64 h7)]; dsimp only [Option.bind_some]
  cases hh : o.help
  · rfl
  · rfl

theorem extract_all (o : Opts) : extract x ⟨all o, o.help⟩ = .ok (o, x.five_percent) := by
  have : extract x ⟨all o, o.help⟩ = .ok (⟨o.N, o.transposed, o.repetitions, o.verbose, o.block_result,
      o.block_input, o.check, String.ofList o.algorithm.toList, o.min_work_size, o.max_work_difference,
      o.help⟩, x.five_percent) := rfl
  rw [this, String.ofList_toList]

theorem modelled_written (o : Opts) : ∀ a ∈ written o, Modelled a := by
  intro a ha
  unfold written at ha
  rw [List.mem_append] at ha
  rcases ha with ha | ha
  · simp only [List.mem_cons, List.not_mem_nil, or_false] at ha
    rcases ha with rfl | rfl | rfl | rfl | rfl | rfl | rfl | rfl | rfl | rfl <;>
      exact .inr (.inr ⟨_, by decide, _, rfl⟩)
  · split at ha
    · exact .inr (.inl (by simpa using ha))
    · cases ha

/-- A command line whose reading is known. -/
theorem application_eq {env : δ → Env α} {args : List Text} {g : Given δ} {o : Opts} {r : δ}
    (hp : parse x args = some g) (he : extract x g = .ok (o, r)) :
    application x env args = Driver.main (env r) o := by
  unfold application
  rw [hp]
  dsimp only
  rw [he, ND.ofM_ok, ND.pure_bind']

theorem parse_evaluate {n repetition : Nat} {transposed : Bool} {blockInput cores threads : Nat}
    (hn : n < 2 ^ 64) (hr : repetition < 2 ^ 64) (hb : blockInput < 2 ^ 64) :
    parse x (evaluateCommand n repetition transposed blockInput cores threads) = some
      ⟨[("n-value".toList, .u64 n), ("repetitions".toList, .u64 repetition), ("verbose".toList, .u64 0),
        ("check".toList, .bool false), ("algorithm".toList, .str "pseudodynamic".toList),
        ("max-work-difference".toList, .u64 0), ("transposed".toList, .bool transposed),
        ("block-input".toList, .u64 blockInput)], false⟩ := by
  have e1 : "--n-value=".toList = front "n-value" := rfl
  have e2 : "--repetitions=".toList = front "repetitions" := rfl
  have e3 : "--verbose=0".toList = front "verbose" ++ "0".toList := rfl
  have e4 : "--check=false".toList = front "check" ++ "false".toList := rfl
  have e5 : "--algorithm=pseudodynamic".toList = front "algorithm" ++ "pseudodynamic".toList := rfl
  have e6 : ∀ t, "--hpx:cores=".toList ++ t = "--hpx:".toList ++ ("cores=".toList ++ t) := fun _ => rfl
  have e7 : ∀ t, "--hpx:thread=".toList ++ t = "--hpx:".toList ++ ("thread=".toList ++ t) := fun _ => rfl
  have e8 : "--max-work-difference=0".toList = front "max-work-difference" ++ "0".toList := rfl
  have e9 : "--transposed=".toList = front "transposed" := rfl
  have e10 : "--block-input=".toList = front "block-input" := rfl
  have ht : convert x (if transposed then "True" else "False").toList (.bool true) = some (.bool transposed) := by
    cases transposed <;> rfl
  have ht0 : (if transposed then "True" else "False").toList ≠ [] := by cases transposed <;> simp
  unfold parse evaluateCommand
  rw [e1, e2, e3, e4, e5, e6, e7, e8, e9, e10]
  simp only [List.foldlM_cons, List.foldlM_nil]
  rw [store_front (by decide) rfl (dec_ne_nil _) rfl (convert_u64 hn)]; dsimp only [Option.bind_eq_bind, Option.bind_some]
  rw [store_front (by decide) rfl (dec_ne_nil _) rfl (convert_u64 hr)]; dsimp only [Option.bind_some]
  rw [store_front (v := .u64 0) (by decide) rfl (by simp) rfl rfl]; dsimp only [Option.bind_some]
  rw [store_front (v := .bool false) (by decide) rfl (by simp) rfl rfl]; dsimp only [Option.bind_some]
  rw [store_front (v := .str "pseudodynamic".toList) (by decide) rfl (by simp) rfl rfl]; dsimp only [Option.bind_some]
  rw [store_hpx, Option.bind_some, store_hpx, Option.bind_some]
  rw [store_front (v := .u64 0) (by decide) rfl (by simp) rfl rfl]; dsimp only [Option.bind_some]
  rw [store_front (by decide) rfl ht0 rfl ht]; dsimp only [Option.bind_some]
  rw [store_front (by decide) rfl (dec_ne_nil _) rfl (convert_u64 hb)]; dsimp only [Option.bind_some]
  rfl

theorem parse_readme {algorithm : String} (h : algorithm ≠ "") : parse x (readmeCommand algorithm) = some
      ⟨[("n-value".toList, .u64 8192), ("check".toList, .bool false), ("algorithm".toList, .str algorithm.toList),
        ("block-result".toList, .u64 128), ("block-input".toList, .u64 128)], false⟩ := by
  have e1 : "--n-value=8192".toList = front "n-value" ++ "8192".toList := rfl
  have e2 : "--check=False".toList = front "check" ++ "False".toList := rfl
  have e3 : ("--algorithm=" ++ algorithm).toList = front "algorithm" ++ algorithm.toList := by
    rw [String.toList_append]; rfl
  have e4 : "--block-result=128".toList = front "block-result" ++ "128".toList := rfl
  have e5 : "--block-input=128".toList = front "block-input" ++ "128".toList := rfl
  have e6 : "--hpx:threads=4".toList = "--hpx:".toList ++ "threads=4".toList := rfl
  have h' : algorithm.toList ≠ [] := by simpa using h
  unfold parse readmeCommand
  rw [e1, e2, e3, e4, e5, e6]
  simp only [List.foldlM_cons, List.foldlM_nil]
  rw [store_front (v := .u64 8192) (by decide) rfl (by simp) rfl rfl]; dsimp only [Option.bind_eq_bind, Option.bind_some]
  rw [store_front (v := .bool false) (by decide) rfl (by simp) rfl rfl]; dsimp only [Option.bind_some]
  rw [store_front (by decide) rfl h' rfl rfl]; dsimp only [Option.bind_some]
  rw [store_front (v := .u64 128) (by decide) rfl (by simp) rfl rfl]; dsimp only [Option.bind_some]
  rw [store_front (v := .u64 128) (by decide) rfl (by simp) rfl rfl]; dsimp only [Option.bind_some]
  rw [store_hpx]
  rfl

end Verif.CommandLine
