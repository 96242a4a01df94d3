import Verif.Model.CommandLine
/-
Specification vocabulary for C120: what the texts of the command line mean.
-/
namespace Verif
open Console (Text dec)

/-- The text stands for the number: leading zeros and a sign are allowed, a minus sign means subtraction
from 2^64. -/
inductive Unsigned : Text → Nat → Prop
  | plain (k m : Nat) : m < 2 ^ 64 → Unsigned (List.replicate k '0' ++ dec m) m
  | plus (k m : Nat) : m < 2 ^ 64 → Unsigned ('+' :: (List.replicate k '0' ++ dec m)) m
  | minus (k m : Nat) : m < 2 ^ 64 → Unsigned ('-' :: (List.replicate k '0' ++ dec m)) ((2 ^ 64 - m) % 2 ^ 64)

/-- The text says yes (`true`) or no (`false`), in upper or lower case. -/
def Says (t : Text) (b : Bool) : Prop :=
  t.map Char.toLower ∈ (if b then ["on", "yes", "1", "true"] else ["off", "no", "0", "false"]).map String.toList

/-- The options that have a number as value. -/
def numeric : List String :=
  ["n-value", "repetitions", "verbose", "block-result", "block-input", "min-work-size", "max-work-difference"]

/-- All options that have a value. -/
def optionNames : List String :=
  numeric ++ ["transposed", "check", "algorithm", "max-relative-work-difference"]

/-- The beginning `--name=` of an argument. -/
def front (name : String) : Text := "--".toList ++ name.toList ++ "=".toList

/-- The argument `--name=t` is given. -/
def Gives (args : List Text) (name : String) (t : Text) : Prop := front name ++ t ∈ args

/-- Arguments of the forms `--hpx:…`, `--help` and `--name=t`, the latter with the name of an option. -/
def Modelled (a : Text) : Prop :=
  "--hpx:".toList <+: a ∨ a = "--help".toList ∨ ∃ name ∈ optionNames, front name <+: a

/-- A correct command line: nothing is given twice, and all values have the right form. -/
structure Correct {δ : Type} (read : Text → Option δ) (args : List Text) : Prop where
  once : ∀ name ∈ optionNames, (args.countP fun a => (front name).isPrefixOf a) ≤ 1
  help : args.count "--help".toList ≤ 1
  numbers : ∀ name ∈ numeric, ∀ t, Gives args name t → ∃ n, Unsigned t n
  truths : ∀ name ∈ ["transposed", "check"], ∀ t, Gives args name t → ∃ b, Says t b
  text : ¬ Gives args "algorithm" []
  ratio : ∀ t, Gives args "max-relative-work-difference" t → t ≠ [] ∧ (read t).isSome

/-- The value of an option is the one given, or else the default value. -/
def Sets {β : Type} (Means : Text → β → Prop) (args : List Text) (name : String) (default value : β) : Prop :=
  (∃ t, Gives args name t ∧ Means t value) ∨ ((∀ t, ¬ Gives args name t) ∧ value = default)

/-- What the command line says about the options: `read` converts to `double`, `five_percent` is the default
of the last option, `r` its value. -/
structure Meaning {δ : Type} (read : Text → Option δ) (five_percent : δ) (args : List Text) (o : Driver.Opts)
    (r : δ) : Prop where
  N : Sets Unsigned args "n-value" 4 o.N
  transposed : Sets Says args "transposed" true o.transposed
  repetitions : Sets Unsigned args "repetitions" 1 o.repetitions
  verbose : Sets Unsigned args "verbose" 0 o.verbose
  block_result : Sets Unsigned args "block-result" 128 o.block_result
  block_input : Sets Unsigned args "block-input" 128 o.block_input
  check : Sets Says args "check" false o.check
  algorithm : Sets (fun t s => s = String.ofList t) args "algorithm" "single" o.algorithm
  min_work_size : Sets Unsigned args "min-work-size" 256 o.min_work_size
  max_work_difference : Sets Unsigned args "max-work-difference" 10000 o.max_work_difference
  relative : Sets (fun t v => read t = some v) args "max-relative-work-difference" five_percent r
  help : o.help = true ↔ "--help".toList ∈ args

/-- A command line that asks for given options (all but the last one of `Meaning`). -/
def written (o : Driver.Opts) : List Text :=
  [front "n-value" ++ dec o.N,
   front "transposed" ++ (if o.transposed then "1" else "0").toList,
   front "repetitions" ++ dec o.repetitions,
   front "verbose" ++ dec o.verbose,
   front "block-result" ++ dec o.block_result,
   front "block-input" ++ dec o.block_input,
   front "check" ++ (if o.check then "1" else "0").toList,
   front "algorithm" ++ o.algorithm.toList,
   front "min-work-size" ++ dec o.min_work_size,
   front "max-work-difference" ++ dec o.max_work_difference] ++
  (if o.help then ["--help".toList] else [])

/-- The commands of README.md. -/
def readmeCommand (algorithm : String) : List Text :=
  ["--n-value=8192".toList, "--check=False".toList, ("--algorithm=" ++ algorithm).toList,
   "--block-result=128".toList, "--block-input=128".toList, "--hpx:threads=4".toList]

/-- The command of `run` in evaluate.py, lines 7–10, without `--small-block-size=128`. -/
def evaluateCommand (n repetition : Nat) (transposed : Bool) (blockInput cores threads : Nat) : List Text :=
  ["--n-value=".toList ++ dec n, "--repetitions=".toList ++ dec repetition, "--verbose=0".toList,
   "--check=false".toList, "--algorithm=pseudodynamic".toList, "--hpx:cores=".toList ++ dec cores,
   "--hpx:thread=".toList ++ dec threads, "--max-work-difference=0".toList,
   "--transposed=".toList ++ (if transposed then "True" else "False").toList,
   "--block-input=".toList ++ dec blockInput]

end Verif
