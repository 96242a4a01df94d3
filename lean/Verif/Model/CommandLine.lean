import Verif.Model.Driver
import Verif.Model.Console
/-
Model of the command line of /repo/src/matrix_multiply_application/matrix_multiply.cpp: the declaration of
the options in `main`, and their use in `hpx_main`.

What is assumed about Boost.Program_options and HPX, which read the command line:
* An argument `--name=text` with the name of a declared option gives this option the value `text`; it is an
  error if the text is empty, if it cannot be converted to the declared type, or if the option is given twice.
* `--help` may be given once.
* Arguments beginning with `--hpx:` are for HPX.
* Options that are not given have their default values.
* Numbers of type `std::uint64_t` are converted by `boost::lexical_cast`: an optional sign and decimal digits;
  with a minus sign the number is subtracted from 2^64.  Values of type `bool` are converted without
  distinction of upper and lower case.
* After an error in the command line `hpx::init` returns without calling `hpx_main`.
Arguments of other forms (abbreviated or undeclared names, values in the next argument, positional arguments)
are not modelled: the functions below treat them as errors, but no statement is about them.
-/
namespace Verif.CommandLine
open Console (Text dec)
open Driver (Opts Env Globals Report)
variable {α : Type} [Arith α] {δ : Type}

/-- The value of an option, with one of the types that occur in matrix_multiply.cpp:248–293: `std::uint64_t`,
`bool`, `std::string` and `double` (`δ`). -/
inductive Value (δ : Type) where
  | u64 (n : Nat)
  | bool (b : Bool)
  | str (s : Text)
  | dbl (d : δ)

/-- How `double` values are read: the conversion of a text, and the literal `0.05` (line 292). -/
structure Doubles (δ : Type) where
  read : Text → Option δ
  five_percent : δ

/-- matrix_multiply.cpp:248–293: the declared options that have a value, and their default values. -/
def declared (x : Doubles δ) : List (Text × Value δ) :=
  [("n-value".toList, .u64 4),
   ("transposed".toList, .bool true),
   ("repetitions".toList, .u64 1),
   ("verbose".toList, .u64 0),
   ("block-result".toList, .u64 128),
   ("block-input".toList, .u64 128),
   ("check".toList, .bool false),
   ("algorithm".toList, .str "single".toList),
   ("min-work-size".toList, .u64 256),
   ("max-work-difference".toList, .u64 10000),
   ("max-relative-work-difference".toList, .dbl x.five_percent)]

/-- Decimal digits of a number below 2^64 (`boost::lexical_cast`, used for the `std::uint64_t` options of
matrix_multiply.cpp:248–288). -/
def digits (t : Text) : Option Nat :=
  if t ≠ [] ∧ t.all Char.isDigit ∧ Nat.ofDigitChars 10 t 0 < 2 ^ 64 then some (Nat.ofDigitChars 10 t 0) else none

/-- The conversion to `std::uint64_t` (matrix_multiply.cpp:250, 258, 260, 264, 269, 283, 286). -/
def toU64 : Text → Option Nat
  | '-' :: t => (digits t).map fun n => (2 ^ 64 - n) % 2 ^ 64
  | '+' :: t => digits t
  | t => digits t

/-- The conversion to `bool` (matrix_multiply.cpp:254, 271). -/
def toBool (t : Text) : Option Bool :=
  let s := t.map Char.toLower
  if s = "on".toList ∨ s = "yes".toList ∨ s = "1".toList ∨ s = "true".toList then some true
  else if s = "off".toList ∨ s = "no".toList ∨ s = "0".toList ∨ s = "false".toList then some false
  else none

/-- The conversion to the type of the default value. -/
def convert (x : Doubles δ) (t : Text) : Value δ → Option (Value δ)
  | .u64 _ => (toU64 t).map .u64
  | .bool _ => (toBool t).map .bool
  | .str _ => some (.str t)
  | .dbl _ => (x.read t).map .dbl

/-- The forms of arguments. -/
inductive Arg where
  | hpx
  | help
  | value (name text : Text)
  | other

/-- The form of an argument of `main` (matrix_multiply.cpp:243, passed to `hpx::init` in line 317). -/
def classify (a : Text) : Arg :=
  if "--hpx:".toList.isPrefixOf a then .hpx
  else if a = "--help".toList then .help
  else if "--".toList.isPrefixOf a ∧ '=' ∈ a then
    .value ((a.drop 2).takeWhile (· ≠ '=')) (((a.drop 2).dropWhile (· ≠ '=')).drop 1)
  else .other

/-- The part of `boost::program_options::variables_map` that has been given on the command line
(matrix_multiply.cpp:57, 317). -/
structure Given (δ : Type) where
  values : List (Text × Value δ)
  help : Bool

/-- One argument; `none`: an error. -/
def store (x : Doubles δ) (g : Given δ) (a : Text) : Option (Given δ) :=
  match classify a with
  | .hpx => some g
  | .help => if g.help then none else some { g with help := true }
  | .value name t =>
    match (declared x).lookup name with
    | none => none
    | some d =>
      if t = [] then none
      else if (g.values.lookup name).isSome then none
      else (convert x t d).map fun v => { g with values := g.values ++ [(name, v)] }
  | .other => none

/-- All arguments (matrix_multiply.cpp:317). -/
def parse (x : Doubles δ) (args : List Text) : Option (Given δ) := args.foldlM (store x) ⟨[], false⟩

/-- `vm[name]` (matrix_multiply.cpp:62–74); an option that is not declared is empty, so that `as` fails. -/
def Given.get (x : Doubles δ) (g : Given δ) (name : Text) : M (Value δ) :=
  match g.values.lookup name with
  | some v => pure v
  | none => match (declared x).lookup name with
    | some v => pure v
    | none => throw .badCast

/-- `.as<std::uint64_t>()` (matrix_multiply.cpp:62–72). -/
def Value.asU64 : Value δ → M Nat
  | .u64 n => pure n
  | _ => throw .badCast

/-- `.as<bool>()` (matrix_multiply.cpp:66–67). -/
def Value.asBool : Value δ → M Bool
  | .bool b => pure b
  | _ => throw .badCast

/-- `.as<std::string>()` (matrix_multiply.cpp:65). -/
def Value.asStr : Value δ → M Text
  | .str s => pure s
  | _ => throw .badCast

/-- `.as<double>()` (matrix_multiply.cpp:74). -/
def Value.asDbl : Value δ → M δ
  | .dbl d => pure d
  | _ => throw .badCast

/-- matrix_multiply.cpp:61–76: the global variables are set from the options; the second component is
`max_relative_work_difference`. -/
def extract (x : Doubles δ) (g : Given δ) : M (Opts × δ) := do
  let N ← (← g.get x "n-value".toList).asU64
  let block_result ← (← g.get x "block-result".toList).asU64
  let verbose ← (← g.get x "verbose".toList).asU64
  let algorithm ← (← g.get x "algorithm".toList).asStr
  let check ← (← g.get x "check".toList).asBool
  let transposed ← (← g.get x "transposed".toList).asBool
  let block_input ← (← g.get x "block-input".toList).asU64
  let repetitions ← (← g.get x "repetitions".toList).asU64
  let min_work_size ← (← g.get x "min-work-size".toList).asU64
  let max_work_difference ← (← g.get x "max-work-difference".toList).asU64
  let max_relative_work_difference ← (← g.get x "max-relative-work-difference".toList).asDbl
  pure ({ N := N, transposed := transposed, repetitions := repetitions, verbose := verbose,
          block_result := block_result, block_input := block_input, check := check,
          algorithm := String.ofList algorithm, min_work_size := min_work_size,
          max_work_difference := max_work_difference, help := g.help }, max_relative_work_difference)

/-- matrix_multiply.cpp:243–431 `main` with the arguments after the name of the program; `env` gives the
environment for a value of `max_relative_work_difference`.  Line 317 does not look at the result of
`hpx::init`; if the command line is wrong, the global variables keep their initial values. -/
def application (x : Doubles δ) (env : δ → Env α) (args : List Text) : ND (Report α) :=
  match parse x args with
  | none => Driver.after_hpx (env x.five_percent) Globals.init
  | some g => do
    let (o, r) ← ND.ofM (extract x g)
    Driver.main (env r) o

end Verif.CommandLine
