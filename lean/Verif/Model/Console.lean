import Verif.Model.Driver
import Verif.Model.Report
/-
What /repo/src/matrix_multiply_application/matrix_multiply.cpp writes to the standard output with
`--verbose=0`, and how /repo/evaluate.py calls the program.  The text is given for runs that end
normally.  `std::cout` and `hpx::cout` write to the same stream.
-/
namespace Verif.Console
open IEEE Double Driver
variable {α : Type}

abbrev Text := List Char

/-- `std::endl` -/
def endl : Text := ['\n']

/-- `operator<<` for an unsigned number. -/
def dec (n : Nat) : Text := Nat.toDigits 10 n

/-- What the text depends on apart from the options and the outcome: `operator<<` for doubles, the
measured times (`duration`: matrix_multiply.cpp:227, 325, 338; `inner`: combined.cpp:238–329;
`reference`: matrix_multiply.cpp:381), the names of the computing localities
(static_improved.cpp:214–216) and the lines written by the handlers of exceptions
(kernel.hpp:24–26, recursive.cpp:32–34). -/
structure Outside where
  fmt : Double → Text
  duration : Double
  inner : Double
  reference : Double
  ids : List Text
  caught : List Text

/-- Lines of text. -/
def lines (ls : List Text) : Text := ls.flatMap fun l => l ++ endl

/-- matrix_multiply.cpp:170–171, 185–186, 200–201 are written for `verbose > 0` only; lines 173–176,
188–191 and 203–206: the warning, without the end of the line.  The warning of `algorithms` names
"looped". -/
def warning (name : String) (repetitions : Nat) : Text :=
  if repetitions > 1 then
    "warning: algorithm \"".toList ++ name.toList ++
      "\" doesn't support the \"repetitions\" parameter".toList
  else []

/-- combined.cpp:332, 367–370 and kernel_tiled.cpp:496, 540–543. -/
def innerText (x : Outside) (b : Tiled.Blocking) (N repetitions : Nat) (duration : Double) : Text :=
  let X := N + Tiled.padOf N b.L3_X
  let Y := N + Tiled.padOf N b.L3_Y
  let K := N + Tiled.padOf N b.L3_K_STEP
  "duration inner: ".toList ++ x.fmt duration ++ "s".toList ++ endl ++
  ("[X_size = ".toList ++ dec X ++ ", Y_size = ".toList ++ dec Y ++ ", K_size = ".toList ++ dec K ++
    "] inner performance: ".toList ++ x.fmt (Report.performance repetitions X Y K duration) ++
    "Gflops (average across repetitions)".toList ++ endl)

/-- What the algorithm itself writes: matrix_multiply.cpp:134–221, static_improved.cpp:198–217. -/
def algorithmText (e : Env α) (o : Opts) (x : Outside) : Text :=
  if o.algorithm = "single" then
    "using parallel single node algorithm".toList ++ endl ++ lines x.caught
  else if o.algorithm = "pseudodynamic" then
    "using pseudodynamic distributed algorithm".toList ++ endl ++
    ((if e.localities > 1 then
        "info: root node is not used for computation".toList ++ endl ++
        lines (x.ids.map fun id => "computing on id: ".toList ++ id)
      else []) ++ lines x.caught)
  else if o.algorithm = "algorithms" then warning "looped" o.repetitions
  else if o.algorithm = "looped" then warning "looped" o.repetitions
  else if o.algorithm = "semi" then warning "semi" o.repetitions
  else if o.algorithm = "combined" then
    innerText x Combined.blocking o.N o.repetitions x.inner
  else []

/-- matrix_multiply.cpp:228–233, 326–330 and 340–344. -/
def timesText (o : Opts) (x : Outside) : Text :=
  "[N = ".toList ++ dec o.N ++ "] total time: ".toList ++ x.fmt x.duration ++ "s".toList ++ endl

/-- matrix_multiply.cpp:230–233, 328–330 and 342–344. -/
def averageText (o : Opts) (x : Outside) : Text :=
  "[N = ".toList ++ dec o.N ++ "] average time per run: ".toList ++
    x.fmt (div x.duration (ofNat o.repetitions)) ++ "s (repetitions = ".toList ++ dec o.repetitions ++
    ")".toList ++ endl

/-- matrix_multiply.cpp:57–241: `hpx_main` (without `--help`). -/
def hpxText (e : Env α) (o : Opts) (x : Outside) : Text :=
  "in HPX main".toList ++ endl ++
  (if o.algorithm ∈ ["single", "pseudodynamic", "algorithms", "looped", "semi", "combined",
      "proposal"] then
    algorithmText e o x ++ (timesText o x ++ averageText o x)
  else [])

/-- matrix_multiply.cpp:320–355: the algorithms that run after HPX. -/
def kernelText (o : Opts) (x : Outside) : Text :=
  if o.algorithm = "kernel_test" then
    "non-HPX ".toList ++ timesText o x ++ ("non-HPX ".toList ++ averageText o x)
  else if o.algorithm = "kernel_tiled" then
    innerText x KernelTiled.blocking o.N o.repetitions x.duration ++
    ("non-HPX ".toList ++ timesText o x ++ ("non-HPX ".toList ++ averageText o x))
  else []

/-- matrix_multiply.cpp:359–364. -/
def performanceText (o : Opts) (x : Outside) : Text :=
  "[N = ".toList ++ dec o.N ++ "] performance: ".toList ++
    x.fmt (Report.performance o.repetitions o.N o.N o.N x.duration) ++
    "Gflops (average across repetitions)".toList ++ endl

/-- matrix_multiply.cpp:368–418: the check, with its outcome. -/
def checkText (o : Opts) (x : Outside) (ok : Bool) : Text :=
  (if o.repetitions > 1 then
    "info: repetitions > 1: checking only last iteration".toList ++ endl else []) ++
  ("naive matMult took ".toList ++ x.fmt x.reference ++ " [s]".toList ++ endl) ++
  ("[N = ".toList ++ dec o.N ++ "] performance reference: ".toList ++
    x.fmt (div (Report.gflop o.N o.N o.N) x.reference) ++
    " Gflops (reference implementation)".toList ++ endl) ++
  ((if ok then "check passed".toList else "error: check failed!".toList) ++ endl)

/-- matrix_multiply.cpp:351–429: what follows the algorithms that run after HPX. -/
def endText (e : Env α) (o : Opts) (x : Outside) (r : Report α) : Text :=
  if r.invalid then
    "\"".toList ++ o.algorithm.toList ++ "\" not a valid algorithm".toList ++ endl
  else if e.root then
    performanceText o x ++ (match r.check with | none => [] | some ok => checkText o x ok)
  else []

/-- matrix_multiply.cpp:243–431: everything the program writes on the locality that runs `hpx_main`,
given what the model of the program reports. -/
def console (e : Env α) (o : Opts) (x : Outside) (r : Report α) : Text :=
  "before HPX".toList ++ endl ++ hpxText e o x ++ ("after HPX".toList ++ endl) ++ kernelText o x ++
  endText e o x r

/-- evaluate.py:6–10: the options given by `run(n, repetition, transposed, blockInput)`; the others
have their default values.  The option `--small-block-size`, which the program does not declare, and
the options of HPX are left out. -/
def evaluate (n repetition : Nat) (transposed : Bool) (blockInput : Nat) : Opts where
  N := n
  repetitions := repetition
  verbose := 0
  check := false
  algorithm := "pseudodynamic"
  max_work_difference := 0
  transposed := transposed
  block_input := blockInput

/-- evaluate.py:40–41, 47–48 and 54–55: the calls of `run`. -/
def evaluated : List Opts :=
  ([(512, 10), (1024, 10), (2048, 5), (4096, 2), (8192, 1)].map fun (n, r) => evaluate n r true 128) ++
  ([(512, 10), (1024, 10), (2048, 5), (4096, 2), (8192, 1)].map fun (n, r) => evaluate n r true 0)

end Verif.Console
