import Verif.Props.Naive
import Verif.Props.Kernel
import Verif.Props.Schedule
import Verif.Props.IndexIterator
import Verif.Props.Looped
import Verif.Props.Algorithms
import Verif.Props.Semi
import Verif.Props.SemiBlocked
import Verif.Props.Plan
import Verif.Props.Combined
import Verif.Props.KernelTiled
import Verif.Props.Learning
import Verif.Props.KernelTest
import Verif.Props.MemoryLayout
import Verif.Props.Util
import Verif.Props.Proposal
import Verif.Props.Agree
import Verif.Props.Domain
import Verif.Props.Driver
import Verif.Props.DriverFloat
import Verif.Props.OneLocality
import Verif.Props.Tests
import Verif.Props.Rounding
import Verif.Props.TestsFloat
import Verif.Props.Integers
import Verif.Props.TestsInverse
import Verif.Props.Double
import Verif.Props.DoubleCheck
import Verif.Props.Fast
import Verif.Props.Reciprocal
import Verif.Props.Halving
import Verif.Props.Console
import Verif.Props.ExactDomain
import Verif.Props.Balance
import Verif.Props.Defaults
import Verif.Props.Determinism
import Verif.Props.Reproducible
import Verif.Props.FailedCheck
import Verif.Props.Components
import Verif.Props.CommandLine
import Verif.Props.IteratorObjects
import Verif.Props.DoubleUse
import Verif.Props.Summation
import Verif.Props.Size64
import Verif.Props.Wrap64
import Verif.Props.Report
import Verif.Props.Memory
import Verif.Props.TestsTiles
import Verif.Props.TestSession
import Verif.Props.Threads
import Verif.Props.Async
import Verif.Props.AsyncErrs
import Verif.Props.ExperimentsRuns
import Verif.Props.ScheduleDrop
import Verif.Props.Allocator
import Verif.Props.Experiments
import Verif.Props.ExperimentsBlocked
import Verif.Props.Benchmark
import Verif.Props.SameBits
import Verif.Props.Symmetry
import Verif.Props.Order
import Verif.Props.Param
import Verif.Props.Ends
import Verif.Props.Exceptions
import Verif.Props.Certified
import Verif.Props.CertifiedFast
import Verif.Props.ExperimentsDouble
import Verif.Props.Lifetime
import Lean.Util.CollectAxioms
/-
Audit: the build fails if a theorem of the namespace `Verif` depends on an axiom other than
`propext`, `Classical.choice` and `Quot.sound`.
-/
open Lean Elab Command

run_cmd do
  let env ← getEnv
  let names := env.constants.fold (init := #[]) fun acc n ci =>
    if (`Verif).isPrefixOf n && ci.isTheorem then acc.push n else acc
  for n in names do
    for ax in ← collectAxioms n do
      unless ax == ``propext || ax == ``Classical.choice || ax == ``Quot.sound do
        throwError "{n} depends on the axiom {ax}"
