import Verif.Model.Double
/-
The numbers of operations and the performance that the programs report.
-/
namespace Verif.Report
open IEEE Double

/-- The number of operations in a product of an `X × K` and a `K × Y` matrix: matrix_multiply.cpp:359–360
(all three are `N`), combined.cpp:364–365, kernel_tiled.cpp:537–538 (the padded sizes) and
benchmark.cpp:62–63 (`iter` is 1). -/
def flops (X Y K : Nat) : Double := mul (mul (mul (ofNat 2) (ofNat X)) (ofNat Y)) (ofNat K)

/-- `gflop`: matrix_multiply.cpp:361, combined.cpp:366, kernel_tiled.cpp:539, benchmark.cpp:136. -/
def gflop (X Y K : Nat) : Double := div (flops X Y K) (lit 1000000000 0)

/-- The performance: matrix_multiply.cpp:363, combined.cpp:369, kernel_tiled.cpp:542. -/
def performance (repetitions X Y K : Nat) (duration : Double) : Double :=
  div (mul (ofNat repetitions) (gflop X Y K)) duration

/-- benchmark.cpp:135: the duration in seconds, from a count of milliseconds. -/
def seconds (ms : Nat) : Double := div (ofNat ms) (lit 1000 0)

/-- benchmark.cpp:140. -/
def benchmark (n ms : Nat) : Double := div (gflop n n n) (seconds ms)

end Verif.Report
