import Verif.Model.Tests
/-
Model of the test cases `apply_inverse_*` of /repo/src/tests with the matrices they contain, and of
test_naive.cpp.
-/
namespace Verif.Tests
variable {α : Type} [Arith α]

/-- test_naive.cpp:20–21, 37–40 and 60–67 (the same in all test programs): the elements of `A`. -/
def inverse_A (N : Nat) : Array Int :=
  if N = 2 then #[2, 5, 1, 3]
  else if N = 4 then #[-4, 5, 0, -3, -1, 2, 0, 2, -8, -3, 8, -8, -4, 3, -4, -1]
  else #[0, 0, 0, -1, -1, 1, 1, 0,
    -1, -2, 0, 0, 0, -4, -1, 0,
    0, 0, 0, -2, 0, 0, -4, 0,
    -3, 0, 4, -2, 0, -7, -4, -3,
    0, 2, 0, 1, -3, -2, -1, -1,
    0, 0, 0, 4, 0, 3, 0, 2,
    0, -1, -4, -2, 0, 3, -5, 0,
    1, 0, 1, 0, -6, 1, -5, 0]

/-- test_naive.cpp:22–23, 42–45 and 69–99 (the same in all test programs): the elements of `B` without
the decimal point. -/
def inverse_B (N : Nat) : Array Int :=
  if N = 2 then #[3, -5, -1, 2]
  else if N = 4 then #[1347150259, -2124352332, -829015544, -1658031088,
    2176165803, 414507772, -569948187, -1139896373,
    660621762, 1554404145, 362694301, -1774611399,
    -1502590674, 3523316062, 155440415, 310880829]
  else #[-945977686435702, -125660598943042, -92190252495597, -206106870229008,
    -196711685261304, -407516147974163, -142102172636524, 256018790369935,
    237815619495009, -87962419260129, 435466823253083, -44274809160305,
    362301820317088, 114738696418086, -99471520845567, -220786846741045,
    -59894304169114, -121550205519671, 36993540810335, 76335877862595,
    -194950088079859, 17028772753964, -146799765120376, 107457428068115,
    -405167351732237, -57545507927187, -308573106283030, 45801526717557,
    -24662360540223, 56371109806224, 65766294773928, 79859072225484,
    -325308279506753, -95478567234292, 42102172636524, 10687022900763,
    -98062243100411, -33000587199060, -5167351732237, -63417498532002,
    66940692894891, -181796829125073, -170757486788021, 79389312977099,
    -135055783910746, 51556077510276, 93482090428655, 56371109806224,
    202583675866119, 28772753963594, -95713446858485, -22900763358779,
    12331180270112, -28185554903112, -32883147386964, -39929536112742,
    709923664122137, 387786259541985, 873282442748091, -210687022900763,
    251908396946565, 309923664122138, -271755725190840, -244274809160305]

/-- The number of digits after the decimal point of the elements of `B` (test_single.cpp:31, 81–84,
139–171; some literals are shorter). -/
def inverse_digits (N : Nat) : Nat := if N = 2 then 0 else if N = 4 then 10 else 15

/-- The vector `A`; `lit m d` is the floating-point number of the literal `m * 10^-d`. -/
def inverse_vecA (lit : Int → Nat → α) (N : Nat) : Array α := (inverse_A N).map fun m => lit m 0

/-- The vector `B`, e.g. test_single.cpp:31, 81–84 and 139–171. -/
def inverse_vecB (lit : Int → Nat → α) (N : Nat) : Array α :=
  (inverse_B N).map fun m => lit m (inverse_digits N)

/-- Test cases `apply_inverse_*`, e.g. test_single.cpp:23–206 and 484–650. -/
def apply_inverse (e : Env α) (lit : Int → Nat → α) (c : Case) : ND (List Bool) := do
  let C_reference ← ND.ofM (Util.create_identity_matrix (lit 1 0) c.N)
  fixed_matrices e c (inverse_vecA lit c.N) (inverse_vecB lit c.N) C_reference

/-- Test cases of test_naive.cpp:16–108 (the check is `fabs(C[i] - C_reference[i])` against `1E-5`). -/
def apply_inverse_naive (e : Env α) (lit : Int → Nat → α) (N : Nat) : ND (List Bool) := do
  let C_reference ← ND.ofM (Util.create_identity_matrix (lit 1 0) N)
  let C ← Naive.naive_matrix_multiply N (inverse_vecA lit N) (inverse_vecB lit N)
  ND.ofM (checks e N C C_reference)

end Verif.Tests
