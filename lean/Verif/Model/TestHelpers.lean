import Verif.Model.Double

/-
Model of the remaining helpers of mav_trajectory_generation/include/mav_trajectory_generation/test_utils.h, a public
header: random numbers and the comparison of matrices.
-/
namespace Verif

/-- test_utils.h:31-35, `createRandomDouble(min, max)`; `quotient` is `double(std::rand()) / double(RAND_MAX)`. Asks of the
numbers the operations only, so that it runs with `Dbl` as well. -/
def createRandomDouble {K : Type} [Add K] [Sub K] [Mul K] (min max quotient : K) : K := (max - min) * quotient + min

/-- test_utils.h:32-33, the quotient of `std::rand() = k` and `RAND_MAX = r` in double arithmetic. Both are `int`, so that
the conversions are exact; one division, rounded. -/
noncomputable def randomQuotient (k r : ℕ) : Dbl := .ofReal ((k : ℝ) / r)

/-- test_utils.h:37-41, `checkMatrices`, the matrices as lists of rows. Eigen asserts that the sizes are equal, and, in
`maxCoeff`, that there is an entry; undefined behaviour without assertions. The order in which `maxCoeff` visits the
entries is row by row here; exact numbers, without NaN. -/
def checkMatrices {K : Type} [Field K] [LinearOrder K] (m1 m2 : List (List K)) (tol : K) : Res Bool :=
  if m1.map List.length = m2.map List.length then
    match (List.zipWith (List.zipWith fun a b => |a - b|) m1 m2).flatten with
    | [] => .ub
    | x :: xs => .ok (decide (xs.foldl max x < tol))
  else .ub

end Verif
