import Verif.Model.Vertex

/-
Model of the numerical helpers in mav_trajectory_generation/include/mav_trajectory_generation/test_utils.h,
a public header. For `createRandomDouble` and `checkMatrices` see `Model/TestHelpers`.
-/
namespace Verif

variable {K : Type} [Field K] [LinearOrder K]

/-- test_utils.h:47-52, the loop of `getMaximumMagnitude`: the arguments are `ts` and `maximum`; `fuel` bounds
the number of iterations. -/
def maximumMagnitudeLoop (sq : K → K) (tr : Trajectory K) (d : ℕ) (dt : K) : ℕ → K → K → Res K
  | 0, _, _ => .hang
  | fuel + 1, ts, maximum =>
    if ts < tr.maxTime then do
      let v ← tr.evaluate ts d
      let currentValue := vecNorm sq v
      maximumMagnitudeLoop sq tr d dt fuel (ts + dt) (if maximum < currentValue then currentValue else maximum)
    else .ok maximum

/-- test_utils.h:43-54, `getMaximumMagnitude`. -/
def getMaximumMagnitude (fuel : ℕ) (sq : K → K) (tr : Trajectory K) (d : ℕ) (dt : K) : Res K :=
  maximumMagnitudeLoop sq tr d dt fuel 0 (-10 ^ 9)

/-- test_utils.h:60-62, the loop of `computeCostNumeric`: the arguments are `ts` and `cost`. -/
def costNumericLoop (tr : Trajectory K) (d : ℕ) (dt : K) : ℕ → K → K → Res K
  | 0, _, _ => .hang
  | fuel + 1, ts, cost =>
    if ts < tr.maxTime then do
      let v ← tr.evaluate ts d
      costNumericLoop tr d dt fuel (ts + dt) (cost + (v.map (· ^ 2)).sum * dt)
    else .ok cost

/-- test_utils.h:56-64, `computeCostNumeric`. -/
def computeCostNumeric (fuel : ℕ) (tr : Trajectory K) (d : ℕ) (dt : K) : Res K :=
  costNumericLoop tr d dt fuel 0 0

end Verif
