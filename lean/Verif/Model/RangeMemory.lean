import Mathlib.Algebra.Order.Floor.Ring
import Verif.Model.Trajectory

/-
The first lines of `evaluateRange`, which reserve memory for the samples.
-/
namespace Verif

variable {K : Type} [Field K] [LinearOrder K] [IsStrictOrderedRing K] [FloorRing K]

/-- trajectory.cpp:85-93, before the loops of `evaluateRange`: the conversion of the expected number of samples to
`size_t`, which is undefined outside of its range, and `reserve`, which throws when more than `room` elements are asked
for (`max_size()`, or what the allocator can give; one number for both vectors). The rest is `Trajectory.evaluateRange`. -/
def Trajectory.evaluateRangeMem (room fuel : ℕ) (tr : Trajectory K) (tStart tEnd dt : K) (d : ℤ) :
    Res (List (K × List K)) :=
  if dt = 0 ∨ (tEnd - tStart) / dt + 1 ≤ -1 ∨ 2 ^ 64 ≤ (tEnd - tStart) / dt + 1 then .ub
  else if room < ⌊(tEnd - tStart) / dt + 1⌋.toNat then .throws
  else tr.evaluateRange fuel tStart tEnd dt d

end Verif
