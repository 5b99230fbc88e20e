import Verif.Model.DoubleChecks

/-
Sampling a range of a trajectory with the numbers of `double`.
-/
namespace Verif

/-- trajectory.cpp:85, the conversion of a `double` to `size_t`: the fraction is dropped; undefined for NaN, the
infinities and numbers whose integer part is not a `size_t` (64 bits). -/
noncomputable def Dbl.toSize (a : Dbl) : Res ℕ :=
  match a with
  | .fin x => if -1 < x ∧ x < 2 ^ 64 then .ok ⌊x⌋.toNat else .ub
  | _ => .ub

/-- trajectory.cpp:95-140, `evaluateRange` after memory is reserved: the segment of the start time, nothing when the
start is beyond the end (lines 111-115), and the loop from the start of the segment. -/
noncomputable def Trajectory.rangeFrom (fuel : ℕ) (tr : Trajectory Dbl) (tStart tEnd dt : Dbl) (d : ℤ) :
    Res (List (Dbl × List Dbl)) :=
  let r := findSegment tStart tr.segments 0 0
  if tStart > r.2 then .ok []
  else do
    let s ← Res.at' tr.segments r.1
    evaluateRangeLoop tr.segments tEnd dt d fuel r.1 (r.2 - s.time) (tStart - (r.2 - s.time))

/-- trajectory.cpp:81-141, `evaluateRange`; `fuel` bounds the number of loop iterations, `room` is the largest number of
elements for which `reserve` (lines 87-93) does not throw. -/
noncomputable def Trajectory.evaluateRangeDbl (room fuel : ℕ) (tr : Trajectory Dbl) (tStart tEnd dt : Dbl) (d : ℤ) :
    Res (List (Dbl × List Dbl)) := do
  let n ← ((tEnd - tStart) / dt + 1).toSize
  if room < n then .throws else tr.rangeFrom fuel tStart tEnd dt d

/-- trajectory_sampling.cpp:45-67, the first part of `sampleTrajectoryInRange`: `none` when it returns false, else the
sampled positions. The other derivatives and the assembly of the states are left out. -/
noncomputable def samplePositionsDbl (room fuel : ℕ) (tr : Trajectory Dbl) (tMin tMax dt : Dbl) :
    Res (Option (List (Dbl × List Dbl))) :=
  if tMin < 0 ∨ tMax > tr.maxTime then .ok none
  else if tr.D < 3 then .ok none
  else do
    let p ← tr.evaluateRangeDbl room fuel tMin tMax dt 0
    pure (some p)

end Verif
