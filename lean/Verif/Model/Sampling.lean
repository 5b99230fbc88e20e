import Verif.Model.Trajectory

/-
Model of mav_trajectory_generation/src/trajectory_sampling.cpp and of `sampledTrajectoryStatesToFile`
(io.cpp).

A `mav_msgs::EigenTrajectoryPoint` is modelled by the numbers that are written into it. The attitude is
kept as what the setters and conversion functions of mav_msgs (not part of the repository) are called
with.
-/
namespace Verif

variable {K : Type}

/-- What is written to the orientation, angular velocity and angular acceleration of a state: nothing,
a yaw angle with its first two derivatives (`setFromYaw`, `setFromYawRate`, `setFromYawAcc`), or a
rotation vector with its first two derivatives. The degrees of freedom are DOF6 in the last case and
DOF4 otherwise. -/
inductive Attitude (K : Type) where
  | unchanged
  | yaw (y rate acc : K)
  | rotation (r r' r'' : List K)
  deriving DecidableEq, Repr

/-- The fields of `mav_msgs::EigenTrajectoryPoint` that the sampling functions write. -/
structure State (K : Type) where
  position : List K
  velocity : List K
  acceleration : List K
  jerk : List K
  snap : List K
  attitude : Attitude K
  timeNs : ℤ
  deriving DecidableEq, Repr

/-- `head(3)` of an Eigen vector. -/
def head3 (v : List K) : Res (List K) := if v.length < 3 then .ub else .ok (v.take 3)

/-- `tail(3)` of an Eigen vector. -/
def tail3 (v : List K) : Res (List K) := if v.length < 3 then .ub else .ok (v.drop (v.length - 3))

/-- The attitude part of a state, trajectory_sampling.cpp:160-177 (and 87-107), for the given number of
dimensions and the values of the derivatives 0, 1, 2. -/
def attitudeOf (D : ℕ) (p v a : List K) : Res (Attitude K) :=
  if D = 4 then do
    let y ← Res.at' p 3
    let y' ← Res.at' v 3
    let y'' ← Res.at' a 3
    pure (.yaw y y' y'')
  else if D = 6 then do
    let r ← tail3 p
    let r' ← tail3 v
    let r'' ← tail3 a
    pure (.rotation r r' r'')
  else .ok .unchanged

section Order
variable [Field K] [LinearOrder K] [IsStrictOrderedRing K] [FloorRing K]

/-- `static_cast<int64_t>(t * 1e9)`: truncation towards zero, undefined out of range. -/
def toNSec (t : K) : Res ℤ :=
  let x := t * 10 ^ 9
  if x ≤ -2 ^ 63 - 1 ∨ (2 ^ 63 : K) ≤ x then .ub
  else .ok (if 0 ≤ x then ⌊x⌋ else -⌊-x⌋)

/-- trajectory_sampling.cpp:141-182, `sampleFlatStateAtTime` for an object with `D` dimensions and the
function `evaluate`: `none` when it returns false. -/
def sampleFlatState (D : ℕ) (evaluate : K → ℤ → Res (List K)) (t : K) : Res (Option (State K)) :=
  if D < 3 then .ok none
  else do
    let p ← evaluate t 0
    let v ← evaluate t 1
    let a ← evaluate t 2
    let p3 ← head3 p
    let v3 ← head3 v
    let a3 ← head3 a
    let j ← evaluate t 3
    let j3 ← head3 j
    let s ← evaluate t 4
    let s3 ← head3 s
    let att ← attitudeOf D p v a
    let ns ← toNSec t
    pure (some ⟨p3, v3, a3, j3, s3, att, ns⟩)

/-- trajectory_sampling.cpp:27-43, `sampleTrajectoryAtTime`: `none` when it returns false.
`getMinTime()` is 0 (trajectory.h:81). -/
def sampleTrajectoryAtTime (tr : Trajectory K) (t : K) : Res (Option (State K)) :=
  if t < 0 ∨ t > tr.maxTime then .ok none
  else if tr.D < 3 then .ok none
  else sampleFlatState tr.D tr.evaluate t

/-- trajectory_sampling.cpp:129-139, `sampleSegmentAtTime`: `none` when it returns false. -/
def sampleSegmentAtTime (s : Segment K) (t : K) : Res (Option (State K)) :=
  if t < 0 ∨ t > s.time then .ok none else sampleFlatState s.D s.evaluate t

/-- trajectory_sampling.cpp:75-107, the state number `i` of a range, from the five sampled lists. -/
def rangeState (D : ℕ) (tMin dt : K) (p v a j s : List (K × List K)) (i : ℕ) : Res (State K) := do
  let pi ← Res.at' p i
  let vi ← Res.at' v i
  let ai ← Res.at' a i
  let ji ← Res.at' j i
  let si ← Res.at' s i
  let p3 ← head3 pi.2
  let v3 ← head3 vi.2
  let a3 ← head3 ai.2
  let j3 ← head3 ji.2
  let s3 ← head3 si.2
  let ns ← toNSec (tMin + dt * i)
  let att ← attitudeOf D pi.2 vi.2 ai.2
  pure ⟨p3, v3, a3, j3, s3, att, ns⟩

/-- trajectory_sampling.cpp:45-110, `sampleTrajectoryInRange`: `none` when it returns false. `fuel`
bounds the loop iterations of each `evaluateRange`. -/
def sampleTrajectoryInRange (fuel : ℕ) (tr : Trajectory K) (tMin tMax dt : K) :
    Res (Option (List (State K))) :=
  if tMin < 0 ∨ tMax > tr.maxTime then .ok none
  else if tr.D < 3 then .ok none
  else do
    let p ← tr.evaluateRange fuel tMin tMax dt 0
    let v ← tr.evaluateRange fuel tMin tMax dt 1
    let a ← tr.evaluateRange fuel tMin tMax dt 2
    let j ← tr.evaluateRange fuel tMin tMax dt 3
    let s ← tr.evaluateRange fuel tMin tMax dt 4
    let states ← (List.range p.length).mapM fun i => rangeState tr.D tMin dt p v a j s i
    pure (some states)

/-- trajectory_sampling.cpp:112-117, `sampleTrajectoryStartDuration`. -/
def sampleTrajectoryStartDuration (fuel : ℕ) (tr : Trajectory K) (start duration dt : K) :
    Res (Option (List (State K))) :=
  sampleTrajectoryInRange fuel tr start (start + duration) dt

/-- trajectory_sampling.cpp:119-127, `sampleWholeTrajectory`. -/
def sampleWholeTrajectory (fuel : ℕ) (tr : Trajectory K) (dt : K) : Res (Option (List (State K))) :=
  sampleTrajectoryInRange fuel tr 0 tr.maxTime dt

/-- io.cpp:261-268, the loop that writes the accumulated segment times into the last column of the
output matrix, row by row; the second argument holds the rows with their last column, `j` is the next
row. Writing to a row that does not exist is undefined behaviour. -/
def writeSegmentTimes : List (Segment K) → List (State K × K) → ℕ → K → Res (List (State K × K))
  | [], rows, _, _ => .ok rows
  | s :: ss, rows, j, acc =>
    if j < rows.length then
      writeSegmentTimes ss (rows.modify j fun r => (r.1, acc + s.time)) (j + 1) (acc + s.time)
    else .ub

/-- io.cpp:221-279, `sampledTrajectoryStatesToFile`: the returned flag and, if the file was written,
the rows of the output matrix: the sampled state and the entry of the last column. -/
def sampledTrajectoryStatesToFile (fuel : ℕ) (canOpen : Bool) (tr : Trajectory K) :
    Res (Bool × Option (List (State K × K))) := do
  let r ← sampleWholeTrajectory fuel tr (1 / 100)
  match r with
  | none => pure (false, none)
  | some states => do
    let rows ← writeSegmentTimes tr.segments (states.map fun s => (s, 0)) 0 0
    if canOpen then pure (true, some rows) else pure (false, none)

end Order
end Verif
