import Verif.Model.Trajectory

/-
Model of mav_trajectory_generation_ros/src/ros_conversions.cpp.

The message types and their conversion from and to `mav_planning_msgs::EigenPolynomialSegment` are not
part of the repository: a message segment is an abstract type `M`, the conversions are parameters.
-/
namespace Verif

variable {K M : Type}

/-- `mav_planning_msgs::EigenPolynomialSegment`. -/
structure EigenSeg (K : Type) where
  x : List K
  y : List K
  z : List K
  yaw : List K := []
  rx : List K := []
  ry : List K := []
  rz : List K := []
  numCoeffs : ℕ
  timeNs : ℕ
  deriving DecidableEq, Repr

/-- `polynomialSegmentMsgFromEigen` and `eigenPolynomialSegmentFromMsg` of mav_planning_msgs. -/
structure MsgConv (K M : Type) where
  toMsg : EigenSeg K → M
  fromMsg : M → EigenSeg K

/-- The coefficients of dimension `i` of a segment. -/
def Segment.coeffsOf [Zero K] [One K] [Mul K] [NatCast K] (s : Segment K) (i : ℕ) : Res (List K) := do
  let p ← s.get i
  p.getCoefficients 0

section Write
variable [Field K] [LinearOrder K] [IsStrictOrderedRing K] [FloorRing K]

/-- ros_conversions.cpp:48-62, the message segment for a segment with 3, 4 or 6 dimensions. -/
def eigenSegOf (s : Segment K) : Res (EigenSeg K) := do
  let x ← s.coeffsOf 0
  let y ← s.coeffsOf 1
  let z ← s.coeffsOf 2
  let e : EigenSeg K := { x := x, y := y, z := z, numCoeffs := 0, timeNs := 0 }
  let e ← if s.D = 4 then do
      let c ← s.coeffsOf 3
      pure { e with yaw := c }
    else if s.D = 6 then do
      let a ← s.coeffsOf 3
      let b ← s.coeffsOf 4
      let c ← s.coeffsOf 5
      pure { e with rx := a, ry := b, rz := c }
    else pure e
  let ns ← s.getTimeNSec
  pure { e with numCoeffs := s.N, timeNs := ns }

/-- ros_conversions.cpp:36-66 (and 121-147): the loop over the segments; `none` when it was left
because of the dimension. -/
def toMsgLoop (mc : MsgConv K M) (allowed : List ℕ) : List (Segment K) → Res (Option (List M))
  | [] => .ok (some [])
  | s :: ss =>
    if s.D ∉ allowed then .ok none
    else do
      let e ← eigenSegOf s
      let r ← toMsgLoop mc allowed ss
      pure (r.map fun l => mc.toMsg e :: l)

/-- ros_conversions.cpp:25-70, `trajectoryToPolynomialTrajectoryMsg`: the returned flag and the
segments of the message. -/
def trajectoryToMsg (mc : MsgConv K M) (tr : Trajectory K) : Res (Bool × List M) := do
  let r ← toMsgLoop mc [3, 4, 6] tr.segments
  match r with
  | none => pure (false, [])
  | some l => pure (true, l)

/-- ros_conversions.cpp:110-150, the version for `PolynomialTrajectory4D`. -/
def trajectoryToMsg4D (mc : MsgConv K M) (tr : Trajectory K) : Res (Bool × List M) := do
  let r ← toMsgLoop mc [3, 4] tr.segments
  match r with
  | none => pure (false, [])
  | some l => pure (true, l)

end Write

section Read
variable [Field K]

/-- `segment[i].setCoefficients(c)` -/
def Segment.setCoeffs (s : Segment K) (i : ℕ) (c : List K) : Res (Segment K) := do
  let p ← s.get i
  let p' ← p.setCoefficients c
  s.set i p'

/-- ros_conversions.cpp:80-103, one segment. `six` tells whether the message type has a rotation
vector (it is ignored in the 4D version, 161-175). -/
def segmentOfEigen (six : Bool) (e : EigenSeg K) : Res (Segment K) := do
  let D := if six ∧ e.rx.length > 0 ∧ e.ry.length > 0 ∧ e.rz.length > 0 then 6
    else if e.yaw.length > 0 then 4 else 3
  let s : Segment K := Segment.mkZero e.x.length D
  let s ← s.setCoeffs 0 e.x
  let s ← s.setCoeffs 1 e.y
  let s ← s.setCoeffs 2 e.z
  let s ← if D = 4 then s.setCoeffs 3 e.yaw
    else if D = 6 then do
      let s ← s.setCoeffs 3 e.rx
      let s ← s.setCoeffs 4 e.ry
      s.setCoeffs 5 e.rz
    else pure s
  pure (s.setTimeNSec e.timeNs)

/-- ros_conversions.cpp:73-108, `polynomialTrajectoryMsgToTrajectory` (it always returns true). -/
def msgToTrajectory (mc : MsgConv K M) (msg : List M) : Res (Trajectory K) := do
  let segs ← msg.mapM fun m => segmentOfEigen true (mc.fromMsg m)
  Trajectory.setSegments segs

/-- ros_conversions.cpp:153-180, the version for `PolynomialTrajectory4D`. -/
def msg4DToTrajectory (mc : MsgConv K M) (msg : List M) : Res (Trajectory K) := do
  let segs ← msg.mapM fun m => segmentOfEigen false (mc.fromMsg m)
  Trajectory.setSegments segs

end Read
end Verif
