import Verif.Model.Segment

/-
Model of mav_trajectory_generation/include/mav_trajectory_generation/trajectory.h and
mav_trajectory_generation/src/trajectory.cpp (the magnitude functions are in
`Verif.Model.Magnitude`, the vertex functions in `Verif.Model.Vertex`).
-/
namespace Verif

variable {K : Type}

/-- trajectory.h:32-150, class `Trajectory` with its four members. -/
structure Trajectory (K : Type) where
  D : ℕ
  N : ℕ
  maxTime : K
  segments : List (Segment K)
  deriving DecidableEq, Repr

/-- trajectory.h:34, the default constructor, and the state after `clear()` (47-52). -/
def Trajectory.empty [Zero K] : Trajectory K := ⟨0, 0, 0, []⟩

/-- trajectory.h:44, `K()`. (The conversion of the size to `int` is not modelled.) -/
def Trajectory.K' (tr : Trajectory K) : ℕ := tr.segments.length

/-- trajectory.h:66-70, the loop of `addSegments`: checks and the accumulation of `max_time_`. -/
def addSegmentsLoop [Add K] (D N : ℕ) : List (Segment K) → K → Res K
  | [], m => .ok m
  | s :: ss, m => do
    Res.check (s.D = D)
    Res.check (s.N = N)
    addSegmentsLoop D N ss (m + s.time)

/-- trajectory.h:65-72, `addSegments`. -/
def Trajectory.addSegments [Add K] (tr : Trajectory K) (segs : List (Segment K)) :
    Res (Trajectory K) := do
  let m ← addSegmentsLoop tr.D tr.N segs tr.maxTime
  pure { tr with maxTime := m, segments := tr.segments ++ segs }

/-- trajectory.h:54-63, `setSegments` (the previous contents are dropped). -/
def Trajectory.setSegments [Zero K] [Add K] (segs : List (Segment K)) : Res (Trajectory K) :=
  match segs with
  | [] => .abort
  | s :: _ => Trajectory.addSegments ⟨s.D, s.N, 0, []⟩ segs

/-- trajectory.cpp:229-235, `getSegmentTimes`. -/
def Trajectory.getSegmentTimes (tr : Trajectory K) : List K := tr.segments.map (·.time)

/-- `std::vector<Segment>` comparison of two vectors of the same size (trajectory.cpp:40). -/
def segmentsEqLoop [DecidableEq K] : List (Segment K) → List (Segment K) → Res Bool
  | s :: ss, r :: rs => do
    let b ← s.beq r
    if b then segmentsEqLoop ss rs else pure false
  | _, _ => .ok true

/-- trajectory.cpp:34-46, `operator==`. The loop over `i` repeats the same comparison of the whole
vectors, so one comparison is enough. -/
def Trajectory.beq [DecidableEq K] (a b : Trajectory K) : Res Bool :=
  if a.segments.length ≠ b.segments.length then .ok false
  else segmentsEqLoop a.segments b.segments

/-- trajectory.cpp:143-159, `getTrajectoryWithSingleDimension`. A negative dimension is converted to
a huge `size_t` for `operator[]`, whose CHECK fails. The new segments keep the time 0 of the
constructor `Segment(N_, 1)`. -/
def Trajectory.withSingleDimension [Zero K] [Add K] (tr : Trajectory K) (d : ℤ) :
    Res (Trajectory K) := do
  Res.check (d < tr.D)
  let segs ← tr.segments.mapM fun s => do
    Res.check (0 ≤ d)
    let p ← s.get d.toNat
    (Segment.mkZero tr.N 1).set 0 p
  Trajectory.setSegments segs

section Operations
variable [Zero K] [One K] [Add K] [Sub K] [Mul K] [NatCast K] [LT K] [DecidableLT K]

/-- The search loops trajectory.cpp:52-64 and 98-110: the index where the loop stops and the
accumulated time. -/
def findSegment (t : K) : List (Segment K) → K → ℕ → ℕ × K
  | [], acc, i => (i, acc)
  | s :: ss, acc, i =>
    if acc + s.time > t then (i, acc + s.time) else findSegment t ss (acc + s.time) (i + 1)

/-- trajectory.cpp:48-79, `evaluate`. For an empty segment list `segments_.size() - 1` wraps around
and `segments_[i]` is out of bounds; here `at'` on the empty list is `ub` as well. -/
def Trajectory.evaluate (tr : Trajectory K) (t : K) (d : ℤ) : Res (List K) :=
  let r := findSegment t tr.segments 0 0
  if t > r.2 then .ok (List.replicate tr.D 0)
  else do
    let i := if r.1 ≥ tr.segments.length then tr.segments.length - 1 else r.1
    let s ← Res.at' tr.segments i
    s.evaluate (t - (r.2 - s.time)) d

/-- trajectory.cpp:121-140, the sampling loop of `evaluateRange`; the results are pairs of the
pushed sampling time and the pushed sample. -/
def evaluateRangeLoop (segs : List (Segment K)) (tEnd dt : K) (d : ℤ) :
    ℕ → ℕ → K → K → Res (List (K × List K))
  | 0, _, _, _ => .hang
  | fuel + 1, i, acc, tis =>
    if acc < tEnd then do
      let s ← Res.at' segs i
      if tis > s.time then
        if i + 1 ≥ segs.length then pure []
        else evaluateRangeLoop segs tEnd dt d fuel (i + 1) acc (tis - s.time)
      else do
        let v ← s.evaluate tis d
        let rest ← evaluateRangeLoop segs tEnd dt d fuel i (acc + dt) (tis + dt)
        pure ((acc, v) :: rest)
    else .ok []

variable [Div K] [Neg K] [LE K] [DecidableLE K] [DecidableEq K]

/-- trajectory.cpp:81-141, `evaluateRange`; `fuel` bounds the number of loop iterations. The
conversion of `(t_end - t_start) / dt + 1` to `size_t` (line 85) is undefined for `dt = 0` and when
the value is at most -1; the memory limit of `reserve` is not modelled. -/
def Trajectory.evaluateRange (fuel : ℕ) (tr : Trajectory K) (tStart tEnd dt : K) (d : ℤ) :
    Res (List (K × List K)) :=
  if dt = 0 ∨ (tEnd - tStart) / dt + 1 ≤ -1 then .ub
  else
    let r := findSegment tStart tr.segments 0 0
    if tStart > r.2 then .ok []
    else do
      let s ← Res.at' tr.segments r.1
      evaluateRangeLoop tr.segments tEnd dt d fuel r.1 (r.2 - s.time) (tStart - (r.2 - s.time))

end Operations

section Order
variable [Field K] [LinearOrder K]

/-- trajectory.cpp:178-185, the loop over the segments of both trajectories. -/
def appendDimLoop : List (Segment K) → List (Segment K) → Option (List (Segment K))
  | s :: ss, a :: as => do
    let n ← s.withAppendedDimension a
    let rest ← appendDimLoop ss as
    some (n :: rest)
  | _, _ => some []

/-- trajectory.cpp:161-189, `getTrajectoryWithAppendedDimension`: `none` when it returns false. -/
def Trajectory.withAppendedDimension (tr a : Trajectory K) : Res (Option (Trajectory K)) :=
  if tr.N = 0 ∨ tr.D = 0 then .ok (some a)
  else if a.N = 0 ∨ a.D = 0 then .ok (some tr)
  else do
    Res.check (tr.segments.length = a.segments.length)
    match appendDimLoop tr.segments a.segments with
    | none => pure none
    | some segs => do
      let r ← Trajectory.setSegments segs
      pure (some r)

/-- trajectory.cpp:243-257, the loop of `addTrajectories`, `merged` being the output argument. -/
def addTrajectoriesLoop (D N : ℕ) : List (Trajectory K) → Trajectory K → Res (Bool × Trajectory K)
  | [], merged => .ok (true, merged)
  | t :: ts, merged =>
    if t.D ≠ D ∨ t.N ≠ N then .ok (false, merged)
    else do
      let m ← merged.addSegments t.segments
      addTrajectoriesLoop D N ts m

/-- trajectory.cpp:237-260, `addTrajectories` where the output is a different object from `*this`:
the returned flag and the output. -/
def Trajectory.addTrajectories (tr : Trajectory K) (ts : List (Trajectory K)) :
    Res (Bool × Trajectory K) :=
  addTrajectoriesLoop tr.D tr.N ts tr

/-- trajectory.cpp:237-260, `addTrajectories` called with `merged == this`: line 240 clears the
trajectory before line 241 copies it onto itself, and `D_`, `N_` are the cleared ones. -/
def Trajectory.addTrajectoriesAliased (_tr : Trajectory K) (ts : List (Trajectory K)) :
    Res (Bool × Trajectory K) :=
  addTrajectoriesLoop 0 0 ts Trajectory.empty

/-- trajectory.cpp:268-271, the loop of `offsetTrajectory`; it stops at the first segment that
reports failure. -/
def offsetLoop (o : List K) : List (Segment K) → Bool × List (Segment K)
  | [] => (true, [])
  | s :: ss =>
    let r := s.offset o
    if r.1 then
      let rest := offsetLoop o ss
      (rest.1, r.2 :: rest.2)
    else (false, r.2 :: ss)

/-- trajectory.cpp:262-274, `offsetTrajectory`: the returned flag and the resulting trajectory. -/
def Trajectory.offset (tr : Trajectory K) (o : List K) : Bool × Trajectory K :=
  if o.length < min tr.D 3 then (false, tr)
  else
    let r := offsetLoop o tr.segments
    (r.1, { tr with segments := r.2 })

end Order

/-- trajectory.cpp:369-376 (and 418-425), scaling of one segment. -/
def Segment.scaleTime [One K] [Mul K] [Div K] (s : Segment K) (scaling : K) : Segment K :=
  ⟨s.polys.map fun p => p.scaleInTime (1 / scaling), s.time * scaling, s.N⟩

/-- trajectory.cpp:367-377 (and 416-426), scaling of all segments and of the duration. -/
def Trajectory.scaleCore [Zero K] [One K] [Add K] [Mul K] [Div K] (tr : Trajectory K) (scaling : K) : Trajectory K :=
  let segs := tr.segments.map fun s => s.scaleTime scaling
  { tr with segments := segs, maxTime := (segs.map (·.time)).foldl (· + ·) 0 }

section Order
variable [Field K] [LinearOrder K]

/-- trajectory.cpp:363-380, `scaleSegmentTimes`: the returned flag and the resulting trajectory. -/
def Trajectory.scaleSegmentTimes (tr : Trajectory K) (scaling : K) : Bool × Trajectory K :=
  if scaling < 1 / 10 ^ 6 then (false, tr) else (true, tr.scaleCore scaling)

end Order
end Verif
