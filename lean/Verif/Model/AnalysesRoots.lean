import Verif.Model.RoundedMagnitude
import Verif.Model.RoundedHalfPlane
import Verif.Model.FeasibilityAnalytic
import Verif.Model.ExtremaRoots

/-
The analyses of segments and trajectories together with the root finder of the code. In `Model/RoundedMagnitude`,
`Model/RoundedHalfPlane`, `Model/Feasibility` and `Model/FeasibilityAnalytic` the root finder is a function that always returns;
here it is a call that may not return, and the functions are the same otherwise.
-/
namespace Verif

variable {K : Type}

section
variable [Zero K] [One K] [Add K] [Mul K] [Neg K] [NatCast K] [LT K] [DecidableLT K]

/-- segment.cpp:83-134, `computeMinMaxMagnitudeCandidateTimes`. -/
def Segment.candidateTimesM (lib : MagLib K) (rf : RootCall K) (s : Segment K) (d : ℤ) (tStart tEnd : K)
    (dims : List ℤ) : Res (Bool × List K) :=
  match dims with
  | [] => .ok (false, [])
  | [dim] =>
    if dim < 0 then .ub
    else do
      let p ← Res.at' s.polys dim.toNat
      p.computeMinMaxCandidatesM lib.abs lib.eps rf tStart tEnd d
  | _ =>
    let nd : ℤ := s.N - d
    let ndd : ℤ := nd - 1
    if nd + ndd - 1 < 0 then .ub
    else do
      let r ← convolvedLoop s d nd.toNat ndd.toNat dims
        (List.replicate (nd + ndd - 1).toNat 0)
      match r with
      | none => pure (false, [])
      | some c => (Poly.mk c).computeMinMaxCandidatesM lib.abs lib.eps rf tStart tEnd (-1)

/-- segment.cpp:136-159, `computeMinMaxMagnitudeCandidates`. -/
def Segment.magnitudeCandidatesM (lib : MagLib K) (rf : RootCall K) (s : Segment K) (d : ℤ)
    (tStart tEnd : K) (dims : List ℤ) : Res (Bool × List (Extremum K)) := do
  let ct ← s.candidateTimesM lib rf d tStart tEnd dims
  let es ← ct.2.mapM fun t => do
    let m ← s.squaresG lib d t dims 0
    pure (Extremum.mk t (lib.sqrt m) 0)
  pure (true, es)

/-- trajectory.cpp:201-224, the loop over the segments. -/
def minMaxMagnitudeLoopM (lib : MagLib K) (rf : RootCall K) (d : ℤ) (dims : List ℤ) :
    List (Segment K) → ℕ → Extremum K → Extremum K → Res (Bool × Extremum K × Extremum K)
  | [], _, mn, mx => .ok (true, mn, mx)
  | s :: ss, i, mn, mx => do
    let c ← s.magnitudeCandidatesM lib rf d 0 s.time dims
    if !c.1 then pure (false, mn, mx)
    else
      let r := selectMinMaxMagnitudeG lib 0 s.time c.2 Extremum.zero Extremum.zero
      if !r.1 then pure (false, mn, mx)
      else
        let mn' := if r.2.1.value < mn.value then { r.2.1 with segmentIdx := i } else mn
        let mx' := if r.2.2.value > mx.value then { r.2.2 with segmentIdx := i } else mx
        minMaxMagnitudeLoopM lib rf d dims ss (i + 1) mn' mx'

/-- trajectory.cpp:191-227, `computeMinMaxMagnitude`. -/
def Trajectory.computeMinMaxMagnitudeM (lib : MagLib K) (rf : RootCall K) (tr : Trajectory K) (d : ℤ)
    (dims : List ℤ) (mn0 mx0 : Extremum K) : Res (Bool × Extremum K × Extremum K) :=
  minMaxMagnitudeLoopM lib rf d dims tr.segments 0 { mn0 with value := lib.max }
    { mx0 with value := -lib.max }

/-- trajectory.cpp:344-361, `computeMaxVelocityAndAcceleration`. -/
def Trajectory.maxVelocityAndAccelerationM (lib : MagLib K) (rf : RootCall K) (tr : Trajectory K) :
    Res (Bool × K × K) := do
  let dims := (List.range tr.D).map fun (i : ℕ) => (i : ℤ)
  let v ← tr.computeMinMaxMagnitudeM lib rf 1 dims Extremum.zero Extremum.zero
  let a ← tr.computeMinMaxMagnitudeM lib rf 2 dims Extremum.zero Extremum.zero
  pure (v.1 && a.1, v.2.2.value, a.2.2.value)

/-- trajectory.cpp:394-427, the loop of `scaleSegmentTimesToMeetConstraints`. -/
def scaleToMeetLoopM [Div K] [LE K] [DecidableLE K] (lib : MagLib K) (lim : K) (rf : RootCall K) (vMax aMax : K) :
    ℕ → Trajectory K → Res (Bool × Trajectory K)
  | 0, tr => .ok (false, tr)
  | n + 1, tr => do
    let r ← tr.maxVelocityAndAccelerationM lib rf
    let vv := r.2.1 / vMax
    let av := r.2.2 / aMax
    if vv ≤ lim ∧ av ≤ lim then pure (true, tr)
    else scaleToMeetLoopM lib lim rf vMax aMax n (tr.scaleCore (stdMaxVal 1 (stdMaxVal vv (lib.sqrt av))))

/-- trajectory.cpp:385-429, `scaleSegmentTimesToMeetConstraints`. -/
def Trajectory.scaleToMeetConstraintsM [Div K] [LE K] [DecidableLE K] (lib : MagLib K) (lim : K) (rf : RootCall K)
    (tr : Trajectory K) (vMax aMax : K) : Res (Bool × Trajectory K) :=
  scaleToMeetLoopM lib lim rf vMax aMax 20 tr

end

section
variable [Zero K] [One K] [Add K] [Sub K] [Mul K] [Neg K] [NatCast K] [LE K] [DecidableLE K] [LT K] [DecidableLT K]

/-- feasibility_base.cpp:128-152, the loop over the half planes. -/
def halfPlaneLoopM (abs : K → K) (eps : K) (dot : Dot K) (rf : RootCall K) (s : Segment K) :
    List (HalfPlane K) → Res Bool
  | [] => .ok true
  | hp :: hps => do
    let p ← projectionG s hp.normal
    let c ← p.computeMinMaxCandidatesM abs eps rf 0 s.time 0
    let b ← candidatesInsideG dot s hp c.2
    if b then halfPlaneLoopM abs eps dot rf s hps else pure false

/-- feasibility_base.cpp:119-154, `checkHalfPlaneFeasibility(segment)`. -/
def Segment.checkHalfPlanesM (abs : K → K) (eps : K) (dot : Dot K) (rf : RootCall K) (hps : List (HalfPlane K))
    (s : Segment K) : Res Bool :=
  if s.D = 3 ∨ s.D = 4 then halfPlaneLoopM abs eps dot rf s hps else .ok false

/-- feasibility_base.cpp:109-117, `checkHalfPlaneFeasibility(trajectory)`: the loop over the segments. -/
def halfPlaneSegmentsM (abs : K → K) (eps : K) (dot : Dot K) (rf : RootCall K) (hps : List (HalfPlane K)) :
    List (Segment K) → Res Bool
  | [] => .ok true
  | s :: ss => do
    let b ← s.checkHalfPlanesM abs eps dot rf hps
    if b then halfPlaneSegmentsM abs eps dot rf hps ss else pure false

end

section
variable [Field K] [LinearOrder K]

/-- feasibility_analytic.cpp:129-172, `analyticThrustFeasibility`. -/
def analyticThrustM (rf : RootCall K) (sq : K → K) (ic : InputConstraints K) (g : Fin 3 → K)
    (s : Segment K) : Res (Verdict × List (Extremum K) × Segment K) := do
  let ts ← thrustSegment g s
  let c ← ts.magnitudeCandidatesM (fieldLib sq) rf 0 0 ts.time kPosDim
  if !c.1 then pure (.indeterminable, c.2, ts)
  else
    let low ← candidatesViolate ic kFMin (minElement c.2) fun v lim => v < lim
    if low then pure (.thrustLow, c.2, ts)
    else
      let high ← candidatesViolate ic kFMax (maxElement c.2) fun v lim => v > lim
      if high then pure (.thrustHigh, c.2, ts) else pure (.feasible, c.2, ts)

/-- feasibility_analytic.cpp:50-60, the thrust check if it is needed. -/
def thrustPartM (rf : RootCall K) (sq : K → K) (ic : InputConstraints K) (g : Fin 3 → K)
    (s : Segment K) : Res (Verdict × List (Extremum K)) :=
  if ic.hasConstraint kFMin ∨ ic.hasConstraint kFMax ∨ ic.hasConstraint kOmegaXYMax then do
    let r ← analyticThrustM rf sq ic g s
    pure (r.1, r.2.1)
  else .ok (.feasible, [])

/-- feasibility_analytic.cpp:63-80, the velocity check. -/
def analyticVelocityM (rf : RootCall K) (sq : K → K) (ic : InputConstraints K) (s : Segment K) :
    Res (Option Verdict) :=
  match ic.getConstraint kVMax with
  | none => .ok none
  | some lim => do
    let c ← s.magnitudeCandidatesM (fieldLib sq) rf 1 0 s.time kPosDim
    if !c.1 then pure (some .indeterminable)
    else do
      let e ← maxElement c.2
      pure (if e.value > lim then some .velocity else none)

/-- feasibility_recursive.cpp:98-110 and 113-125, the check of one yaw limit. -/
def yawCheckM (rf : RootCall K) (ic : InputConstraints K) (s : Segment K) (type : ℤ) (d : ℤ)
    (bad : Verdict) : Res (Option Verdict) :=
  match ic.getConstraint type with
  | none => .ok none
  | some lim => do
    let p ← s.get 3
    let m ← p.computeMinMaxM (fun x => |x|) dblEpsilon dblMax rf 0 s.time d
    match m with
    | none => pure (some .indeterminable)
    | some mm => pure (if max |mm.1.2| |mm.2.2| > lim then some bad else none)

/-- feasibility_recursive.cpp:94-127, the yaw checks. -/
def yawChecksM (rf : RootCall K) (ic : InputConstraints K) (s : Segment K) : Res (Option Verdict) :=
  if s.D = 4 then do
    match ← yawCheckM rf ic s kOmegaZMax 1 .yawRates with
    | some r => pure (some r)
    | none => yawCheckM rf ic s kOmegaZDotMax 2 .yawAcc
  else .ok none

/-- feasibility_analytic.cpp:42-127, `FeasibilityAnalytic::checkInputFeasibility`. -/
def Segment.checkAnalyticM (rf : RootCall K) (sq : K → K) (ic : InputConstraints K) (g : Fin 3 → K)
    (minSection : K) (fuel : ℕ) (s : Segment K) : Res Verdict :=
  if s.D = 3 ∨ s.D = 4 then
    if s.N < 2 then .ub
    else do
      let t ← thrustPartM rf sq ic g s
      if t.1 ≠ .feasible then pure t.1
      else
        match ← analyticVelocityM rf sq ic s with
        | some r => pure r
        | none =>
          match ← yawChecksM rf ic s with
          | some r => pure r
          | none =>
            if ic.hasConstraint kOmegaXYMax then do
              let j ← s.magnitudeCandidatesM (fieldLib sq) rf 3 0 s.time kPosDim
              if !j.1 then pure .indeterminable
              else recursiveRollPitch sq ic minSection t.2 j.2 fuel 0 s.time
            else pure .feasible
  else .ok .indeterminable

/-- feasibility_recursive.cpp:51-83, one of the loops finding the roots. -/
def rootsLoopM (rf : RootCall K) (s : Segment K) (d : ℤ) :
    List ℕ → List (List (K × K)) → Res (Option (List (List (K × K))))
  | [], acc => .ok (some acc)
  | i :: is, acc => do
    let p ← s.get i
    let c ← p.getCoefficients d
    let r ← rf c
    if r.1 then rootsLoopM rf s d is (acc ++ [r.2]) else pure none

/-- feasibility_recursive.cpp:42-131, `FeasibilityRecursive::checkInputFeasibility`. -/
def Segment.checkRecursiveM (rf : RootCall K) (sq : K → K) (ic : InputConstraints K) (g : Fin 3 → K)
    (minSection : K) (fuel : ℕ) (s : Segment K) : Res Verdict :=
  if s.D = 3 ∨ s.D = 4 then do
    match ← (if ic.hasConstraint kVMax then rootsLoopM rf s 2 [0, 1, 2] [] else .ok (some [])) with
    | none => pure .indeterminable
    | some ra =>
      match ← (if ic.hasConstraint kFMin ∨ ic.hasConstraint kFMax ∨ ic.hasConstraint kOmegaXYMax then
          rootsLoopM rf s 3 [0, 1, 2] [] else .ok (some [])) with
      | none => pure .indeterminable
      | some rj =>
        match ← (if ic.hasConstraint kOmegaXYMax then rootsLoopM rf s 4 [0, 1, 2] []
            else .ok (some [])) with
        | none => pure .indeterminable
        | some rs =>
          let r ← recursiveFeasibility sq ic g minSection s ra rj rs fuel 0 s.time
          if r ≠ .feasible then pure r
          else
            match ← yawChecksM rf ic s with
            | some r => pure r
            | none => pure .feasible
  else .ok .indeterminable

end

end Verif
