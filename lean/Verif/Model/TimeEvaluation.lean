import Verif.Model.ExamplePlanner
import Verif.Model.Sampling
import Verif.Model.Timing

/-
Model of mav_trajectory_generation_ros/src/time_evaluation_node.cpp ("te"): class `TimeEvaluationNode`, which
compares methods of allocating segment times. Vectors are lists of numbers. Not modelled: publishers and parameters
of ROS, log and debug output, and the text of the results (`outputResultsToString`, `outputResultsToFile`).

A division by zero gives inf or NaN in C++. Where the code does nothing about it, such a value is `none` here.
-/
namespace Verif

variable {K : Type}

/-- te:19-39, `TimeAllocationBenchmarkResult`. -/
structure BenchResult (K : Type) where
  trialNumber : ℤ
  methodName : String
  numSegments : ℤ
  nominalLength : K
  success : ℤ
  boundsViolated : Bool
  trajectoryTime : K
  trajectoryLength : K
  computationTime : K
  vMax : K
  aMax : K
  cost : K
  maxDist : K
  area : Option K
  deriving DecidableEq, Repr

/-- te:19-39, the initial values. -/
def BenchResult.default [Zero K] : BenchResult K := ⟨-1, "none", 0, 0, 0, false, 0, 0, 0, 0, 0, 0, 0, some 0⟩

/-- The members `v_max_` and `a_max_` (te:111-112) and `max_derivative_order_` (te:115). -/
structure BenchSettings (K : Type) where
  vMax : K
  aMax : K
  order : ℤ

section Order
variable [Field K] [LinearOrder K]

/-- An Eigen vector of any size assigned to one of size three. -/
def vec3 (v : List K) : Res (List K) := if v.length = 3 then .ok v else .ub

/-- te:793-807, `computePathLength`: the loop; `last` is the previous point, if there is one. -/
def pathLengthLoop (sq : K → K) : Option (List K) → List (List K) → K → Res K
  | _, [], acc => .ok acc
  | none, p :: ps, acc => pathLengthLoop sq (some p) ps acc
  | some l, p :: ps, acc => do
    let d ← vecSub p l
    pathLengthLoop sq (some p) ps (acc + vecNorm sq d)

/-- te:793-807, `computePathLength`. -/
def computePathLength (sq : K → K) (path : List (State K)) : Res K :=
  pathLengthLoop sq none (path.map (·.position)) 0

/-- te:782-791, `computePointLineDistance`, for three vectors of size three: `none` (NaN) if B = C. -/
def computePointLineDistance (sq : K → K) (A B C : List K) : Option K :=
  let n := vecNorm sq (List.zipWith (· - ·) C B)
  if n = 0 then none
  else
    let d := (List.zipWith (· - ·) C B).map (· / n)
    let v := List.zipWith (· - ·) A B
    let t := (List.zipWith (· * ·) v d).sum
    let P := List.zipWith (· + ·) B (d.map (t * ·))
    some (vecNorm sq (List.zipWith (· - ·) P A))

/-- te:684-688, the variables of the loops. -/
structure Deviation (K : Type) where
  point : List K
  dist : Option K
  maxDist : K
  area : Option K

/-- te:696-710, the loop over the samples of one segment; `fuel` bounds the iterations. -/
def deviationLoop (sq : K → K) (s : Segment K) (start stop : List K) : ℕ → K → Deviation K → Res (Deviation K)
  | 0, _, _ => .hang
  | fuel + 1, t, st =>
    if t < s.time then do
      let v ← s.evaluate t 0
      let p ← vec3 v
      let d := computePointLineDistance sq p start stop
      let m := match d with
        | some x => if x > st.maxDist then x else st.maxDist
        | none => st.maxDist
      let a := match st.area, d, st.dist with
        | some a, some x, some y => some (a + 1 / 2 * (x + y) * vecNorm sq (List.zipWith (· - ·) p st.point))
        | _, _, _ => none
      deviationLoop sq s start stop fuel (t + 1 / 100) ⟨p, d, m, a⟩
    else .ok st

/-- te:689-711, the loop over the segments. -/
def deviationSegments (fuel : ℕ) (sq : K → K) : List (Segment K) → Deviation K → Res (Deviation K)
  | [], st => .ok st
  | s :: ss, st => do
    let v0 ← s.evaluate 0 0
    let start ← vec3 v0
    let v1 ← s.evaluate s.time 0
    let stop ← vec3 v1
    let st' ← deviationLoop sq s start stop fuel 0 { st with point := start }
    deviationSegments fuel sq ss st'

/-- te:162-177, the nominal length of the vertices. A vector stays empty when there is no position; `head(3)`
of it is undefined. -/
def nominalLengthLoop (sq : K → K) : List (Vertex K) → K → Res K
  | [], acc => .ok acc
  | v :: vs, acc =>
    if vs.isEmpty then .ok acc
    else do
      let start := (v.getConstraint 0).getD []
      let stop := (vs.findSome? (·.getConstraint 0)).getD []
      let e ← head3 stop
      let s ← head3 start
      nominalLengthLoop sq vs (acc + vecNorm sq (List.zipWith (· - ·) e s))

/-- te:717-741, `computeMinMaxMagnitudeAllSegments`: the flag and the maxima. -/
def maximaAllSegments (rf : RootFinder K) (sq : K → K) (d : ℤ) (dims : List ℤ) :
    List (Segment K) → List (Extremum K) → Res (Bool × List (Extremum K))
  | [], acc => .ok (true, acc)
  | s :: ss, acc => do
    let c ← s.magnitudeCandidates rf sq d 0 s.time dims
    if !c.1 then pure (false, acc)
    else
      let r := selectMinMaxMagnitude 0 s.time c.2 Extremum.zero Extremum.zero
      if !r.1 then pure (false, acc)
      else maximaAllSegments rf sq d dims ss (acc ++ [r.2.2])

/-- te:519-536, the new time of one segment, with the maxima of speed and acceleration in it: `none` (inf) if it is
divided by zero. Division by a limit of zero is not excluded here: the theorems assume positive limits. -/
def violationTime (c : BenchSettings K) (T v a : K) : Option K :=
  let w := max ((a - c.aMax) / c.aMax) ((v - c.vMax) / c.vMax)
  if 1 - w = 0 then none else some (T / (1 - w))

/-- te:540-542 with nonlinear.h:31, the lower bound on the segment times. -/
def boundTime (t : Option K) : Option K := t.map (max (1 / 10))

/-- te:486-542, the first half of `runSegmentViolationScalingTime`: the optimiser before
`updateSegmentTimes` and the new times. -/
def violationTimes (lib : NlLib 5 K) (c : BenchSettings K) (vertices : List (Vertex K)) :
    Res (LinOpt 5 K × List (Option K)) := do
  let ts ← estimateSegmentTimes lib.sq lib.ex vertices c.vMax c.aMax
  let o ← (LinOpt.new 3).setupFromVertices lib.inv vertices ts c.order
  let o1 ← o.solveLinear lib.solve
  let tr ← o1.getTrajectory
  let v ← maximaAllSegments lib.rf lib.sq 1 [0, 1, 2] tr.segments []
  let a ← maximaAllSegments lib.rf lib.sq 2 [0, 1, 2] tr.segments []
  Res.check (ts.length = v.2.length)
  Res.check (ts.length = a.2.length)
  pure (o1, (List.zipWith (fun T (m : Extremum K × Extremum K) => violationTime c T m.1.value m.2.value) ts
    (v.2.zip a.2)).map boundTime)

/-- te:353-360, 377-385 and 583-590, the cost of a solution of the linear optimiser: a nonlinear optimiser with
default parameters is given the linear one and the limits. -/
def linearCost (lib : NlLib 5 K) (c : BenchSettings K) (o : LinOpt 5 K) : Res K := do
  let n : NlOpt 5 K := { (NlOpt.new 3 NlParams.default : NlOpt 5 K) with lin := o }
  let n1 ← n.addMaximumMagnitudeConstraint true 1 c.vMax
  let n2 ← n1.2.addMaximumMagnitudeConstraint true 2 c.aMax
  let r ← n2.2.getTotalCost lib
  pure r.1

/-- te:483-593, `runSegmentViolationScalingTime`, which always returns 1: the trajectory and the cost; `none` if a
segment time is infinite (what follows is then not modelled). The maxima after scaling are computed for the debug
output only, te:549-581; they are part of the model as there must be one for each segment. -/
def runSegmentViolationScaling (lib : NlLib 5 K) (c : BenchSettings K) (vertices : List (Vertex K)) :
    Res (Option (Trajectory K × K)) := do
  let r ← violationTimes lib c vertices
  if r.2.all (·.isSome) then do
    let o2 ← r.1.updateSegmentTimes lib.inv (r.2.filterMap id)
    let o3 ← o2.solveLinear lib.solve
    let tr ← o3.getTrajectory
    let v ← maximaAllSegments lib.rf lib.sq 1 [0, 1, 2] tr.segments []
    let a ← maximaAllSegments lib.rf lib.sq 2 [0, 1, 2] tr.segments []
    if v.2.length < tr.segments.length ∨ a.2.length < tr.segments.length then Res.ub
    else do
      let cost ← linearCost lib c o3
      pure (some (tr, cost))
  else pure none

/-- te:342-362 (`runNfabian`) and 364-387 (`runTrapezoidalTime`) with the given segment times: the trajectory and the
cost. -/
def runLinear (lib : NlLib 5 K) (c : BenchSettings K) (vertices : List (Vertex K)) (ts : List K) :
    Res (Trajectory K × K) := do
  let o ← (LinOpt.new 3).setupFromVertices lib.inv vertices ts c.order
  let o1 ← o.solveLinear lib.solve
  let tr ← o1.getTrajectory
  let cost ← linearCost lib c o1
  pure (tr, cost)

/-- te:342-362, `runNfabian`. -/
def runNfabian (lib : NlLib 5 K) (c : BenchSettings K) (vertices : List (Vertex K)) : Res (Trajectory K × K) := do
  let ts ← estimateSegmentTimesNfabian lib.sq lib.ex vertices c.vMax c.aMax (13 / 2)
  runLinear lib c vertices ts

/-- te:364-387, `runTrapezoidalTime`. -/
def runTrapezoidal (lib : NlLib 5 K) (c : BenchSettings K) (vertices : List (Vertex K)) : Res (Trajectory K × K) := do
  let ts ← estimateSegmentTimesVelocityRamp lib.sq vertices c.vMax c.aMax 1
  runLinear lib c vertices ts

/-- te:389-481, `runNonlinear`, `runNonlinearRichter`, `runNonlinearTimeOnly` and `runMellingerOuterLoop` for one run
of NLopt, with the method and the segment times they start from: the code, the trajectory and the cost. -/
def runNonlinear (lib : NlLib 5 K) (run : NlRun K) (c : BenchSettings K) (method : TimeAlloc)
    (vertices : List (Vertex K)) (ts : List K) : Res (ℤ × Trajectory K × K) := do
  let o ← (NlOpt.new 3 { (NlParams.default : NlParams K) with method := method }).setupFromVertices lib vertices ts
    c.order
  let o1 ← o.addMaximumMagnitudeConstraint true 1 c.vMax
  let o2 ← o1.2.addMaximumMagnitudeConstraint true 2 c.aMax
  let r ← o2.2.optimize lib run
  let tr ← r.2.lin.getTrajectory
  let cost ← r.2.getTotalCost lib
  pure (r.1, tr, cost.1)

end Order

section Floor
variable [Field K] [LinearOrder K] [IsStrictOrderedRing K] [FloorRing K]

/-- te:632-715, `evaluateTrajectory`: the result with the figures written to it. The path stays empty and the extrema
stay zero if they cannot be computed. -/
def evaluateTrajectory (fuel : ℕ) (rf : RootFinder K) (sq : K → K) (c : BenchSettings K) (name : String)
    (tr : Trajectory K) (computationTime : K) (r : BenchResult K) : Res (BenchResult K) := do
  let path ← sampleWholeTrajectory fuel tr (1 / 100)
  let len ← computePathLength sq (path.getD [])
  let v ← tr.computeMinMaxMagnitude rf sq 1 [0, 1, 2] Extremum.zero Extremum.zero
  let a ← tr.computeMinMaxMagnitude rf sq 2 [0, 1, 2] Extremum.zero Extremum.zero
  let vm := v.2.2.value
  let am := a.2.2.value
  let d ← deviationSegments fuel sq tr.segments ⟨[], some 0, 0, some 0⟩
  pure { r with
    methodName := name
    trajectoryTime := tr.maxTime
    trajectoryLength := len
    computationTime := computationTime
    vMax := vm
    aMax := am
    boundsViolated := decide (vm > c.vMax + 1 / 10 ^ 4 ∨ am > c.aMax + 1 / 10 ^ 4)
    maxDist := d.maxDist
    area := d.area }

/-- One method of te:190-336: its name, what it returns (the code, the trajectory and the cost) and the readings of the
clock at its start and end. -/
structure BenchMethod (K : Type) where
  name : String
  outcome : Res (ℤ × Trajectory K × K)
  timer : MiniTimer K

/-- te:190-336, the methods one after the other; all write to the same result object, of which a copy is stored each
time. -/
def benchLoop (fuel : ℕ) (rf : RootFinder K) (sq : K → K) (c : BenchSettings K) :
    List (BenchMethod K) → BenchResult K → List (BenchResult K) → Res (List (BenchResult K))
  | [], _, acc => .ok acc
  | m :: ms, r, acc => do
    let o ← m.outcome
    let r1 ← evaluateTrajectory fuel rf sq c m.name o.2.1 m.timer.getTime
      { r with success := o.1, cost := o.2.2 }
    benchLoop fuel rf sq c ms r1 (acc ++ [r1])

/-- te:143-340, `runBenchmark` for the vertices that `createRandomVertices` made: the stored results afterwards.
With no vertices `vertices.size() - 1` wraps around. -/
def runBenchmark (fuel : ℕ) (rf : RootFinder K) (sq : K → K) (c : BenchSettings K) (trial numSegments : ℤ)
    (vertices : List (Vertex K)) (methods : List (BenchMethod K)) (results : List (BenchResult K)) :
    Res (List (BenchResult K)) :=
  if vertices.isEmpty then .ub
  else do
    let len ← nominalLengthLoop sq vertices 0
    benchLoop fuel rf sq c methods
      { (BenchResult.default : BenchResult K) with trialNumber := trial, numSegments := numSegments, nominalLength := len }
      results

/-- te:743-780, `createMarkerForPath`: the points of the marker: every tenth one, unless a coordinate is beyond 100. -/
def pathMarkerPoints (path : List (State K)) : List (List K) :=
  ((path.zipIdx.filter fun p => (p.2 + 1) % 10 = 0).map fun p => p.1.position).filter fun p =>
    p.all fun x => decide (-100 ≤ x ∧ x ≤ 100)

end Floor
end Verif
