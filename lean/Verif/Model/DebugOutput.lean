import Verif.Model.NonlinearOptimization

/-
Model of the debug output of
mav_trajectory_generation/include/mav_trajectory_generation/impl/polynomial_optimization_nonlinear_impl.h (nl below):
the functions of `Model/NonlinearOptimization` with the two flags `print_debug_info` and
`print_debug_info_time_allocation`, returning what they print besides their result. What is printed is a list of lines
with their figures; the words and the digits are not modelled. Printing itself does not fail.
-/
namespace Verif

variable {K : Type}

/-- nonlinear.h:97-98, the two flags. -/
structure DebugFlags where
  info : Bool
  alloc : Bool
  deriving DecidableEq, Repr

/-- A line (or two) of debug output. -/
inductive DebugLine (K : Type) where
  /-- nl:179-183 -/
  | startTimes (times : List K)
  /-- nl:213-219: after an exception; the figures are whatever NLopt left. -/
  | afterException
  /-- nl:232-236 -/
  | original (times : List K)
  /-- nl:237-241 -/
  | relative (times : List K)
  /-- nl:242-245 -/
  | solution (times : List K)
  /-- nl:246-255 -/
  | totals (before after scaled : K)
  /-- nl:386-388 -/
  | scalingBegin (v vMax a aMax : K)
  /-- nl:402-404 -/
  | scalingEnd (v vMax a aMax : K)
  /-- nl:588-592, 712-716 -/
  | cost (iteration : ℕ) (trajectory time : K)
  /-- nl:775 -/
  | softHeader
  /-- nl:789-792 (the relative violation is the quotient of the absolute one and the limit) -/
  | soft (derivative : ℤ) (violation cost : K)
  /-- nl:603-605, 727-729 -/
  | sum (sum total : K)
  /-- nl:642-650 -/
  | mellinger (iteration : ℕ) (times : List K) (sum : K)
  deriving DecidableEq, Repr

section
variable [Field K] [LinearOrder K] {h : ℕ}

/-- Lines that are printed if the flag is set. -/
def printIf (b : Bool) (l : List (DebugLine K)) : List (DebugLine K) := if b then l else []

/-- nl:777-793, the loop of `evaluateMaximumMagnitudeAsSoftConstraint`. -/
def softCostP (fl : DebugFlags) (lib : NlLib h K) (weight maxCost : K) : List (Limit K) → K → NlOpt h K →
    Res ((K × NlOpt h K) × List (DebugLine K))
  | [], acc, o => .ok ((acc, o), [])
  | c :: cs, acc, o => do
    let r ← o.evaluateConstraint lib c
    let cost := softTerm lib.ex weight maxCost r.1 c.value
    let s ← softCostP fl lib weight maxCost cs (acc + cost) r.2
    pure (s.1, printIf fl.info [.soft c.derivative r.1 cost] ++ s.2)

/-- nl:576-617 and 700-741. -/
def NlOpt.totalCostP (fl : DebugFlags) (lib : NlLib h K) (o : NlOpt h K) (times : List K) (richter : Bool) :
    Res ((K × NlOpt h K) × List (DebugLine K)) := do
  let costTrajectory ← o.lin.computeCost
  let total := totalTrajectoryTime times
  let costTime := if richter then total * o.params.timePenalty
    else total * total * o.params.timePenalty
  let log1 := printIf fl.info [.cost o.info.nIterations costTrajectory costTime]
  let s ← if o.params.useSoft then do
      let s ← softCostP fl lib o.params.softWeight (10 ^ 12) o.constraints 0 o
      pure (s.1, printIf fl.info [.softHeader] ++ s.2)
    else pure ((0, o), [])
  let log2 := printIf fl.info [.sum (costTrajectory + costTime + s.1.1) total]
  pure ((costTrajectory + costTime + s.1.1,
    { s.1.2 with info := { s.1.2.info with nIterations := s.1.2.info.nIterations + 1
                                           costTrajectory := costTrajectory
                                           costTime := costTime
                                           costSoft := s.1.1 } }), log1 ++ s.2 ++ log2)

/-- nl:555-618, `objectiveFunctionTime`. -/
def NlOpt.objectiveTimeP (fl : DebugFlags) (lib : NlLib h K) (o : NlOpt h K) (x : List K) (grad : Bool) :
    Res ((K × NlOpt h K) × List (DebugLine K)) := do
  Res.check (grad = false)
  Res.check (x.length = o.lin.nSegments)
  let lin1 ← o.lin.updateSegmentTimes lib.inv x
  let lin2 ← lin1.solveLinear lib.solve
  NlOpt.totalCostP fl lib { o with lin := lin2 } x (o.params.method = .richterTime)

/-- nl:665-742, `objectiveFunctionTimeAndConstraints`. -/
def NlOpt.objectiveFullP (fl : DebugFlags) (lib : NlLib h K) (o : NlOpt h K) (x : List K) (grad : Bool) :
    Res ((K × NlOpt h K) × List (DebugLine K)) := do
  Res.check (grad = false)
  let nSeg := o.lin.nSegments
  let nFree := o.lin.nFree
  Res.check (x.length = nSeg + nFree * o.lin.dimension)
  let times := x.take nSeg
  let free := (List.range o.lin.dimension).map fun d => (x.drop (nSeg + d * nFree)).take nFree
  let lin1 ← o.lin.updateSegmentTimes lib.inv times
  let lin2 ← lin1.setFreeConstraints free
  NlOpt.totalCostP fl lib { o with lin := lin2 } times (o.params.method = .richterTimeAndConstraints)

/-- nl:620-663, `objectiveFunctionTimeMellingerOuterLoop` (without the gradient, see `objective`). -/
def NlOpt.objectiveMellingerP (fl : DebugFlags) (lib : NlLib h K) (o : NlOpt h K) (x : List K) (grad : Bool) :
    Res ((K × NlOpt h K) × List (DebugLine K)) := do
  let r ← o.objectiveMellinger lib x grad
  pure ((r.1, r.2.2), printIf fl.info [.mellinger o.info.nIterations x r.1])

/-- The objective function set for each method (nl:149-150, 197-199, 493-495). -/
def NlOpt.objectiveP (fl : DebugFlags) (lib : NlLib h K) (method : TimeAlloc) (o : NlOpt h K) (x : List K)
    (grad : Bool) : Res ((K × NlOpt h K) × List (DebugLine K)) :=
  match method with
  | .squaredTime | .richterTime => o.objectiveTimeP fl lib x grad
  | .mellingerOuterLoop => o.objectiveMellingerP fl lib x grad
  | _ => o.objectiveFullP fl lib x grad

/-- The answer to one callback; the constraints (nl:744-765) print nothing. -/
def NlOpt.answerP (fl : DebugFlags) (lib : NlLib h K) (method : TimeAlloc) (o : NlOpt h K) :
    NlQuery K → Res ((K × NlOpt h K) × List (DebugLine K))
  | .objective x grad => o.objectiveP fl lib method x grad
  | .constraint i _ grad => do
    Res.check (grad = false)
    match o.handle with
    | none => Res.ub
    | some hd => do
      let c ← Res.at' hd.hard i
      let r ← o.evaluateConstraint lib c
      pure (r, [])

/-- All callbacks of a run. -/
def NlOpt.answersP (fl : DebugFlags) (lib : NlLib h K) (method : TimeAlloc) :
    List (NlQuery K) → NlOpt h K → Res ((List K × NlOpt h K) × List (DebugLine K))
  | [], o => .ok (([], o), [])
  | q :: qs, o => do
    let r ← o.answerP fl lib method q
    let rs ← NlOpt.answersP fl lib method qs r.1.2
    pure ((r.1.1 :: rs.1.1, rs.1.2), r.2 ++ rs.2)

/-- nl:384-385 and 400-401: the maxima that are only computed to be printed. -/
def measureIf (b : Bool) (lib : NlLib h K) (tr : Trajectory K) (line : K → K → DebugLine K) :
    Res (List (DebugLine K)) :=
  if b then do
    let m ← tr.maxVelocityAndAcceleration lib.rf lib.sq
    pure [line m.2.1 m.2.2]
  else pure []

/-- nl:366-406, `scaleSegmentTimesWithViolation`. The maxima printed at the end are those of the local trajectory,
after scaling. -/
def NlOpt.scaleWithViolationP (fl : DebugFlags) (lib : NlLib h K) (o : NlOpt h K) :
    Res (NlOpt h K × List (DebugLine K)) := do
  let tr ← o.lin.getTrajectory
  let vMax := limitOf 1 o.constraints
  let aMax := limitOf 2 o.constraints
  let log1 ← measureIf fl.alloc lib tr fun v a => .scalingBegin v vMax a aMax
  if vMax = 0 ∨ aMax = 0 then Res.ub
  else do
    let r ← tr.scaleToMeetConstraints lib.rf lib.sq vMax aMax
    let lin1 ← o.lin.updateSegmentTimes lib.inv r.2.getSegmentTimes
    let lin2 ← lin1.solveLinear lib.solve
    let log2 ← measureIf fl.alloc lib r.2 fun v a => .scalingEnd v vMax a aMax
    pure ({ o with lin := lin2 }, log1 ++ log2)

/-- nl:132-168, 170-259 and 408-523 for one run of NLopt. -/
def NlOpt.optimizeWithP (fl : DebugFlags) (lib : NlLib h K) (run : NlRun K) (o : NlOpt h K) :
    Res ((ℤ × NlOpt h K) × List (DebugLine K)) := do
  let p ← o.prepare lib
  let mel : Bool := o.params.method = .mellingerOuterLoop
  let log0 := printIf (mel && fl.alloc) [.startTimes o.lin.segmentTimes]
  if run.setupThrows then pure ((-1, p.1), log0)
  else do
    let r ← NlOpt.answersP fl lib o.params.method run.queries p.1
    if mel then
      if run.code = none ∧ run.wroteCost = false then pure ((-1, r.1.2), log0 ++ r.2)
      else do
        let log1 := printIf (fl.alloc && run.code.isNone) [.afterException]
        let s ← r.1.2.scaleWithViolationP fl lib
        let log2 := printIf fl.alloc [.original o.lin.segmentTimes, .relative r.1.2.lin.segmentTimes,
          .solution s.1.lin.segmentTimes,
          .totals (totalTrajectoryTime o.lin.segmentTimes) (totalTrajectoryTime r.1.2.lin.segmentTimes)
            (totalTrajectoryTime s.1.lin.segmentTimes)]
        pure ((run.code.getD (-1), s.1), log0 ++ r.2 ++ log1 ++ s.2 ++ log2)
    else pure ((run.code.getD (-1), r.1.2), log0 ++ r.2)

/-- nl:96-130, `optimize` for one run of NLopt. -/
def NlOpt.optimizeP (fl : DebugFlags) (lib : NlLib h K) (run : NlRun K) (o : NlOpt h K) :
    Res ((ℤ × NlOpt h K) × List (DebugLine K)) := do
  let o0 : NlOpt h K := { o with info := NlInfo.default }
  let r ← if o.params.method = .unknown then pure (((-1 : ℤ), o0), []) else o0.optimizeWithP fl lib run
  pure ((r.1.1, { r.1.2 with info := { r.1.2.info with stoppingReason := r.1.1 } }), r.2)

end
end Verif
