import Verif.Model.LinearOptimization
import Verif.Model.Magnitude

/-
Model of mav_trajectory_generation/include/mav_trajectory_generation/polynomial_optimization_nonlinear.h
and impl/polynomial_optimization_nonlinear_impl.h (called "nl" below), and of the magnitude functions
of impl/polynomial_optimization_linear_impl.h ("lin") they use.

NLopt is an external library. What a run of `nlopt::opt::optimize` does to the optimiser object is
determined by the callbacks it makes, so a run is the list of those callbacks together with its
outcome (`NlRun`). The theorems hold for all such lists, hence for whatever strategy, adaptive or
random, the algorithm follows.

Not modelled: printing, the measured `optimization_time`, the stopping criteria and the random seed
handed to NLopt. `ConstraintData::this_object` is taken to be the object itself; it is not after the
object was copied (see `NonlinearCopies.lean`).
-/
namespace Verif

variable {K : Type}

/-- The library functions the optimisers call: the root finder, `std::sqrt`, `exp`, Eigen's
`inverse()` and the sparse QR solver. -/
structure NlLib (h : ℕ) (K : Type) where
  rf : RootFinder K
  sq : K → K
  ex : K → K
  inv : Matrix (Fin h) (Fin h) K → Matrix (Fin h) (Fin h) K
  solve : (n : ℕ) → Matrix (Fin n) (Fin n) K → (Fin n → K) → Fin n → K

/-- nonlinear.h:88-95, `TimeAllocMethod`. -/
inductive TimeAlloc
  | squaredTime | richterTime | mellingerOuterLoop
  | squaredTimeAndConstraints | richterTimeAndConstraints | unknown
  deriving DecidableEq, Repr

/-- nonlinear.h:34-99, those members of `NonlinearOptimizationParameters` that are used for something
else than being passed on to NLopt. -/
structure NlParams (K : Type) where
  initialStepRel : K
  timePenalty : K
  useSoft : Bool
  softWeight : K
  method : TimeAlloc
  deriving Repr

/-- nonlinear.h:207-211, `ConstraintData`. -/
structure Limit (K : Type) where
  derivative : ℤ
  value : K
  deriving DecidableEq, Repr

/-- nonlinear.h:101-109, `OptimizationInfo`. -/
structure NlInfo (K : Type) where
  nIterations : ℕ
  stoppingReason : ℤ
  costTrajectory : K
  costTime : K
  costSoft : K
  maxima : List (ℤ × Extremum K)
  deriving DecidableEq, Repr

/-- nonlinear.h:101-109, the default values (`nlopt::FAILURE` is -1). -/
def NlInfo.default [Zero K] : NlInfo K := ⟨0, -1, 0, 0, 0, []⟩

/-- The `nlopt::opt` object: its dimension and the inequality constraints added to it. -/
structure NlHandle (K : Type) where
  n : ℕ
  hard : List (Limit K)
  deriving DecidableEq, Repr

/-- nonlinear.h:292-304, the members of `PolynomialOptimizationNonLinear`. -/
structure NlOpt (h : ℕ) (K : Type) where
  handle : Option (NlHandle K)
  lin : LinOpt h K
  params : NlParams K
  constraints : List (Limit K)
  info : NlInfo K

/-- nl:49-52, the constructor. -/
def NlOpt.new [Zero K] {h : ℕ} (dim : ℕ) (params : NlParams K) : NlOpt h K :=
  ⟨none, LinOpt.new dim, params, [], NlInfo.default⟩

/-- What the code hands over to NLopt before an optimisation: the initial steps (not set by the
Mellinger method), the bounds and the starting point. -/
structure NlArgs (K : Type) where
  step : Option (List K)
  lower : List K
  upper : List K
  start : List K
  deriving DecidableEq, Repr

/-- A callback of NLopt: the objective function or the `i`-th added inequality constraint, at the
point `x`; `grad` tells whether a gradient is asked for. -/
inductive NlQuery (K : Type)
  | objective (x : List K) (grad : Bool)
  | constraint (i : ℕ) (x : List K) (grad : Bool)

/-- One run of NLopt: whether one of the calls setting it up throws, the callbacks, the returned code
(`none`: an exception), and whether the final cost was written before an exception. -/
structure NlRun (K : Type) where
  setupThrows : Bool
  queries : List (NlQuery K)
  code : Option ℤ
  wroteCost : Bool

section
variable [Field K] [LinearOrder K] {h : ℕ}

/-- lin:396-409, `computeSegmentMaximumMagnitudeCandidates`. -/
def segmentMaximumCandidates (rf : RootFinder K) (h : ℕ) (d : ℤ) (s : Segment K) (tStart tStop : K) :
    Res (Bool × List K) := do
  Res.check (((h + h : ℕ) : ℤ) - d - 1 > 0)
  s.candidateTimes rf d tStart tStop ((List.range s.D).map fun (i : ℕ) => (i : ℤ))

/-- Eigen `norm()`. -/
def normOf (sq : K → K) (v : List K) : K := sq (v.map (· ^ 2)).sum

/-- lin:479-483, the candidates of one segment. -/
def maximumCandidates (sq : K → K) (d : ℤ) (s : Segment K) (i : ℕ) (times : List K) :
    Res (List (Extremum K)) :=
  times.mapM fun t => do
    let v ← s.evaluate t d
    pure ⟨t, normOf sq v, i⟩

/-- lin:469-486, the candidates of all segments, in the order they are looked at. The time 0 pushed
before (line 474) is dropped again, as the function called clears the vector. -/
def allMaximumCandidates (rf : RootFinder K) (sq : K → K) (h : ℕ) (d : ℤ) :
    List (Segment K) → ℕ → Res (List (Extremum K))
  | [], _ => .ok []
  | s :: ss, i => do
    let c ← segmentMaximumCandidates rf h d s 0 s.time
    let es ← maximumCandidates sq d s i c.2
    let rest ← allMaximumCandidates rf sq h d ss (i + 1)
    pure (es ++ rest)

/-- lin:463-497, `computeMaximumOfMagnitude`: the maximum and the candidates. `segments_.back()` is
undefined without segments. (The C++ updates the maximum while it collects the candidates.) -/
def LinOpt.computeMaximumOfMagnitude (rf : RootFinder K) (sq : K → K) (o : LinOpt h K) (d : ℤ) :
    Res (Extremum K × List (Extremum K)) := do
  let es ← allMaximumCandidates rf sq h d o.segments 0
  let s ← Res.at' o.segments (o.segments.length - 1)
  let v ← s.evaluate s.time d
  let cands := es ++ [⟨s.time, normOf sq v, o.nSegments - 1⟩]
  pure (cands.foldl Extremum.stdMax Extremum.zero, cands)

/-- nl:54-89, `setupFromVertices`: the linear optimiser is set up, and a new NLopt object without
constraints is made. -/
def NlOpt.setupFromVertices (lib : NlLib h K) (o : NlOpt h K) (vertices : List (Vertex K))
    (times : List K) (k : ℤ) : Res (NlOpt h K) := do
  let lin ← o.lin.setupFromVertices lib.inv vertices times k
  let n := match o.params.method with
    | .squaredTime | .richterTime | .mellingerOuterLoop => times.length
    | _ => times.length + lin.nFree * lin.dimension
  pure { o with lin := lin, handle := some ⟨n, []⟩ }

/-- nl:91-94, `solveLinear`. -/
def NlOpt.solveLinear (lib : NlLib h K) (o : NlOpt h K) : Res (NlOpt h K) := do
  let lin ← o.lin.solveLinear lib.solve
  pure { o with lin := lin }

/-- nl:525-553, `addMaximumMagnitudeConstraint`; `accepts` tells whether NLopt takes the constraint
(otherwise it throws). Without a call of `setupFromVertices` before, `nlopt_` is null. -/
def NlOpt.addMaximumMagnitudeConstraint (o : NlOpt h K) (accepts : Bool) (d : ℤ) (value : K) :
    Res (Bool × NlOpt h K) := do
  Res.check (0 ≤ d)
  Res.check (0 ≤ value)
  let o' : NlOpt h K := { o with constraints := o.constraints ++ [⟨d, value⟩] }
  if o.params.useSoft then pure (true, o')
  else
    match o.handle with
    | none => Res.ub
    | some hd =>
      if accepts then pure (true, { o' with handle := some { hd with hard := hd.hard ++ [⟨d, value⟩] } })
      else pure (false, o')

/-- nl:744-765, `evaluateMaximumMagnitudeConstraint` (the gradient is checked by the caller here): the
point it is called with is not used. -/
def NlOpt.evaluateConstraint (lib : NlLib h K) (o : NlOpt h K) (c : Limit K) :
    Res (K × NlOpt h K) := do
  let m ← o.lin.computeMaximumOfMagnitude lib.rf lib.sq c.derivative
  pure (m.1.value - c.value,
    { o with info := { o.info with maxima := mapInsert c.derivative m.1 o.info.maxima } })

/-- nl:784-786, the cost of one soft constraint. For the limit 0 the relative violation is inf or NaN,
and (for a weight that is not negative) `std::min` returns its first argument. -/
def softTerm (ex : K → K) (weight maxCost violation value : K) : K :=
  if value = 0 then maxCost
  else
    let c := ex (violation / value * weight)
    if c < maxCost then c else maxCost

/-- nl:767-795, `evaluateMaximumMagnitudeAsSoftConstraint`: the loop over the constraints. -/
def softCost (lib : NlLib h K) (weight maxCost : K) : List (Limit K) → K → NlOpt h K →
    Res (K × NlOpt h K)
  | [], acc, o => .ok (acc, o)
  | c :: cs, acc, o => do
    let r ← o.evaluateConstraint lib c
    softCost lib weight maxCost cs (acc + softTerm lib.ex weight maxCost r.1 c.value) r.2

/-- nl:846-853, `computeTotalTrajectoryTime`. -/
def totalTrajectoryTime (times : List K) : K := times.foldl (· + ·) 0

/-- nl:576-617 and 700-741: the part both objective functions have in common, after the new segments
are computed; `richter` tells whether the time enters linearly. -/
def NlOpt.totalCost (lib : NlLib h K) (o : NlOpt h K) (times : List K) (richter : Bool) :
    Res (K × NlOpt h K) := do
  let costTrajectory ← o.lin.computeCost
  let total := totalTrajectoryTime times
  let costTime := if richter then total * o.params.timePenalty
    else total * total * o.params.timePenalty
  let s ← if o.params.useSoft then softCost lib o.params.softWeight (10 ^ 12) o.constraints 0 o
    else pure (0, o)
  pure (costTrajectory + costTime + s.1,
    { s.2 with info := { s.2.info with nIterations := s.2.info.nIterations + 1
                                       costTrajectory := costTrajectory
                                       costTime := costTime
                                       costSoft := s.1 } })

/-- nl:555-618, `objectiveFunctionTime`. -/
def NlOpt.objectiveTime (lib : NlLib h K) (o : NlOpt h K) (x : List K) (grad : Bool) :
    Res (K × NlOpt h K) := do
  Res.check (grad = false)
  Res.check (x.length = o.lin.nSegments)
  let lin1 ← o.lin.updateSegmentTimes lib.inv x
  let lin2 ← lin1.solveLinear lib.solve
  NlOpt.totalCost lib { o with lin := lin2 } x (o.params.method = .richterTime)

/-- nl:665-742, `objectiveFunctionTimeAndConstraints`. -/
def NlOpt.objectiveFull (lib : NlLib h K) (o : NlOpt h K) (x : List K) (grad : Bool) :
    Res (K × NlOpt h K) := do
  Res.check (grad = false)
  let nSeg := o.lin.nSegments
  let nFree := o.lin.nFree
  Res.check (x.length = nSeg + nFree * o.lin.dimension)
  let times := x.take nSeg
  let free := (List.range o.lin.dimension).map fun d => (x.drop (nSeg + d * nFree)).take nFree
  let lin1 ← o.lin.updateSegmentTimes lib.inv times
  let lin2 ← lin1.setFreeConstraints free
  NlOpt.totalCost lib { o with lin := lin2 } times (o.params.method = .richterTimeAndConstraints)

/-- nl:315-343, the times with segment `n` longer by 0.1 s and the others shorter, none below the
lower bound 0.1 s (nonlinear.h:31). -/
def perturbedTimes (times : List K) (n : ℕ) : List K :=
  times.zipIdx.map fun t =>
    let t' := if t.2 = n then t.1 + 1 / 10 else t.1 - 1 / 10 / ((times.length : K) - 1)
    if 1 / 10 < t' then t' else 1 / 10

/-- nl:314-354, the entries of the gradient from index `n` on, `m` in number. -/
def gradientLoop (lib : NlLib h K) (times : List K) (J : K) :
    ℕ → ℕ → LinOpt h K → Res (List K × LinOpt h K)
  | 0, _, l => .ok ([], l)
  | m + 1, n, l => do
    let l1 ← l.updateSegmentTimes lib.inv (perturbedTimes times n)
    let l2 ← l1.solveLinear lib.solve
    let J' ← l2.computeCost
    let r ← gradientLoop lib times J m (n + 1) l2
    pure ((J' - J) / (1 / 10) :: r.1, r.2)

/-- nl:286-364, `getCostAndGradientMellinger` with a gradient: the cost, the gradient and the linear
optimiser afterwards. -/
def costAndGradient (lib : NlLib h K) (l : LinOpt h K) : Res (K × List K × LinOpt h K) := do
  let times := l.segmentTimes
  let J ← l.computeCost
  if l.nSegments = 1 then pure (J, [0], l)
  else do
    let r ← gradientLoop lib times J l.nSegments 0 l
    let l1 ← r.2.updateSegmentTimes lib.inv times
    let l2 ← l1.solveLinear lib.solve
    pure (J, r.1, l2)

/-- nl:620-663, `objectiveFunctionTimeMellingerOuterLoop`: the cost, the gradient and the object
afterwards. -/
def NlOpt.objectiveMellinger (lib : NlLib h K) (o : NlOpt h K) (x : List K) (grad : Bool) :
    Res (K × List K × NlOpt h K) := do
  Res.check (grad = true)
  Res.check (x.length = o.lin.nSegments)
  let lin1 ← o.lin.updateSegmentTimes lib.inv x
  let lin2 ← lin1.solveLinear lib.solve
  let r ← costAndGradient lib lin2
  pure (r.1, r.2.1, { o with lin := r.2.2
                             info := { o.info with nIterations := o.info.nIterations + 1
                                                   costTrajectory := r.1 } })

/-- The answer to one callback: `obj` is the objective function that was set. For the gradient see
`objectiveMellinger`. -/
def NlOpt.answer (lib : NlLib h K) (obj : NlOpt h K → List K → Bool → Res (K × NlOpt h K))
    (o : NlOpt h K) : NlQuery K → Res (K × NlOpt h K)
  | .objective x grad => obj o x grad
  | .constraint i _ grad => do
    Res.check (grad = false)
    match o.handle with
    | none => Res.ub
    | some hd => do
      let c ← Res.at' hd.hard i
      o.evaluateConstraint lib c

/-- All callbacks of a run: the answers and the object afterwards. -/
def NlOpt.answers (lib : NlLib h K) (obj : NlOpt h K → List K → Bool → Res (K × NlOpt h K)) :
    List (NlQuery K) → NlOpt h K → Res (List K × NlOpt h K)
  | [], o => .ok ([], o)
  | q :: qs, o => do
    let r ← o.answer lib obj q
    let rs ← NlOpt.answers lib obj qs r.2
    pure (r.1 :: rs.1, rs.2)

/-- The objective function set for each method (nl:149-150, 197-199, 493-495). -/
def NlOpt.objective (lib : NlLib h K) (method : TimeAlloc) (o : NlOpt h K) (x : List K) (grad : Bool) :
    Res (K × NlOpt h K) :=
  match method with
  | .squaredTime | .richterTime => o.objectiveTime lib x grad
  | .mellingerOuterLoop => do
    let r ← o.objectiveMellinger lib x grad
    pure (r.1, r.2.2)
  | _ => o.objectiveFull lib x grad

/-- nl:134-151, what `optimizeTime` hands to NLopt; a scalar bound is a bound for every variable. -/
def NlOpt.timeArgs (o : NlOpt h K) (hd : NlHandle K) : NlArgs K :=
  ⟨some (o.lin.segmentTimes.map (o.params.initialStepRel * ·)), List.replicate hd.n (1 / 10),
    List.replicate hd.n dblMax, o.lin.segmentTimes⟩

/-- nl:171-199, the same for `optimizeTimeMellingerOuterLoop`. -/
def NlOpt.mellingerArgs (o : NlOpt h K) (hd : NlHandle K) : NlArgs K :=
  ⟨none, List.replicate hd.n (1 / 10), List.replicate hd.n dblMax, o.lin.segmentTimes⟩

/-- `vector.at(i) = x`. -/
def setAt (l : List K) (i : ℕ) (x : K) : Res (List K) :=
  if i < l.length then .ok (l.set i x) else .throws

/-- nl:826-841, one step of the loop over the derivatives of a vertex; the state is the counter of
free derivatives and the two bounds. -/
def boundStep (dim nFree : ℕ) (c : Limit K) (v : Vertex K) (s : ℕ × List K × List K) (deriv : ℕ) :
    Res (ℕ × List K × List K) :=
  if v.hasConstraint (deriv : ℕ) then pure s
  else if ((deriv : ℕ) : ℤ) = c.derivative then do
    let b ← (List.range dim).foldlM (fun (b : List K × List K) d => do
      let lo ← setAt b.1 (d * nFree + s.1) (-|c.value|)
      let up ← setAt b.2 (d * nFree + s.1) |c.value|
      pure (lo, up)) s.2
    pure (s.1 + 1, b)
  else pure (s.1 + 1, s.2)

/-- nl:797-844, `setFreeEndpointDerivativeHardConstraints`: the lower and upper bounds. -/
def freeBounds (dim nFree : ℕ) (k : ℤ) (vertices : List (Vertex K)) (limits : List (Limit K)) :
    Res (List K × List K) :=
  limits.foldlM (fun (b : List K × List K) c => do
      let s ← vertices.foldlM (fun (s : ℕ × List K × List K) v =>
        (List.range (k + 1).toNat).foldlM (boundStep dim nFree c v) s) ((0 : ℕ), b)
      pure s.2)
    (List.replicate (dim * nFree) (-dblMax), List.replicate (dim * nFree) dblMax)

/-- nl:468-476, the initial step of one variable. -/
def initialStep (rel x : K) : K := if |x| ≤ dblEpsilon then 1 / 10 ^ 13 else rel * |x|

/-- nl:408-497, what `optimizeTimeAndFreeConstraints` hands to NLopt, computed after `solveLinear`
(line 417) has returned. -/
def NlOpt.fullArgs (o : NlOpt h K) : Res (NlArgs K) := do
  let nSeg := o.lin.segmentTimes.length
  let front ← Res.at' o.lin.freeCompact 0
  let n := nSeg + o.lin.freeCompact.length * front.length
  Res.check (0 < n)
  let start := o.lin.segmentTimes ++ o.lin.freeCompact.flatten
  let fb ← freeBounds o.lin.dimension o.lin.nFree o.lin.derivative o.lin.vertices o.constraints
  let lower := List.replicate nSeg (1 / 10) ++ fb.1
  let upper := List.replicate nSeg dblMax ++ fb.2
  let adj ← (List.range start.length).mapM fun i => do
    let x ← Res.at' start i
    let lo ← Res.at' lower i
    let up ← Res.at' upper i
    pure (initialStep o.params.initialStepRel x,
      if x < lo then x else lo, if x < lo then up else if x > up then x else up)
  Res.check (lower.length = upper.length)
  Res.check (start.length = lower.length)
  Res.check (start.length = n)
  pure ⟨some (adj.map fun a => a.1), adj.map fun a => a.2.1, adj.map fun a => a.2.2, start⟩

/-- The object on which NLopt is started and what is handed to it, for each method (for `kUnknown`
NLopt is not started). -/
def NlOpt.prepare (lib : NlLib h K) (o : NlOpt h K) : Res (NlOpt h K × NlArgs K) := do
  match o.params.method with
  | .squaredTime | .richterTime =>
    match o.handle with
    | none => Res.ub
    | some hd => pure (o, o.timeArgs hd)
  | .mellingerOuterLoop =>
    match o.handle with
    | none => Res.ub
    | some hd => pure (o, o.mellingerArgs hd)
  | _ => do
    let o1 ← o.solveLinear lib
    let a ← o1.fullArgs
    match o1.handle with
    | none => Res.ub
    | some _ => pure (o1, a)

/-- nl:371-381, the limits handed to the scaling: of several, the last one added. -/
def limitOf (d : ℤ) (limits : List (Limit K)) : K :=
  limits.foldl (fun v c => if c.derivative = d then c.value else v) 0

/-- nl:366-406, `scaleSegmentTimesWithViolation`. Without a limit (or with the limit 0) for the
velocity or the acceleration `scaleSegmentTimesToMeetConstraints` divides by zero. -/
def NlOpt.scaleWithViolation (lib : NlLib h K) (o : NlOpt h K) : Res (NlOpt h K) := do
  let tr ← o.lin.getTrajectory
  let vMax := limitOf 1 o.constraints
  let aMax := limitOf 2 o.constraints
  if vMax = 0 ∨ aMax = 0 then Res.ub
  else do
    let r ← tr.scaleToMeetConstraints lib.rf lib.sq vMax aMax
    let lin1 ← o.lin.updateSegmentTimes lib.inv r.2.getSegmentTimes
    let lin2 ← lin1.solveLinear lib.solve
    pure { o with lin := lin2 }

/-- nl:132-168, 170-259 and 408-523: `optimizeTime`, `optimizeTimeMellingerOuterLoop` and
`optimizeTimeAndFreeConstraints` for one run of NLopt: the result and the object afterwards. -/
def NlOpt.optimizeWith (lib : NlLib h K) (run : NlRun K) (o : NlOpt h K) : Res (ℤ × NlOpt h K) := do
  let p ← o.prepare lib
  if run.setupThrows then pure (-1, p.1)
  else do
    let r ← NlOpt.answers lib (NlOpt.objective lib o.params.method) run.queries p.1
    if o.params.method = .mellingerOuterLoop then
      if run.code = none ∧ run.wroteCost = false then pure (-1, r.2)
      else do
        let o' ← r.2.scaleWithViolation lib
        pure (run.code.getD (-1), o')
    else pure (run.code.getD (-1), r.2)

/-- nl:96-130, `optimize` for one run of NLopt: the returned code and the object afterwards. -/
def NlOpt.optimize (lib : NlLib h K) (run : NlRun K) (o : NlOpt h K) : Res (ℤ × NlOpt h K) := do
  let o0 : NlOpt h K := { o with info := NlInfo.default }
  let r ← if o.params.method = .unknown then pure ((-1 : ℤ), o0) else o0.optimizeWith lib run
  pure (r.1, { r.2 with info := { r.2.info with stoppingReason := r.1 } })

/-- nl:261-264, `getCost`. -/
def NlOpt.getCost (o : NlOpt h K) : Res K := o.lin.computeCost

/-- nl:266-284, `getTotalCostWithSoftConstraints`: the cost and the object afterwards (the maxima in
the statistics are written although the function is const). -/
def NlOpt.getTotalCost (lib : NlLib h K) (o : NlOpt h K) : Res (K × NlOpt h K) := do
  let c ← o.lin.computeCost
  let total := o.lin.segmentTimes.foldl (· + ·) 0
  let s ← softCost lib o.params.softWeight (10 ^ 9) o.constraints 0 o
  pure (c + total * total * o.params.timePenalty + s.1, s.2)

end
end Verif
