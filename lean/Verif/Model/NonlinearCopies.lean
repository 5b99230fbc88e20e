import Verif.Model.NonlinearOptimization

/-
Model of several objects of class `PolynomialOptimizationNonLinear` at once, with the pointers between
them (nonlinear.h:207-211, 292-304; impl/polynomial_optimization_nonlinear_impl.h, "nl" below).

`NonlinearOptimization.lean` models one object on its own. There the limits are values; in the C++ each of
them is a `ConstraintData` with a pointer `this_object` to the object it was added to, and `nlopt_` is a
`shared_ptr`. The class has the copy constructor and the assignment the compiler generates: both copy both
kinds of pointers.

Objects are never placed where another one was destroyed: using a pointer to a destroyed object is
undefined behaviour. Not modelled here: `optimize` beyond its callbacks.
-/
namespace Verif

variable {K : Type}

/-- nonlinear.h:292-304, the members of an object: `handle` says which NLopt object `nlopt_` points to, and
each limit comes with the address `this_object` (nonlinear.h:208). -/
structure NlCell (h : ℕ) (K : Type) where
  handle : Option ℕ
  lin : LinOpt h K
  params : NlParams K
  limits : List (ℕ × Limit K)
  info : NlInfo K

/-- An `nlopt::opt` object: its dimension and the `ConstraintData` of the constraints added to it. -/
structure NlShared (K : Type) where
  n : ℕ
  hard : List (ℕ × Limit K)

/-- The objects by address (`none`: destroyed) and the NLopt objects. -/
structure NlHeap (h : ℕ) (K : Type) where
  cells : List (Option (NlCell h K))
  shared : List (NlShared K)

/-- A call, on the object at address `a`; `assign a b` is the assignment of that object to the one at `b`. -/
inductive NlOp (K : Type)
  | new (dim : ℕ) (params : NlParams K)
  | setup (a : ℕ) (vertices : List (Vertex K)) (times : List K) (k : ℤ)
  | solve (a : ℕ)
  | limit (a : ℕ) (accepts : Bool) (d : ℤ) (value : K)
  | callback (a : ℕ) (q : NlQuery K)
  | total (a : ℕ)
  | copy (a : ℕ)
  | assign (a b : ℕ)
  | destroy (a : ℕ)

/-- What a call returns. -/
inductive NlOut (K : Type)
  | nothing
  | flag (b : Bool)
  | value (x : K)
  deriving DecidableEq, Repr

section
variable {h : ℕ}

/-- Access to an object. -/
def NlHeap.get (H : NlHeap h K) (a : ℕ) : Res (NlCell h K) :=
  match H.cells[a]? with
  | some (some c) => .ok c
  | _ => .ub

/-- Writing to an object. -/
def NlHeap.put (H : NlHeap h K) (a : ℕ) (c : NlCell h K) : NlHeap h K :=
  { H with cells := H.cells.set a (some c) }

/-- The object as `NonlinearOptimization.lean` has it, without the pointers. -/
def NlHeap.view (H : NlHeap h K) (c : NlCell h K) : NlOpt h K :=
  ⟨(c.handle.bind fun r => H.shared[r]?).map fun s => ⟨s.n, s.hard.map (·.2)⟩, c.lin, c.params,
    c.limits.map (·.2), c.info⟩

variable [Field K] [LinearOrder K]

/-- nl:744-765, `evaluateMaximumMagnitudeConstraint`: maximum and statistics are those of the object
`this_object` points to. -/
def NlHeap.evaluateLimit (lib : NlLib h K) (H : NlHeap h K) (l : ℕ × Limit K) : Res (K × NlHeap h K) := do
  let c ← H.get l.1
  let m ← c.lin.computeMaximumOfMagnitude lib.rf lib.sq l.2.derivative
  pure (m.1.value - l.2.value,
    H.put l.1 { c with info := { c.info with maxima := mapInsert l.2.derivative m.1 c.info.maxima } })

/-- nl:767-795, `evaluateMaximumMagnitudeAsSoftConstraint`. -/
def NlHeap.softCost (lib : NlLib h K) (weight maxCost : K) : List (ℕ × Limit K) → K → NlHeap h K →
    Res (K × NlHeap h K)
  | [], acc, H => .ok (acc, H)
  | l :: ls, acc, H => do
    let r ← H.evaluateLimit lib l
    NlHeap.softCost lib weight maxCost ls (acc + softTerm lib.ex weight maxCost r.1 l.2.value) r.2

/-- nl:576-617 and 700-741, the common part of the objective functions. -/
def NlHeap.totalCost (lib : NlLib h K) (H : NlHeap h K) (a : ℕ) (times : List K) (richter : Bool) :
    Res (K × NlHeap h K) := do
  let c ← H.get a
  let costTrajectory ← c.lin.computeCost
  let total := totalTrajectoryTime times
  let costTime := if richter then total * c.params.timePenalty
    else total * total * c.params.timePenalty
  let s ← if c.params.useSoft then NlHeap.softCost lib c.params.softWeight (10 ^ 12) c.limits 0 H
    else pure (0, H)
  let c' ← s.2.get a
  pure (costTrajectory + costTime + s.1,
    s.2.put a { c' with info := { c'.info with nIterations := c'.info.nIterations + 1
                                               costTrajectory := costTrajectory
                                               costTime := costTime
                                               costSoft := s.1 } })

/-- nl:555-742, the objective function of each method; the one for the Mellinger method does not use the
limits. -/
def NlHeap.objective (lib : NlLib h K) (H : NlHeap h K) (a : ℕ) (x : List K) (grad : Bool) :
    Res (K × NlHeap h K) := do
  let c ← H.get a
  match c.params.method with
  | .squaredTime | .richterTime => do
    Res.check (grad = false)
    Res.check (x.length = c.lin.nSegments)
    let lin1 ← c.lin.updateSegmentTimes lib.inv x
    let lin2 ← lin1.solveLinear lib.solve
    (H.put a { c with lin := lin2 }).totalCost lib a x (c.params.method = .richterTime)
  | .mellingerOuterLoop => do
    let r ← (H.view c).objectiveMellinger lib x grad
    pure (r.1, H.put a { c with lin := r.2.2.lin, info := r.2.2.info })
  | _ => do
    Res.check (grad = false)
    let nSeg := c.lin.nSegments
    let nFree := c.lin.nFree
    Res.check (x.length = nSeg + nFree * c.lin.dimension)
    let times := x.take nSeg
    let free := (List.range c.lin.dimension).map fun d => (x.drop (nSeg + d * nFree)).take nFree
    let lin1 ← c.lin.updateSegmentTimes lib.inv times
    let lin2 ← lin1.setFreeConstraints free
    (H.put a { c with lin := lin2 }).totalCost lib a times (c.params.method = .richterTimeAndConstraints)

/-- A callback of NLopt during an optimisation started on the object `a`: the objective function is set with
`this` (nl:150, 197, 501), the constraints are those of the NLopt object (nl:541). -/
def NlHeap.answer (lib : NlLib h K) (H : NlHeap h K) (a : ℕ) : NlQuery K → Res (K × NlHeap h K)
  | .objective x grad => H.objective lib a x grad
  | .constraint i _ grad => do
    let c ← H.get a
    Res.check (grad = false)
    match c.handle with
    | none => Res.ub
    | some r => do
      let s ← Res.at' H.shared r
      let l ← Res.at' s.hard i
      H.evaluateLimit lib l

/-- nl:54-89, `setupFromVertices`: `nlopt_` gets a new NLopt object, the limits stay. -/
def NlHeap.setup (lib : NlLib h K) (H : NlHeap h K) (a : ℕ) (vertices : List (Vertex K)) (times : List K)
    (k : ℤ) : Res (NlHeap h K) := do
  let c ← H.get a
  let lin ← c.lin.setupFromVertices lib.inv vertices times k
  let n := match c.params.method with
    | .squaredTime | .richterTime | .mellingerOuterLoop => times.length
    | _ => times.length + lin.nFree * lin.dimension
  pure ⟨H.cells.set a (some { c with lin := lin, handle := some H.shared.length }), H.shared ++ [⟨n, []⟩]⟩

/-- nl:525-553, `addMaximumMagnitudeConstraint`. -/
def NlHeap.addLimit (H : NlHeap h K) (a : ℕ) (accepts : Bool) (d : ℤ) (value : K) :
    Res (Bool × NlHeap h K) := do
  let c ← H.get a
  Res.check (0 ≤ d)
  Res.check (0 ≤ value)
  let c' : NlCell h K := { c with limits := c.limits ++ [(a, ⟨d, value⟩)] }
  if c.params.useSoft then pure (true, H.put a c')
  else
    match c.handle with
    | none => Res.ub
    | some r =>
      if accepts then
        pure (true, ⟨(H.put a c').cells,
          H.shared.modify r fun s => { s with hard := s.hard ++ [(a, ⟨d, value⟩)] }⟩)
      else pure (false, H.put a c')

/-- One call: what it returns and the objects afterwards. -/
def NlHeap.run (lib : NlLib h K) (H : NlHeap h K) : NlOp K → Res (NlOut K × NlHeap h K)
  | .new dim params =>
    pure (.nothing, { H with cells := H.cells ++ [some ⟨none, LinOpt.new dim, params, [], NlInfo.default⟩] })
  | .setup a vertices times k => do
    let H' ← H.setup lib a vertices times k
    pure (.nothing, H')
  | .solve a => do
    let c ← H.get a
    let lin ← c.lin.solveLinear lib.solve
    pure (.nothing, H.put a { c with lin := lin })
  | .limit a accepts d value => do
    let r ← H.addLimit a accepts d value
    pure (.flag r.1, r.2)
  | .callback a q => do
    let r ← H.answer lib a q
    pure (.value r.1, r.2)
  | .total a => do
    let c ← H.get a
    let cost ← c.lin.computeCost
    let total := c.lin.segmentTimes.foldl (· + ·) 0
    let s ← NlHeap.softCost lib c.params.softWeight (10 ^ 9) c.limits 0 H
    pure (.value (cost + total * total * c.params.timePenalty + s.1), s.2)
  | .copy a => do
    let c ← H.get a
    pure (.nothing, { H with cells := H.cells ++ [some c] })
  | .assign a b => do
    let c ← H.get a
    let _ ← H.get b
    pure (.nothing, { H with cells := H.cells.set b (some c) })
  | .destroy a => do
    let _ ← H.get a
    pure (.nothing, { H with cells := H.cells.set a none })

/-- A program: the calls one after the other. -/
def NlHeap.runs (lib : NlLib h K) : List (NlOp K) → NlHeap h K → Res (List (NlOut K) × NlHeap h K)
  | [], H => .ok ([], H)
  | op :: ops, H => do
    let r ← H.run lib op
    let rs ← NlHeap.runs lib ops r.2
    pure (r.1 :: rs.1, rs.2)

end
end Verif
