import Mathlib.Analysis.SpecialFunctions.Exp
import Verif.Spec.LinearOptimization
import Verif.Spec.Magnitude
import Verif.Model.NonlinearOptimization

/-
Specification side for the nonlinear optimiser: what is assumed of NLopt, and the calls a program can
make.
-/
namespace Verif.Spec

variable {K : Type}

/-- The point `x` lies within the bounds. -/
def Within [LE K] (lower upper x : List K) : Prop :=
  List.Forall₂ (· ≤ ·) lower x ∧ List.Forall₂ (· ≤ ·) x upper

/-- The methods that optimise the free derivatives together with the times. -/
def withDerivatives (m : TimeAlloc) : Prop :=
  m = .squaredTimeAndConstraints ∨ m = .richterTimeAndConstraints

instance (m : TimeAlloc) : Decidable (withDerivatives m) :=
  inferInstanceAs (Decidable (m = .squaredTimeAndConstraints ∨ m = .richterTimeAndConstraints))

/-- The segment times among the variables: all of them, or the first `n`. -/
def timePart (m : TimeAlloc) (n : ℕ) (x : List K) : List K :=
  match m with
  | .squaredTimeAndConstraints | .richterTimeAndConstraints => x.take n
  | _ => x

/-- Whether NLopt called the objective function. -/
def evaluated (run : NlRun K) : Prop := ∃ x g, NlQuery.objective x g ∈ run.queries

/-- The points at which the objective function was called, in order. -/
def points (qs : List (NlQuery K)) : List (List K) :=
  qs.filterMap fun q => match q with
    | .objective x _ => some x
    | .constraint _ _ _ => none

/-- What is assumed of a run of NLopt that was handed `a` and has `nHard` inequality constraints: the
objective function is only called within the bounds, with a gradient if and only if the algorithm uses
gradients, only existing constraints are called, and a result is only reported after the objective
function was called. -/
structure Respects [LE K] (a : NlArgs K) (nHard : ℕ) (gradients : Bool) (run : NlRun K) : Prop where
  objective : ∀ x g, NlQuery.objective x g ∈ run.queries → Within a.lower a.upper x ∧ g = gradients
  constraint : ∀ i x g, NlQuery.constraint i x g ∈ run.queries → i < nHard ∧ g = gradients
  reports : run.code ≠ none ∨ run.wroteCost = true → evaluated run

section
variable [Field K] [LinearOrder K] {h : ℕ}

/-- The run is one NLopt can make when `optimize()` is called on `o`. -/
def RunOf (lib : NlLib h K) (gradients : Bool) (o : NlOpt h K) (run : NlRun K) : Prop :=
  o.params.method ≠ .unknown → ∀ p a hd, NlOpt.prepare lib { o with info := NlInfo.default } = .ok (p, a) →
    o.handle = some hd → Respects a hd.hard.length gradients run

/-- All nonlinear optimiser objects a program can have. -/
inductive NlReachable (lib : NlLib h K) : NlOpt h K → Prop
  | new (dim : ℕ) (params : NlParams K) : NlReachable lib (NlOpt.new dim params)
  | setup {o o' vs ts} {k : ℤ} : NlReachable lib o → o.setupFromVertices lib vs ts k = .ok o' →
      NlReachable lib o'
  | solveLinear {o o'} : NlReachable lib o → o.solveLinear lib = .ok o' → NlReachable lib o'
  | add {o o' b acc d v} : NlReachable lib o →
      o.addMaximumMagnitudeConstraint acc d v = .ok (b, o') → NlReachable lib o'
  | optimize {o o' run c} : NlReachable lib o → o.optimize lib run = .ok (c, o') → NlReachable lib o'
  | scale {o o'} : NlReachable lib o → o.scaleWithViolation lib = .ok o' → NlReachable lib o'
  | total {o o' c} : NlReachable lib o → o.getTotalCost lib = .ok (c, o') → NlReachable lib o'

/-- A nonlinear optimiser on which `setupFromVertices` was called with the given vertices and order,
followed by any other calls; the flag tells whether since then a trajectory was computed, by
`solveLinear()`, by an evaluation of the objective function or by the start of an optimisation of times
and derivatives. Nothing is asked of what was done with the object before, and nothing of NLopt except
`RunOf`. -/
inductive NlSession (lib : NlLib h K) (vertices : List (Vertex K)) (k : ℕ) : Prop → NlOpt h K → Prop
  | setup {o o' times} : NlReachable lib o → Problem h o.lin.dimension vertices times →
      o.setupFromVertices lib vertices times k = .ok o' → NlSession lib vertices k False o'
  | solveLinear {b o o'} : NlSession lib vertices k b o → o.solveLinear lib = .ok o' →
      NlSession lib vertices k True o'
  | add {b o o' r acc d v} : NlSession lib vertices k b o →
      o.addMaximumMagnitudeConstraint acc d v = .ok (r, o') → NlSession lib vertices k b o'
  | optimize {b o o' run c} {gradients : Bool} : NlSession lib vertices k b o → RunOf lib gradients o run →
      o.optimize lib run = .ok (c, o') →
      NlSession lib vertices k (b ∨ (evaluated run ∧ run.setupThrows = false ∧ o.params.method ≠ .unknown) ∨
        o.params.method = .squaredTimeAndConstraints ∨
        o.params.method = .richterTimeAndConstraints) o'
  | scale {o o'} : NlSession lib vertices k True o → o.scaleWithViolation lib = .ok o' →
      NlSession lib vertices k True o'
  | total {b o o' c} : NlSession lib vertices k b o → o.getTotalCost lib = .ok (c, o') →
      NlSession lib vertices k b o'

/-- A nonlinear optimiser together with the limits that were added to it since it was constructed, and
those of them for which the call returned `true` and that were added after the last setup. -/
inductive NlLog (lib : NlLib h K) : List (Limit K) → List (Limit K) → NlOpt h K → Prop
  | new (dim : ℕ) (params : NlParams K) : NlLog lib [] [] (NlOpt.new dim params)
  | setup {all since o o' vs ts} {k : ℤ} : NlLog lib all since o →
      o.setupFromVertices lib vs ts k = .ok o' → NlLog lib all [] o'
  | solveLinear {all since o o'} : NlLog lib all since o → o.solveLinear lib = .ok o' →
      NlLog lib all since o'
  | add {all since o o'} {b acc : Bool} {d v} : NlLog lib all since o →
      o.addMaximumMagnitudeConstraint acc d v = .ok (b, o') →
      NlLog lib (all ++ [⟨d, v⟩]) (if b then since ++ [⟨d, v⟩] else since) o'
  | optimize {all since o o' run c} : NlLog lib all since o → o.optimize lib run = .ok (c, o') →
      NlLog lib all since o'
  | scale {all since o o'} : NlLog lib all since o → o.scaleWithViolation lib = .ok o' →
      NlLog lib all since o'
  | total {all since o o' c} : NlLog lib all since o → o.getTotalCost lib = .ok (c, o') →
      NlLog lib all since o'

end

/-- The derivatives of order below `n` that are left free, vertex by vertex, by increasing order: pairs
of a vertex and an order. -/
def freeOrder (n : ℕ) (vertices : List (Vertex K)) : List (ℕ × ℕ) :=
  (List.range vertices.length).flatMap fun i =>
    ((List.range n).filter fun m => ((vertices[i]?).bind fun v => v.getConstraint ((m : ℕ) : ℤ)).isNone).map
      fun m => (i, m)

/-- Derivative `m` of dimension `d` has the value `y` at vertex `i`: at the start of the segment that
begins there and at the end of the segment that ends there. -/
def AtVertex [CommSemiring K] (segs : List (Segment K)) (i d m : ℕ) (y : K) : Prop :=
  (∀ s : Segment K, segs[i]? = some s → segDeriv s d m 0 = y) ∧
  (∀ (j : ℕ) (s : Segment K), i = j + 1 → segs[j]? = some s → segDeriv s d m s.time = y)

/-- The bound on derivatives of order `m` that the limits ask for: the value of the last limit on this
order, and the largest number if there is none. -/
def bound [Field K] [LinearOrder K] (limits : List (Limit K)) (m : ℕ) : K :=
  (((limits.filter fun c => decide (c.derivative = ((m : ℕ) : ℤ))).getLast?).map fun c => |c.value|).getD dblMax

/-- The claim of C71 for one optimiser: each component of a free derivative of order `m` is kept between
plus and minus the limit on this order (widened to contain the value it starts with). -/
def BoundsRight (vertices : List (Vertex ℝ)) (h : ℕ) (dim : ℕ) (limits : List (Limit ℝ)) (a : NlArgs ℝ) :
    Prop :=
  ∀ (e i m d : ℕ) (y : ℝ), (freeOrder h vertices)[e]? = some (i, m) → d < dim →
    a.start[vertices.length - 1 + d * (freeOrder h vertices).length + e]? = some y →
    a.lower[vertices.length - 1 + d * (freeOrder h vertices).length + e]? = some (min y (-bound limits m)) ∧
    a.upper[vertices.length - 1 + d * (freeOrder h vertices).length + e]? = some (max y (bound limits m))

/-- What is assumed of the libraries: the root finder finds all real roots, `sqrt` and `exp` are exact,
`inverse()` inverts and the sparse solver solves. -/
structure LibSpec {h : ℕ} (lib : NlLib h ℝ) : Prop where
  rf : Complete lib.rf
  sq : lib.sq = Real.sqrt
  ex : lib.ex = Real.exp
  inv : IsInverse lib.inv
  solve : IsSolver lib.solve

/-- The segments have the given durations, meet the constraints of the vertices, agree where they meet,
and no other segments that do so have a smaller cost. -/
def Optimal (h k dim : ℕ) (vertices : List (Vertex ℝ)) (times : List ℝ) (segs : List (Segment ℝ)) : Prop :=
  (Shape (h + h) dim times segs ∧ MeetsConstraints h dim vertices segs ∧ Spec.Continuous h dim segs) ∧
  ∀ segs', Shape (h + h) dim times segs' → MeetsConstraints h dim vertices segs' →
    Spec.Continuous h dim segs' → cost k segs ≤ cost k segs'

/-- `J` is the smallest cost possible with the given durations. -/
def IsMinCost (h k dim : ℕ) (vertices : List (Vertex ℝ)) (times : List ℝ) (J : ℝ) : Prop :=
  ∃ segs, Optimal h k dim vertices times segs ∧ J = cost k segs

/-- The times with the `i`-th longer by 0.1 and the others shorter by as much in total, but none below
0.1. -/
noncomputable def perturbed (times : List ℝ) (i : ℕ) : List ℝ :=
  (List.range times.length).map fun j =>
    max (1 / 10) (if j = i then times.getD j 0 + 1 / 10
      else times.getD j 0 - 1 / 10 / ((times.length : ℝ) - 1))

/-- All norms of the derivative `d` that occur on the segments. -/
def norms (dim : ℕ) (segs : List (Segment ℝ)) (d : ℕ) : Set ℝ :=
  {m | ∃ s ∈ segs, ∃ t ∈ Set.Icc 0 s.time, m = magnitude s.polys (List.range dim) d t}

/-- The largest norm of derivative `d` on the segments. -/
noncomputable def peak (dim : ℕ) (segs : List (Segment ℝ)) (d : ℕ) : ℝ := sSup (norms dim segs d)

/-- The penalty for exceeding (or meeting) a limit: it grows exponentially with the relative
violation, up to `cap`. -/
noncomputable def penalty (w cap : ℝ) (dim : ℕ) (segs : List (Segment ℝ)) (c : Limit ℝ) : ℝ :=
  min cap (Real.exp (w * ((peak dim segs c.derivative.toNat - c.value) / c.value)))

/-- The documented objective: the cost of the trajectory, a penalty on the total time (`T` or `T²`) and,
if limits are soft, a penalty for each. -/
noncomputable def objectiveValue (k dim : ℕ) (params : NlParams ℝ) (linear : Prop) [Decidable linear]
    (limits : List (Limit ℝ)) (times : List ℝ) (segs : List (Segment ℝ)) : ℝ :=
  cost k segs + params.timePenalty * (if linear then times.sum else times.sum ^ 2) +
    (if params.useSoft then (limits.map (penalty params.softWeight (10 ^ 12) dim segs)).sum else 0)

/-- The objective of each method: the Mellinger method looks at the cost of the trajectory only. -/
noncomputable def methodValue (k dim : ℕ) (params : NlParams ℝ) (limits : List (Limit ℝ))
    (times : List ℝ) (segs : List (Segment ℝ)) : ℝ :=
  if params.method = .mellingerOuterLoop then cost k segs
  else objectiveValue k dim params
    (params.method = .richterTime ∨ params.method = .richterTimeAndConstraints) limits times segs

/-- Limits that can be evaluated: on a derivative of order below `N-1`, with a positive value. -/
def LimitsOk (h : ℕ) (limits : List (Limit ℝ)) : Prop :=
  ∀ c ∈ limits, 0 ≤ c.derivative ∧ c.derivative < (h : ℤ) + h - 1 ∧ 0 < c.value

/-- `v` is the limit on derivative `d` that was added last. -/
def LastLimit (d : ℤ) (v : ℝ) (limits : List (Limit ℝ)) : Prop :=
  ∃ before after, limits = before ++ ⟨d, v⟩ :: after ∧ ∀ c ∈ after, c.derivative ≠ d

/-- The norms of velocity and acceleration stay below the largest number of type `double`. -/
def Moderate (dim : ℕ) (segs : List (Segment ℝ)) : Prop :=
  ∀ s ∈ segs, ∀ t ∈ Set.Icc 0 s.time,
    magnitude s.polys (List.range dim) 1 t < dblMax ∧ magnitude s.polys (List.range dim) 2 t < dblMax

/-- The norm of derivative `m` of the trajectory is at most `bound` at all times. -/
def WithinLimit (tr : Trajectory ℝ) (m : ℕ) (bound : ℝ) : Prop :=
  ∀ t ∈ Set.Icc 0 tr.maxTime, ∃ v, tr.evaluate t m = .ok v ∧ v.length = tr.D ∧
    Real.sqrt (v.map (· ^ 2)).sum ≤ bound

end Verif.Spec
