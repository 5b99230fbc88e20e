import Verif.Model.NonlinearOptimization

/-
Model of what
mav_trajectory_generation/include/mav_trajectory_generation/impl/polynomial_optimization_nonlinear_impl.h (nl below)
hands over to NLopt besides the problem: algorithm, stopping criteria, tolerances and the seed. The generator of random
numbers of NLopt belongs to the program and not to an optimiser, so the state is that of a program with several
optimisers. All of it happens in one thread.
-/
namespace Verif

/-- nonlinear.h:37-84, the parameters that are only passed on. `equality_constraint_tolerance` is not used by the
code. An algorithm is a number. -/
structure NlSearch (K : Type) where
  fAbs : K
  fRel : K
  xRel : K
  xAbs : K
  inequalityTolerance : K
  maxIterations : ℤ
  algorithm : ℕ
  randomSeed : ℤ

/-- The settings of an object of NLopt. -/
structure NloptSettings (K : Type) where
  algorithm : ℕ
  n : ℕ
  ftolRel : K
  ftolAbs : K
  xtolRel : K
  xtolAbs : K
  maxeval : ℤ
  tolerances : List K

/-- NLopt: its generator of random numbers after `nlopt_srand` and `nlopt_srand_time` (with the reading of the clock),
whether it takes a constraint, and its run, given the state of the generator, its settings and the functions to
minimise. -/
structure NloptLib (S : Type) (h : ℕ) (K : Type) where
  seed : ℕ → S
  seedTime : ℕ → S
  accepts : NloptSettings K → Bool
  run : S → NloptSettings K → NlOpt h K → NlRun K × S

/-- nonlinear.h:292-304, an optimiser with all its parameters and the settings of its NLopt object. -/
structure NlFull (h : ℕ) (K : Type) where
  opt : NlOpt h K
  search : NlSearch K
  nlopt : Option (NloptSettings K)

section
variable {K : Type} [Field K] [LinearOrder K] {h : ℕ} {S : Type}

/-- nl:49-52, the constructor. -/
def NlFull.new (dim : ℕ) (params : NlParams K) (search : NlSearch K) : NlFull h K :=
  ⟨NlOpt.new dim params, search, none⟩

/-- nl:54-89, `setupFromVertices`: the optimiser and the generator afterwards. -/
def NlFull.setup (X : NloptLib S h K) (lib : NlLib h K) (f : NlFull h K) (vertices : List (Vertex K)) (times : List K)
    (k : ℤ) (clock : ℕ) : Res (NlFull h K × S) := do
  let o ← f.opt.setupFromVertices lib vertices times k
  pure (⟨o, f.search, o.handle.map fun hd => ⟨f.search.algorithm, hd.n, f.search.fRel, f.search.fAbs, f.search.xRel,
      f.search.xAbs, f.search.maxIterations, []⟩⟩,
    if f.search.randomSeed < 0 then X.seedTime clock else X.seed f.search.randomSeed.toNat)

/-- nl:91-94, `solveLinear`. -/
def NlFull.solve (lib : NlLib h K) (f : NlFull h K) : Res (NlFull h K) := do
  let o ← f.opt.solveLinear lib
  pure { f with opt := o }

/-- nl:537-547, whether NLopt takes a constraint; `nlopt_` is null before the first set-up (see
`NlOpt.addMaximumMagnitudeConstraint`). -/
def NlFull.accepts (X : NloptLib S h K) (f : NlFull h K) : Bool := match f.nlopt with
  | some s => X.accepts s
  | none => true

/-- nl:525-553, `addMaximumMagnitudeConstraint`. -/
def NlFull.add (X : NloptLib S h K) (f : NlFull h K) (d : ℤ) (value : K) : Res (Bool × NlFull h K) := do
  let r ← f.opt.addMaximumMagnitudeConstraint (f.accepts X) d value
  pure (r.1, ⟨r.2, f.search,
    if f.opt.params.useSoft = false ∧ f.accepts X = true then
      f.nlopt.map fun s => { s with tolerances := s.tolerances ++ [f.search.inequalityTolerance] }
    else f.nlopt⟩)

/-- nl:96-130, `optimize`: NLopt is not called for the method `kUnknown`. -/
def NlFull.optimize (X : NloptLib S h K) (lib : NlLib h K) (f : NlFull h K) (g : S) :
    Res ((ℤ × NlFull h K) × S) := do
  let r : NlRun K × S := if f.opt.params.method = .unknown then (⟨false, [], none, false⟩, g)
    else match f.nlopt with
      | some s => X.run g s f.opt
      | none => (⟨false, [], none, false⟩, g)
  let x ← f.opt.optimize lib r.1
  pure ((x.1, { f with opt := x.2 }), r.2)

/-- The optimisers of a program, by number, and the generator of random numbers of NLopt. -/
structure NlProgram (S : Type) (h : ℕ) (K : Type) where
  objs : ℕ → Option (NlFull h K)
  gen : S

/-- A call on the optimiser `id`. -/
inductive ProgCall (K : Type)
  | new (id dim : ℕ) (params : NlParams K) (search : NlSearch K)
  | setup (id : ℕ) (vertices : List (Vertex K)) (times : List K) (k : ℤ) (clock : ℕ)
  | solve (id : ℕ)
  | add (id : ℕ) (d : ℤ) (value : K)
  | optimize (id : ℕ)

/-- The optimiser a call is on. -/
def ProgCall.id : ProgCall K → ℕ
  | .new id _ _ _ => id
  | .setup id _ _ _ _ => id
  | .solve id => id
  | .add id _ _ => id
  | .optimize id => id

/-- What a call returns. -/
inductive ProgAnswer
  | done
  | flag (b : Bool)
  | code (c : ℤ)
  deriving DecidableEq, Repr

/-- The program with another optimiser at a number. -/
def NlProgram.put (w : NlProgram S h K) (id : ℕ) (f : NlFull h K) (g : S) : NlProgram S h K :=
  ⟨Function.update w.objs id (some f), g⟩

/-- An optimiser that must exist. -/
def NlProgram.get (w : NlProgram S h K) (id : ℕ) : Res (NlFull h K) :=
  match w.objs id with
  | some f => .ok f
  | none => .ub

/-- One call. -/
def NlProgram.step (X : NloptLib S h K) (lib : NlLib h K) (w : NlProgram S h K) : ProgCall K →
    Res (NlProgram S h K × ProgAnswer)
  | .new id dim params search => pure (w.put id (NlFull.new dim params search) w.gen, .done)
  | .setup id vertices times k clock => do
    let f ← w.get id
    let r ← f.setup X lib vertices times k clock
    pure (w.put id r.1 r.2, .done)
  | .solve id => do
    let f ← w.get id
    let r ← f.solve lib
    pure (w.put id r w.gen, .done)
  | .add id d value => do
    let f ← w.get id
    let r ← f.add X d value
    pure (w.put id r.2 w.gen, .flag r.1)
  | .optimize id => do
    let f ← w.get id
    let r ← f.optimize X lib w.gen
    pure (w.put id r.1.2 r.2, .code r.1.1)

/-- A sequence of calls: the program afterwards, and the answers with the number of the optimiser. -/
def NlProgram.run (X : NloptLib S h K) (lib : NlLib h K) : NlProgram S h K → List (ProgCall K) →
    Res (NlProgram S h K × List (ℕ × ProgAnswer))
  | w, [] => .ok (w, [])
  | w, e :: es => do
    let r ← w.step X lib e
    let s ← NlProgram.run X lib r.1 es
    pure (s.1, (e.id, r.2) :: s.2)

end
end Verif
