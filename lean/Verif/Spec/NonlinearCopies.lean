import Verif.Model.NonlinearCopies

/-!
What a user expects of several optimisers in one program: each is a value of its own. A call changes only
the object it is made on, and a copy, or an object assigned to, behaves as the original would.
-/
namespace Verif.Spec

variable {K : Type} {h : ℕ}

/-- The objects by address. -/
abbrev NlWorld (h : ℕ) (K : Type) := List (Option (NlOpt h K))

/-- What is stored in memory, without the pointers. -/
def _root_.Verif.NlHeap.world (H : NlHeap h K) : NlWorld h K := H.cells.map (Option.map H.view)

/-- Access to an object. -/
def worldGet (W : NlWorld h K) (a : ℕ) : Res (NlOpt h K) :=
  match W[a]? with
  | some (some o) => .ok o
  | _ => .ub

variable [Field K] [LinearOrder K]

/-- One call: it is made on the object on its own, and the others stay as they are. -/
def worldRun (lib : NlLib h K) (W : NlWorld h K) : NlOp K → Res (NlOut K × NlWorld h K)
  | .new dim params => pure (.nothing, W ++ [some (NlOpt.new dim params)])
  | .setup a vertices times k => do
    let o ← worldGet W a
    let o' ← o.setupFromVertices lib vertices times k
    pure (.nothing, W.set a (some o'))
  | .solve a => do
    let o ← worldGet W a
    let o' ← o.solveLinear lib
    pure (.nothing, W.set a (some o'))
  | .limit a accepts d value => do
    let o ← worldGet W a
    let r ← o.addMaximumMagnitudeConstraint accepts d value
    pure (.flag r.1, W.set a (some r.2))
  | .callback a q => do
    let o ← worldGet W a
    let r ← o.answer lib (NlOpt.objective lib o.params.method) q
    pure (.value r.1, W.set a (some r.2))
  | .total a => do
    let o ← worldGet W a
    let r ← o.getTotalCost lib
    pure (.value r.1, W.set a (some r.2))
  | .copy a => do
    let o ← worldGet W a
    pure (.nothing, W ++ [some o])
  | .assign a b => do
    let o ← worldGet W a
    let _ ← worldGet W b
    pure (.nothing, W.set b (some o))
  | .destroy a => do
    let _ ← worldGet W a
    pure (.nothing, W.set a none)

/-- A program. -/
def worldRuns (lib : NlLib h K) : List (NlOp K) → NlWorld h K → Res (List (NlOut K) × NlWorld h K)
  | [], W => .ok ([], W)
  | op :: ops, W => do
    let r ← worldRun lib W op
    let rs ← worldRuns lib ops r.2
    pure (r.1 :: rs.1, rs.2)

/-- An object that can be copied without harm: no limit was added to it, and, if its limits are to be hard,
it was not set up. -/
def CopySafe (o : NlOpt h K) : Prop :=
  o.constraints = [] ∧ (o.params.useSoft = true ∨ o.handle = none)

/-- `op` copies the object `a`, by construction of another one or by assignment to another one. -/
def CopiesObject (a : ℕ) (op : NlOp K) : Prop :=
  op = .copy a ∨ ∃ b, b ≠ a ∧ op = .assign a b

/-- All copies in the program are of such objects. -/
def CopiesSafe (lib : NlLib h K) (ops : List (NlOp K)) : Prop :=
  ∀ pre op a post outs W o, ops = pre ++ op :: post → CopiesObject a op → worldRuns lib pre [] = .ok (outs, W) →
    W[a]? = some (some o) → CopySafe o

end Verif.Spec
