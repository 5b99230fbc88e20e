import Verif.Model.DebugOutput

/-! Specification side for the debug output: the result without the output, and what the output should say. -/
namespace Verif.Spec

variable {K : Type}

/-- How a call that also prints ends, without what it prints. -/
def resultOf {α : Type} : Res (α × List (DebugLine K)) → Res α
  | .ok x => .ok x.1
  | .abort => .abort
  | .throws => .throws
  | .ub => .ub
  | .hang => .hang

/-- The costs shown by the debug output, in order. -/
def shownCosts (log : List (DebugLine K)) : List K :=
  log.filterMap fun
    | .sum s _ => some s
    | .mellinger _ _ s => some s
    | _ => none

/-- The numbers of iterations shown by the debug output, in order. -/
def shownIterations (log : List (DebugLine K)) : List ℕ :=
  log.filterMap fun
    | .cost i _ _ => some i
    | .mellinger i _ _ => some i
    | _ => none

/-- The costs of soft constraints shown by the debug output, in order. -/
def shownSoft (log : List (DebugLine K)) : List K :=
  log.filterMap fun
    | .soft _ _ c => some c
    | _ => none

/-- The values a run returns to NLopt for the objective function, given the values for all callbacks. -/
def objectiveValues : List (NlQuery K) → List K → List K
  | .objective _ _ :: qs, v :: vs => v :: objectiveValues qs vs
  | .constraint _ _ _ :: qs, _ :: vs => objectiveValues qs vs
  | _, _ => []

/-- The segment times shown before the scaling, after it, and the maxima shown after it. -/
def shownScaled (log : List (DebugLine K)) : List (List K) :=
  log.filterMap fun
    | .solution ts => some ts
    | _ => none

/-- The maxima of velocity and acceleration shown after the scaling. -/
def shownMaxima (log : List (DebugLine K)) : List (K × K) :=
  log.filterMap fun
    | .scalingEnd v _ a _ => some (v, a)
    | _ => none

end Verif.Spec
