import Verif.Spec.Timing

/-! Specification side for the printed table of timers. -/
namespace Verif.Spec

variable {K : Type} [Field K] [LinearOrder K]

/-- The names for which a handle was requested since the last Reset. -/
def openNames (ops : List (TimingOp K)) : List String :=
  ops.foldl (fun names op => match op with
    | .getHandle tag => tag :: names
    | .addTime _ _ => names
    | .reset => []) []

/-- The largest of the samples and of the smallest positive normal double. -/
def largest (xs : List K) : K := xs.foldr max (1 / 2 ^ 1022)

/-- The smallest of the samples and of the largest double. -/
def smallest (xs : List K) : K := xs.foldr min dblMax

end Verif.Spec
