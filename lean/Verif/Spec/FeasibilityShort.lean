import Verif.Model.Feasibility
import Mathlib.Data.Real.Basic

/- How many coefficients the feasibility checks need, by the limits that are set. -/
namespace Verif.Spec

/-- The derivatives whose zeros the recursive check computes exist: the acceleration for a speed limit, the jerk
for thrust limits and roll and pitch rates, the snap for roll and pitch rates. -/
structure Enough (ic : InputConstraints ℝ) (n : ℕ) : Prop where
  speed : ic.hasConstraint kVMax = true → 2 ≤ n
  thrust : (ic.hasConstraint kFMin = true ∨ ic.hasConstraint kFMax = true ∨
    ic.hasConstraint kOmegaXYMax = true) → 3 ≤ n
  rates : ic.hasConstraint kOmegaXYMax = true → 4 ≤ n

/-- The derivatives the analytic check needs exist. -/
structure EnoughAnalytic (ic : InputConstraints ℝ) (n : ℕ) : Prop where
  always : 2 ≤ n
  thrust : (ic.hasConstraint kFMin = true ∨ ic.hasConstraint kFMax = true ∨
    ic.hasConstraint kOmegaXYMax = true) → 3 ≤ n
  rates : ic.hasConstraint kOmegaXYMax = true → 4 ≤ n

end Verif.Spec
