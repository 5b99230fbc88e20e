import Verif.Spec.Feasibility

/-
Specification side for the feasibility checks with a root finder of limited accuracy: the limits of
`Verif.Spec.Feasibility` up to an error.
-/
namespace Verif.Spec

open Set

/-- The translational limits hold at time `t` up to errors `e 1` in the speed, `e 2` in the thrust and `e 3` in
the jerk. -/
structure LimitsNear (e : ℕ → ℝ) (ic : InputConstraints ℝ) (g : Fin 3 → ℝ) (ps : List (Poly ℝ)) (t : ℝ) :
    Prop where
  fMin : ∀ l, ic.getConstraint kFMin = some l → l ≤ thrust g ps t + e 2
  fMax : ∀ l, ic.getConstraint kFMax = some l → thrust g ps t ≤ l + e 2
  vMax : ∀ l, ic.getConstraint kVMax = some l → speed ps t ≤ l + e 1
  omegaXY : ∀ l, ic.getConstraint kOmegaXYMax = some l →
    0 < thrust g ps t + e 2 ∧ jerk ps t ≤ l * (thrust g ps t + e 2) + e 3

/-- The yaw limits hold at time `t` up to errors `e 1` in the rate and `e 2` in the acceleration. -/
structure YawLimitsNear (e : ℕ → ℝ) (ic : InputConstraints ℝ) (ps : List (Poly ℝ)) (t : ℝ) : Prop where
  omegaZ : ∀ l, ic.getConstraint kOmegaZMax = some l → |yaw ps 1 t| ≤ l + e 1
  omegaZDot : ∀ l, ic.getConstraint kOmegaZDotMax = some l → |yaw ps 2 t| ≤ l + e 2

/-- Along the segment the `k`-th derivative of every coordinate is at most `B k` in absolute value, for
velocity to snap and one further derivative. -/
def DerivativesBelow (B : ℕ → ℝ) (ps : List (Poly ℝ)) (T : ℝ) : Prop :=
  ∀ k ≤ 5, ∀ t ∈ Icc 0 T, ∀ v ∈ valuesAt ps k t, |v| ≤ B k

end Verif.Spec
