import Verif.Spec.FeasibilityApprox
import Verif.Spec.RoundedFeasibility

/-
Specification side for the decisions of the recursive feasibility check: the limits hold with a margin.
-/
namespace Verif.Spec

/-- The translational limits hold at time `t` with the margins `e 1` in the speed, `e 2` in the thrust and `e 3` in the jerk. The
check only divides by thrusts above `10⁻³`. -/
structure LimitsWithin (e : ℕ → ℝ) (ic : InputConstraints ℝ) (g : Fin 3 → ℝ) (ps : List (Poly ℝ)) (t : ℝ) : Prop where
  fMin : ∀ l, ic.getConstraint kFMin = some l → l + e 2 ≤ thrust g ps t
  fMax : ∀ l, ic.getConstraint kFMax = some l → thrust g ps t + e 2 ≤ l
  vMax : ∀ l, ic.getConstraint kVMax = some l → speed ps t + e 1 ≤ l
  omegaXY : ∀ l, ic.getConstraint kOmegaXYMax = some l →
    1 / 1000 + e 2 < thrust g ps t ∧ jerk ps t + e 3 ≤ l * (thrust g ps t - e 2)

/-- How much the norm of the `k`-th derivative of the position changes at most in the time `τ`, when the derivatives of the
coordinates are bounded by `B`. -/
noncomputable def variation (B : ℕ → ℝ) (τ : ℝ) (k : ℕ) : ℝ := Real.sqrt 3 * (B (k + 1) * τ)

variable {rnd : ℝ → ℝ}

/-- The translational limits, which are rounded numbers, hold at time `t` with the margins `ρ` times the limit and `e 1` in the
speed, `e 2` in the thrust and `e 3` in the jerk. -/
structure LimitsWithinFl (ρ : ℝ) (e : ℕ → ℝ) (ic : InputConstraints (Fl rnd)) (g : Fin 3 → Fl rnd) (ps : List (Poly ℝ)) (t : ℝ) :
    Prop where
  fMin : ∀ l, ic.getConstraint kFMin = some l → l.val + ρ * |l.val| + e 2 ≤ thrust (fun i => (g i).val) ps t
  fMax : ∀ l, ic.getConstraint kFMax = some l → thrust (fun i => (g i).val) ps t + ρ * |l.val| + e 2 ≤ l.val
  vMax : ∀ l, ic.getConstraint kVMax = some l → speed ps t + ρ * |l.val| + e 1 ≤ l.val
  omegaXY : ∀ l, ic.getConstraint kOmegaXYMax = some l →
    1 / 900 + e 2 < thrust (fun i => (g i).val) ps t ∧
      jerk ps t + e 3 ≤ l.val * (1 - ρ) * (thrust (fun i => (g i).val) ps t - e 2)

/-- The yaw limits hold at time `t` with the margins `e 1` in the rate and `e 2` in the acceleration. -/
structure YawLimitsWithin (e : ℕ → ℝ) (ic : InputConstraints (Fl rnd)) (ps : List (Poly ℝ)) (t : ℝ) : Prop where
  omegaZ : ∀ l, ic.getConstraint kOmegaZMax = some l → |yaw ps 1 t| + e 1 ≤ l.val
  omegaZDot : ∀ l, ic.getConstraint kOmegaZDotMax = some l → |yaw ps 2 t| + e 2 ≤ l.val

/-- How much a computed speed (`1`), thrust (`2`) or jerk (`3`) differs at most from the exact one at a time that is at most `τ`
away: `√3` times the error of one component and its change. -/
noncomputable def variationFl (E B : ℕ → ℝ) (F τ : ℝ) (k : ℕ) : ℝ :=
  Real.sqrt 3 * ((if k = 2 then F else E k) + B (k + 1) * τ)

end Verif.Spec
