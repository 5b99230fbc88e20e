import Mathlib.Analysis.Real.Sqrt
import Mathlib.Algebra.BigOperators.Fin
import Verif.Spec.Trajectory
import Verif.Model.Feasibility

/-
Specification side for the feasibility checks: the physical quantities along a segment whose first three
dimensions are the position, and what the limits say about them.
-/
namespace Verif.Spec

open Set

/-- The `k`-th derivative of the position (the first three dimensions) at time `t`. -/
noncomputable def vec3 (ps : List (Poly ℝ)) (k : ℕ) (t : ℝ) : Fin 3 → ℝ :=
  fun i => (valuesAt ps k t).getD i 0

/-- The mass-normalised thrust: the Euclidean norm of acceleration plus gravity. -/
noncomputable def thrust (g : Fin 3 → ℝ) (ps : List (Poly ℝ)) (t : ℝ) : ℝ :=
  Real.sqrt (∑ i, (vec3 ps 2 t i + g i) ^ 2)

/-- The speed. -/
noncomputable def speed (ps : List (Poly ℝ)) (t : ℝ) : ℝ := Real.sqrt (∑ i, vec3 ps 1 t i ^ 2)

/-- The norm of the jerk. -/
noncomputable def jerk (ps : List (Poly ℝ)) (t : ℝ) : ℝ := Real.sqrt (∑ i, vec3 ps 3 t i ^ 2)

/-- The `k`-th derivative of the yaw angle (dimension 3). -/
noncomputable def yaw (ps : List (Poly ℝ)) (k : ℕ) (t : ℝ) : ℝ := (valuesAt ps k t).getD 3 0

/-- A point lies strictly on the side of the half plane its normal points to. -/
def Inside (hp : HalfPlane ℝ) (x : Fin 3 → ℝ) : Prop := 0 < ∑ i, (x i - hp.point i) * hp.normal i

/-- The translational limits hold at time `t`; the roll and pitch rate is bounded by jerk / thrust. -/
structure LimitsHold (ic : InputConstraints ℝ) (g : Fin 3 → ℝ) (ps : List (Poly ℝ)) (t : ℝ) : Prop where
  fMin : ∀ l, ic.getConstraint kFMin = some l → l ≤ thrust g ps t
  fMax : ∀ l, ic.getConstraint kFMax = some l → thrust g ps t ≤ l
  vMax : ∀ l, ic.getConstraint kVMax = some l → speed ps t ≤ l
  omegaXY : ∀ l, ic.getConstraint kOmegaXYMax = some l → 0 < thrust g ps t ∧ jerk ps t / thrust g ps t ≤ l

/-- The yaw limits hold at time `t`. -/
structure YawLimitsHold (ic : InputConstraints ℝ) (ps : List (Poly ℝ)) (t : ℝ) : Prop where
  omegaZ : ∀ l, ic.getConstraint kOmegaZMax = some l → |yaw ps 1 t| ≤ l
  omegaZDot : ∀ l, ic.getConstraint kOmegaZDotMax = some l → |yaw ps 2 t| ≤ l

/-- The limit a verdict names is violated at time `t`. -/
def Violated (ic : InputConstraints ℝ) (g : Fin 3 → ℝ) (ps : List (Poly ℝ)) (t : ℝ) : Verdict → Prop
  | .thrustHigh => ∃ l, ic.getConstraint kFMax = some l ∧ l < thrust g ps t
  | .thrustLow => ∃ l, ic.getConstraint kFMin = some l ∧ thrust g ps t < l
  | .velocity => ∃ l, ic.getConstraint kVMax = some l ∧ l < speed ps t
  | .rollPitchRates => ∃ l, ic.getConstraint kOmegaXYMax = some l ∧ l < jerk ps t / thrust g ps t
  | .yawRates => ∃ l, ic.getConstraint kOmegaZMax = some l ∧ l < |yaw ps 1 t|
  | .yawAcc => ∃ l, ic.getConstraint kOmegaZDotMax = some l ∧ l < |yaw ps 2 t|
  | .feasible => False
  | .indeterminable => False

end Verif.Spec

namespace Verif.Spec

open Set

/-- Position, velocity, acceleration and jerk along the segment are below the largest double, and so are
yaw rate and yaw acceleration. -/
structure Bounded (ps : List (Poly ℝ)) (T : ℝ) : Prop where
  vec : ∀ k ≤ 3, ∀ i, ∀ t ∈ Icc 0 T, |vec3 ps k t i| < dblMax
  yaw : ∀ k ≤ 2, ∀ t ∈ Icc 0 T, |yaw ps k t| < dblMax

end Verif.Spec

namespace Verif.Spec

/-- A state of the vehicle meets all limits. -/
structure StateMeets (ic : InputConstraints ℝ) (m : MavState ℝ) : Prop where
  fMin : ∀ l, ic.getConstraint kFMin = some l → l ≤ m.thrust
  fMax : ∀ l, ic.getConstraint kFMax = some l → m.thrust ≤ l
  vMax : ∀ l, ic.getConstraint kVMax = some l → m.speed ≤ l
  omegaXY : ∀ l, ic.getConstraint kOmegaXYMax = some l → m.omegaXY ≤ l
  omegaZ : ∀ l, ic.getConstraint kOmegaZMax = some l → |m.omegaZ| ≤ l
  omegaZDot : ∀ l, ic.getConstraint kOmegaZDotMax = some l → |m.omegaZDot| ≤ l

/-- A state of the vehicle violates the limit a verdict names. -/
def StateViolates (ic : InputConstraints ℝ) (m : MavState ℝ) : Verdict → Prop
  | .thrustHigh => ∃ l, ic.getConstraint kFMax = some l ∧ l < m.thrust
  | .thrustLow => ∃ l, ic.getConstraint kFMin = some l ∧ m.thrust < l
  | .velocity => ∃ l, ic.getConstraint kVMax = some l ∧ l < m.speed
  | .rollPitchRates => ∃ l, ic.getConstraint kOmegaXYMax = some l ∧ l < m.omegaXY
  | .yawRates => ∃ l, ic.getConstraint kOmegaZMax = some l ∧ l < |m.omegaZ|
  | .yawAcc => ∃ l, ic.getConstraint kOmegaZDotMax = some l ∧ l < |m.omegaZDot|
  | .feasible => False
  | .indeterminable => False

/-- Position to snap of a segment at time `t`, all dimensions. -/
noncomputable def flatState (ps : List (Poly ℝ)) (t : ℝ) : List (List ℝ) :=
  [0, 1, 2, 3, 4].map fun k => valuesAt ps k t

end Verif.Spec
