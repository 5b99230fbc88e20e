import Verif.Spec.Feasibility
import Verif.Spec.RoundedMagnitude
import Verif.Spec.RoundedMapping
import Verif.Spec.RoundedExtrema

/-
Specification side for the recursive feasibility check with rounded numbers.
-/
namespace Verif.Spec

variable {rnd : ℝ → ℝ}

/-- The `k`-th derivative of dimension `i` at `T` with all terms taken as positive: a bound at all times of absolute value at
most `T`. -/
noncomputable def axisSize (s : Segment (Fl rnd)) (k i : ℕ) (T : ℝ) : ℝ :=
  (valuesAt (s.polys.map fun p => ⟨(vals p.coeffs).map abs⟩) k T).getD i 0

/-- Error bounds for a segment: `E k` is at least the error of an evaluation of the `k`-th derivative of one dimension, `B k`
bounds the `k`-th derivatives, and `F` is at least the error of one component of acceleration plus gravity. All results are
below the largest `double`. -/
structure FeasErrors (u : ℝ) (s : Segment (Fl rnd)) (g : Fin 3 → Fl rnd) (E B : ℕ → ℝ) (F : ℝ) : Prop where
  eval : ∀ k ≤ 3, ∀ i < s.D, ((1 + u) ^ (2 * s.N) - 1) * axisSize s k i s.time.val ≤ E k
  second : ∀ k ≤ 3, ∀ i < s.D, (1 + u) ^ (2 * s.N) * axisSize s (k + 2) i s.time.val ≤ B (k + 2)
  thrust : ∀ i : Fin 3, E 2 + u * (axisSize s 2 i s.time.val + E 2 + |(g i).val|) ≤ F
  finite : ∀ k ≤ 3, ∀ i < s.D, axisSize s k i s.time.val + E k < dblMax

/-- What is assumed of a segment, the limits and the settings of the check: three or four dimensions, at least four coefficients,
error bounds as above, a limit of the roll and pitch rates below the largest `double`, and a smallest section `m` that is positive
and not below the rounding of the times. -/
structure FeasInput (u : ℝ) (ic : InputConstraints (Fl rnd)) (g : Fin 3 → Fl rnd) (m : Fl rnd) (E B : ℕ → ℝ) (F : ℝ)
    (s : Segment (Fl rnd)) : Prop where
  wf : s.WF
  coeffs : 4 ≤ s.N
  dim : s.D = 3 ∨ s.D = 4
  time : 0 ≤ s.time.val
  errors : FeasErrors u s g E B F
  omega : ∀ l, ic.getConstraint kOmegaXYMax = some l → l.val < dblMax
  section_pos : 0 < m.val
  section_time : 8 * u * s.time.val ≤ m.val

/-- The errors of speed (`1`), thrust (`2`) and jerk (`3`) at a time at which they are evaluated: `√3` times the error of one
component. -/
noncomputable def evalErrors (E : ℕ → ℝ) (F : ℝ) (k : ℕ) : ℝ := Real.sqrt 3 * if k = 2 then F else E k

/-- The errors of speed, thrust and jerk at all times, when the extrema of the components are found with the accuracy `ε`: three
evaluations, and a second derivative times `ε ^ 2`. -/
noncomputable def boundErrors (ε : ℝ) (E B : ℕ → ℝ) (F : ℝ) (k : ℕ) : ℝ :=
  Real.sqrt 3 * (3 * (if k = 2 then F else E k) + B (k + 2) * ε ^ 2)

/-- A call of the root finder with the accuracy `ε` on the interval from `a` to `b`: if it returns, then wherever the polynomial
changes its sign between `x` and `y` in this interval, a number that counts as real is returned that lies between them or no
further than `ε` outside. -/
def ApproxCall (ε a b : ℝ) (rc : List (Fl rnd) → Res (Bool × List (Fl rnd × Fl rnd))) : Prop :=
  ∀ (c : List (Fl rnd)) r, rc c = .ok r → ∀ x y : ℝ, a ≤ x → x < y → y ≤ b →
    (ofCoeffs (vals c)).eval x * (ofCoeffs (vals c)).eval y < 0 →
    ∃ z ∈ r.2, |z.2.val| ≤ 1 / 2 ^ 52 ∧ x - ε ≤ z.1.val ∧ z.1.val ≤ y + ε

/-- The translational limits hold at time `t` up to the relative error `ρ` of the limit and the errors `e 1` of the speed, `e 2`
of the thrust and `e 3` of the jerk. -/
structure LimitsUpTo (ρ : ℝ) (e : ℕ → ℝ) (ic : InputConstraints (Fl rnd)) (g : Fin 3 → Fl rnd) (ps : List (Poly ℝ)) (t : ℝ) :
    Prop where
  fMin : ∀ l, ic.getConstraint kFMin = some l → l.val ≤ thrust (fun i => (g i).val) ps t + ρ * |l.val| + e 2
  fMax : ∀ l, ic.getConstraint kFMax = some l → thrust (fun i => (g i).val) ps t ≤ l.val + ρ * |l.val| + e 2
  vMax : ∀ l, ic.getConstraint kVMax = some l → speed ps t ≤ l.val + ρ * |l.val| + e 1
  omegaXY : ∀ l, ic.getConstraint kOmegaXYMax = some l → 0 < thrust (fun i => (g i).val) ps t + e 2 ∧
    jerk ps t ≤ l.val * (1 + ρ) * (thrust (fun i => (g i).val) ps t + e 2) + e 3

/-- The yaw limits hold at time `t` up to errors `e 1` in the rate and `e 2` in the acceleration. -/
structure YawLimitsUpTo (e : ℕ → ℝ) (ic : InputConstraints (Fl rnd)) (ps : List (Poly ℝ)) (t : ℝ) : Prop where
  omegaZ : ∀ l, ic.getConstraint kOmegaZMax = some l → |yaw ps 1 t| ≤ l.val + e 1
  omegaZDot : ∀ l, ic.getConstraint kOmegaZDotMax = some l → |yaw ps 2 t| ≤ l.val + e 2

/-- The limit a verdict names is violated at time `t`, or met with no more than the relative error `ρ` of the limit and the errors
`e 1` of the speed, `e 2` of the thrust, `y 1` of the yaw rate and `y 2` of the yaw acceleration to spare. -/
def ViolatedUpTo (ρ : ℝ) (e y : ℕ → ℝ) (ic : InputConstraints (Fl rnd)) (g : Fin 3 → Fl rnd) (ps : List (Poly ℝ)) (t : ℝ) :
    Verdict → Prop
  | .thrustHigh => ∃ l, ic.getConstraint kFMax = some l ∧
      l.val < thrust (fun i => (g i).val) ps t + ρ * |l.val| + e 2
  | .thrustLow => ∃ l, ic.getConstraint kFMin = some l ∧
      thrust (fun i => (g i).val) ps t < l.val + ρ * |l.val| + e 2
  | .velocity => ∃ l, ic.getConstraint kVMax = some l ∧ l.val < speed ps t + ρ * |l.val| + e 1
  | .rollPitchRates => False
  | .yawRates => ∃ l, ic.getConstraint kOmegaZMax = some l ∧ l.val < |yaw ps 1 t| + y 1
  | .yawAcc => ∃ l, ic.getConstraint kOmegaZDotMax = some l ∧ l.val < |yaw ps 2 t| + y 2
  | .feasible => False
  | .indeterminable => False

end Verif.Spec
