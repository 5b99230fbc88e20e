import Verif.Model.RoundedSampling
import Verif.Spec.FeasibilityDecides

/-
Specification side for the feasibility check by sampling: what holds between the samples, and the samples in floating point.
-/
namespace Verif.Spec

open Set

/-- Thrust and speed keep their limits at time `t` up to `e 2` and `e 1`. -/
structure ThrustSpeedUpTo (e : ℕ → ℝ) (fMinOf fMaxOf vMaxOf : Option ℝ) (g : Fin 3 → ℝ) (ps : List (Poly ℝ)) (t : ℝ) : Prop where
  fMin : ∀ l, fMinOf = some l → l - e 2 ≤ thrust g ps t
  fMax : ∀ l, fMaxOf = some l → thrust g ps t ≤ l + e 2
  vMax : ∀ l, vMaxOf = some l → speed ps t ≤ l + e 1

/-- The conversion of flat states to states of the vehicle reports as thrust the norm of acceleration plus gravity and as speed the
norm of the velocity. -/
structure Reports (g : Fin 3 → ℝ) (conv : List (List ℝ) → MavState ℝ) : Prop where
  thrust : ∀ p v a j n : List ℝ, 3 ≤ a.length →
    (conv [p, v, a, j, n]).thrust = Real.sqrt (∑ i : Fin 3, (a.getD i 0 + g i) ^ 2)
  speed : ∀ p v a j n : List ℝ, 3 ≤ v.length → (conv [p, v, a, j, n]).speed = Real.sqrt (∑ i : Fin 3, v.getD i 0 ^ 2)

variable {rnd : ℝ → ℝ}

/-- The same in floating point, with the errors `C 2` and `C 1`, for the states `A` of the flat outputs. -/
structure ReportsFl (C : ℕ → ℝ) (g : Fin 3 → Fl rnd) (conv : List (List (Fl rnd)) → MavState (Fl rnd))
    (A : List (List (Fl rnd)) → Prop) : Prop where
  thrust : ∀ p v a j n : List (Fl rnd), A [p, v, a, j, n] →
    |(conv [p, v, a, j, n]).thrust.val - Real.sqrt (∑ i : Fin 3, ((a.getD i 0).val + (g i).val) ^ 2)| ≤ C 2
  speed : ∀ p v a j n : List (Fl rnd), A [p, v, a, j, n] →
    |(conv [p, v, a, j, n]).speed.val - Real.sqrt (∑ i : Fin 3, (v.getD i 0).val ^ 2)| ≤ C 1

/-- The times at which a loop `t = 0; ... t += dt` samples. -/
noncomputable def sampleTime (dt : Fl rnd) : ℕ → Fl rnd
  | 0 => 0
  | j + 1 => sampleTime dt j + dt

/-- The five vectors that the evaluations of a segment at time `t` return. -/
def Evaluated (s : Segment (Fl rnd)) (t : Fl rnd) (ds : List (List (Fl rnd))) : Prop :=
  ∃ p v a j n, ds = [p, v, a, j, n] ∧ s.evaluate t 0 = .ok p ∧ s.evaluate t 1 = .ok v ∧ s.evaluate t 2 = .ok a ∧
    s.evaluate t 3 = .ok j ∧ s.evaluate t 4 = .ok n

/-- A state of the vehicle in floating point meets the limits. -/
structure StateMeetsFl (ic : InputConstraints (Fl rnd)) (m : MavState (Fl rnd)) : Prop where
  fMin : ∀ l, ic.getConstraint kFMin = some l → l.val ≤ m.thrust.val
  fMax : ∀ l, ic.getConstraint kFMax = some l → m.thrust.val ≤ l.val
  vMax : ∀ l, ic.getConstraint kVMax = some l → m.speed.val ≤ l.val
  omegaXY : ∀ l, ic.getConstraint kOmegaXYMax = some l → m.omegaXY.val ≤ l.val
  omegaZ : ∀ l, ic.getConstraint kOmegaZMax = some l → |m.omegaZ.val| ≤ l.val
  omegaZDot : ∀ l, ic.getConstraint kOmegaZDotMax = some l → |m.omegaZDot.val| ≤ l.val

/-- A state of the vehicle in floating point violates the limit a verdict names. -/
def StateViolatesFl (ic : InputConstraints (Fl rnd)) (m : MavState (Fl rnd)) : Verdict → Prop
  | .thrustHigh => ∃ l, ic.getConstraint kFMax = some l ∧ l.val < m.thrust.val
  | .thrustLow => ∃ l, ic.getConstraint kFMin = some l ∧ m.thrust.val < l.val
  | .velocity => ∃ l, ic.getConstraint kVMax = some l ∧ l.val < m.speed.val
  | .rollPitchRates => ∃ l, ic.getConstraint kOmegaXYMax = some l ∧ l.val < m.omegaXY.val
  | .yawRates => ∃ l, ic.getConstraint kOmegaZMax = some l ∧ l.val < |m.omegaZ.val|
  | .yawAcc => ∃ l, ic.getConstraint kOmegaZDotMax = some l ∧ l.val < |m.omegaZDot.val|
  | .feasible => False
  | .indeterminable => False

/-- The exact quantity a verdict names violates its limit at time `t` up to `e 2` (thrust) or `e 1` (speed); nothing is said about
the other verdicts. -/
def ThrustSpeedViolated (e : ℕ → ℝ) (ic : InputConstraints (Fl rnd)) (g : Fin 3 → ℝ) (ps : List (Poly ℝ)) (t : ℝ) :
    Verdict → Prop
  | .thrustHigh => ∃ l, ic.getConstraint kFMax = some l ∧ l.val < thrust g ps t + e 2
  | .thrustLow => ∃ l, ic.getConstraint kFMin = some l ∧ thrust g ps t - e 2 < l.val
  | .velocity => ∃ l, ic.getConstraint kVMax = some l ∧ l.val < speed ps t + e 1
  | _ => True

end Verif.Spec
