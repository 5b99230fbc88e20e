import Verif.Spec.RoundedFeasibility
import Verif.Spec.RoundedSampling

/-
Specification side for the analytic feasibility check with rounded numbers.
-/
namespace Verif.Spec

variable {rnd : ℝ → ℝ}

/-- Error bounds for a segment: `A` bounds speed, acceleration and jerk with gravity added, as the sums of the absolute values of all
terms of all three dimensions at the end of the segment, with some room for rounding. `E` is at least the error of the three components
of one of them, and `V` at least the error of its norm. -/
structure AnalyticErrors (u : ℝ) (s : Segment (Fl rnd)) (g : Fin 3 → Fl rnd) (A E V : ℝ) : Prop where
  size : ∀ k, 1 ≤ k → k ≤ 3 →
    (1 + u) ^ (2 * s.N + 1) * (absSize s [0, 1, 2] k s.time.val + ∑ i, |(g i).val|) ≤ A
  eval : ((1 + u) ^ (2 * s.N + 1) - 1) * A ≤ E
  value : E + ((1 + u) ^ 5 - 1) * (A + E) ≤ V

/-- How much the largest or smallest value among the candidates may differ from that on the whole segment, when the roots are found
with the accuracy `ε`. -/
noncomputable def searchError (u ε : ℝ) (s : Segment (Fl rnd)) (A E : ℝ) : ℝ :=
  A * ε + 2 * E + Real.sqrt (2 * ((1 + u) ^ (5 * s.N + 4) - 1) * A ^ 2 * s.time.val)

/-- The errors of speed (`1`) and thrust (`2`) at a candidate: the thrust also has the error of the thrust polynomials. -/
noncomputable def candidateErrors (E V : ℝ) (k : ℕ) : ℝ := V + if k = 2 then E else 0

/-- Thrust and speed keep their limits at time `t` up to `e 2` and `e 1`, the limits being those set. -/
abbrev ThrustSpeedKept (e : ℕ → ℝ) (ic : InputConstraints (Fl rnd)) (g : Fin 3 → Fl rnd) (ps : List (Poly ℝ)) (t : ℝ) : Prop :=
  ThrustSpeedUpTo e ((ic.getConstraint kFMin).map Fl.val) ((ic.getConstraint kFMax).map Fl.val)
    ((ic.getConstraint kVMax).map Fl.val) (fun i => (g i).val) ps t

end Verif.Spec
