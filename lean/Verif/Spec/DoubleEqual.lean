import Verif.Model.Double
import Verif.Model.Trajectory

/-
Specification side of comparing trajectories of `double`.
-/
namespace Verif.Spec

/-- No duration and no coefficient is NaN. -/
def NoNan (segs : List (Segment Dbl)) : Prop :=
  ∀ s ∈ segs, s.time ≠ .nan ∧ ∀ p ∈ s.polys, ∀ x ∈ p.coeffs, x ≠ .nan

/-- The same durations and polynomials, segment by segment. -/
def SameSegments (a b : List (Segment Dbl)) : Prop :=
  List.Forall₂ (fun s r => s.time = r.time ∧ s.polys = r.polys) a b

/-- All polynomials have `n` coefficients. -/
def UniformN (n : ℕ) (segs : List (Segment Dbl)) : Prop := ∀ s ∈ segs, ∀ p ∈ s.polys, p.N = n

end Verif.Spec
