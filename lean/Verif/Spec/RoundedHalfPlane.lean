import Verif.Spec.Feasibility
import Verif.Spec.RoundedMagnitude

/-
Specification side for half planes with rounded numbers.
-/
namespace Verif.Spec

variable {rnd : ℝ → ℝ}

/-- The distance of the position of a segment at time `t` from the boundary of a half plane, times the length of the normal:
positive on the side the normal points to. -/
noncomputable def distanceAt (s : Segment (Fl rnd)) (hp : HalfPlane (Fl rnd)) (t : ℝ) : ℝ :=
  ∑ i, (vec3 (realPolys s) 0 t i - (hp.point i).val) * (hp.normal i).val

/-- The `k`-th derivative of the position along the normal with all terms taken as positive: a bound at all times of absolute
value at most `T`. -/
noncomputable def normalSize (s : Segment (Fl rnd)) (hp : HalfPlane (Fl rnd)) (k : ℕ) (T : ℝ) : ℝ :=
  ∑ i, |(hp.normal i).val| * vec3 (s.polys.map fun p => ⟨(vals p.coeffs).map abs⟩) k T i

/-- The same for the point of the half plane. -/
noncomputable def pointSize (hp : HalfPlane (Fl rnd)) : ℝ := ∑ i, |(hp.normal i).val| * |(hp.point i).val|

end Verif.Spec
