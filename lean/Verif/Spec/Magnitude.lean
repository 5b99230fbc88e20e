import Mathlib.Analysis.Real.Sqrt
import Verif.Spec.Trajectory

/- Specification side for magnitudes. -/
namespace Verif.Spec

/-- The Euclidean norm of the components `ds` of the vector of `k`-th derivatives at `t`. -/
noncomputable def magnitude (ps : List (Poly ℝ)) (ds : List ℕ) (k : ℕ) (t : ℝ) : ℝ :=
  Real.sqrt (ds.map fun d => ((valuesAt ps k t).getD d 0) ^ 2).sum

/-- Between `a`, `b` and `c` the function changes from not falling to falling or the other way round. -/
def Turns (f : ℝ → ℝ) (a b c : ℝ) : Prop := ¬ (f b < f a ↔ f c < f b)

end Verif.Spec
