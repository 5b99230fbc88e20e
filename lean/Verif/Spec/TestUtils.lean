import Mathlib.Analysis.InnerProductSpace.PiL2
import Verif.Spec.Trajectory

/-! Specification side for the numerical helpers. -/
namespace Verif.Spec

/-- The first `D` components of a returned vector as a vector of Euclidean space. -/
noncomputable def vectorOf (D : ℕ) (r : Res (List ℝ)) : EuclideanSpace ℝ (Fin D) :=
  WithLp.toLp 2 fun i => component r i

end Verif.Spec
