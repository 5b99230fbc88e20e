import Verif.Spec.LinearOptimization

/-
Specification side for comparing the costs of problems.
-/
namespace Verif.Spec

/-- `v'` prescribes everything that `v` prescribes, and possibly more. -/
def Extends (v v' : Vertex ℝ) : Prop := ∀ (q : ℕ) c, v.getConstraint q = some c → v'.getConstraint q = some c

/-- At the beginning of every segment and at the end the trajectory has all derivatives of order below `h` that the vertex
there prescribes. -/
def Attains (h : ℕ) (times : List ℝ) (tr : Trajectory ℝ) (vs : List (Vertex ℝ)) : Prop :=
  ∀ (i : ℕ) v, vs[i]? = some v → ∀ q < h, ∀ c, v.getConstraint (q : ℕ) = some c →
    tr.evaluate (times.take i).sum (q : ℕ) = .ok c

end Verif.Spec
