import Mathlib.Algebra.BigOperators.Fin
import Mathlib.Data.Real.Basic
import Verif.Model.Vertex

/-
Specification side for problems that are images of each other.
-/
namespace Verif.Spec

/-- The image of a vector under the affine map `w ↦ A w + b`. -/
noncomputable def affine {n m : ℕ} (A : Fin m → Fin n → ℝ) (b : Fin m → ℝ) (w : List ℝ) : List ℝ :=
  List.ofFn fun i => ∑ j, A i j * w.getD j 0 + b i

/-- What the map `x ↦ A x + b` does to a derivative of order `q` of a motion `x`: the offset only concerns
the position. -/
noncomputable def affineAt {n m : ℕ} (A : Fin m → Fin n → ℝ) (b : Fin m → ℝ) (q : ℕ) (w : List ℝ) :
    List ℝ :=
  affine A (if q = 0 then b else 0) w

/-- `v'` prescribes the same orders as `v`, with the images of its values. -/
def Image {n m : ℕ} (A : Fin m → Fin n → ℝ) (b : Fin m → ℝ) (v v' : Vertex ℝ) : Prop :=
  ∀ q : ℕ, v'.getConstraint q = (v.getConstraint q).map (affineAt A b q)

/-- `v` prescribes the same orders as `v₁` and `v₂`, with the values `α w₁ + β w₂` for the values `w₁`, `w₂`
of these, componentwise. -/
def Combines (α β : ℝ) (v₁ v₂ v : Vertex ℝ) : Prop :=
  ∀ q : ℕ, (v₁.getConstraint q).isSome = (v.getConstraint q).isSome ∧
    (v₂.getConstraint q).isSome = (v.getConstraint q).isSome ∧
    ∀ w₁ w₂, v₁.getConstraint q = some w₁ → v₂.getConstraint q = some w₂ →
      v.getConstraint q = some (List.zipWith (fun x y => α * x + β * y) w₁ w₂)

/-- The vertices prescribe the same orders and agree in coordinate `d`. -/
def AgreesAt (d : ℕ) (v v' : Vertex ℝ) : Prop :=
  ∀ q : ℕ, (v.getConstraint q).map (fun w => w.getD d 0) = (v'.getConstraint q).map fun w => w.getD d 0

/-- Everything prescribed at `v` is within the plane of the points `p` with `u · p = c`: the position lies in
it, and the derivatives are parallel to it. -/
def InPlane {n : ℕ} (u : Fin n → ℝ) (c : ℝ) (v : Vertex ℝ) : Prop :=
  ∀ (q : ℕ) w, v.getConstraint q = some w → ∑ j, u j * w.getD j 0 = if q = 0 then c else 0

end Verif.Spec

namespace Verif.Spec

/-- `v'` prescribes what `v` prescribes for a motion run backwards: derivatives of odd order change their sign. -/
def Reversed (v v' : Vertex ℝ) : Prop :=
  ∀ q : ℕ, v'.getConstraint q = (v.getConstraint q).map fun w => w.map ((-1) ^ q * ·)

end Verif.Spec
