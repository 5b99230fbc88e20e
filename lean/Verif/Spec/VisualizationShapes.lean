import Verif.Spec.Visualization

/-
Specification side for single drawn shapes: what a viewer shows for a marker, and ellipsoids of covariances.
-/
namespace Verif.Spec

/-- Where a viewer shows the point `v` of the marker: in the frame given by the pose. An orientation that was
left all zero counts as not turned. -/
def Placed (m : Marker ℝ) (v v' : Vec3 ℝ) : Prop :=
  (m.orientation = ⟨0, 0, 0, 0⟩ ∧ v' = ⟨v.x + m.position.x, v.y + m.position.y, v.z + m.position.z⟩) ∨
  (m.orientation ≠ ⟨0, 0, 0, 0⟩ ∧ Moved m.position m.orientation v v')

/-- A viewer shows the marker as an arrow from `a` to `b`: between the two points of the marker, or, if it has no
points, from its position along the first axis of its frame, as long as the first size says. -/
def ShowsArrow (m : Marker ℝ) (a b : Vec3 ℝ) : Prop :=
  m.type = .arrow ∧
    ((m.points = [] ∧ Placed m ⟨0, 0, 0⟩ a ∧ Placed m ⟨m.scale.x, 0, 0⟩ b) ∨
      ∃ p p', m.points = [p, p'] ∧ Placed m p a ∧ Placed m p' b)

/-- A viewer shows line number `i` of the marker from `a` to `b` in the colour `c`. -/
def ShowsLine (m : Marker ℝ) (i : ℕ) (a b : Vec3 ℝ) (c : Color ℝ) : Prop :=
  m.type = .lineList ∧ m.colors.length = m.points.length ∧
    ∃ p p', m.points[2 * i]? = some p ∧ m.points[2 * i + 1]? = some p' ∧ Placed m p a ∧ Placed m p' b ∧
      m.colors[2 * i]? = some c ∧ m.colors[2 * i + 1]? = some c

/-- `x` is in the solid that a viewer shows for a sphere: the ball of diameter 1 stretched by the sizes, turned
and shifted. -/
def InSphere (m : Marker ℝ) (x : Vec3 ℝ) : Prop :=
  m.type = .sphere ∧ ∃ u : Vec3 ℝ, u.x ^ 2 + u.y ^ 2 + u.z ^ 2 ≤ 1 ∧
    Placed m ⟨m.scale.x / 2 * u.x, m.scale.y / 2 * u.y, m.scale.z / 2 * u.z⟩ x

/-- Scalar product. -/
def dot3 (a b : Vec3 ℝ) : ℝ := a.x * b.x + a.y * b.y + a.z * b.z

/-- A matrix applied to a vector. -/
def app3 (a : Mat3 ℝ) (v : Vec3 ℝ) : Vec3 ℝ :=
  ⟨a.c0.x * v.x + a.c1.x * v.y + a.c2.x * v.z, a.c0.y * v.x + a.c1.y * v.y + a.c2.y * v.z,
    a.c0.z * v.x + a.c1.z * v.y + a.c2.z * v.z⟩

/-- Symmetric and positive semidefinite. -/
structure Covariance (a : Mat3 ℝ) : Prop where
  xy : a.c0.y = a.c1.x
  xz : a.c0.z = a.c2.x
  yz : a.c1.z = a.c2.y
  nonneg : ∀ v, 0 ≤ dot3 v (app3 a v)

/-- The ellipsoid of points at most `n` standard deviations from `mu`: `(x - mu)ᵀ cov⁻¹ (x - mu) ≤ n²`. Written
without the inverse: for a singular matrix it is flat. -/
def InEllipsoid (n : ℝ) (mu : Vec3 ℝ) (cov : Mat3 ℝ) (x : Vec3 ℝ) : Prop :=
  ∃ w, app3 cov w = ⟨x.x - mu.x, x.y - mu.y, x.z - mu.z⟩ ∧
    dot3 w ⟨x.x - mu.x, x.y - mu.y, x.z - mu.z⟩ ≤ n ^ 2

/-- The columns are orthonormal. -/
structure Orthonormal3 (v : Mat3 ℝ) : Prop where
  n0 : dot3 v.c0 v.c0 = 1
  n1 : dot3 v.c1 v.c1 = 1
  n2 : dot3 v.c2 v.c2 = 1
  d01 : dot3 v.c0 v.c1 = 0
  d02 : dot3 v.c0 v.c2 = 0
  d12 : dot3 v.c1 v.c2 = 0

/-- A rotation: orthonormal columns that are right-handed. -/
def Rotation3 (v : Mat3 ℝ) : Prop := Orthonormal3 v ∧ v.c2 = v.c0.cross v.c1

/-- What is assumed of `Eigen::SelfAdjointEigenSolver`: for a symmetric matrix orthonormal eigenvectors and their
eigenvalues. -/
def IsEigenSolver (eig : Mat3 ℝ → Vec3 ℝ × Mat3 ℝ) : Prop :=
  ∀ a : Mat3 ℝ, a.c0.y = a.c1.x → a.c0.z = a.c2.x → a.c1.z = a.c2.y →
    Orthonormal3 (eig a).2 ∧ app3 a (eig a).2.c0 = Vec3.smul (eig a).1.x (eig a).2.c0 ∧
      app3 a (eig a).2.c1 = Vec3.smul (eig a).1.y (eig a).2.c1 ∧
      app3 a (eig a).2.c2 = Vec3.smul (eig a).1.z (eig a).2.c2

/-- What is assumed of the conversion of matrices to quaternions: for a rotation the unit quaternion of the same
rotation. -/
def IsToQuat (toQuat : Mat3 ℝ → Quat ℝ) : Prop :=
  ∀ v, Rotation3 v → UnitQuat (toQuat v) ∧ ∀ x, Moved ⟨0, 0, 0⟩ (toQuat v) x (app3 v x)

end Verif.Spec
