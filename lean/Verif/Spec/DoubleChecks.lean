import Verif.Spec.Double
import Verif.Model.DoubleChecks

/-
Specification side for the feasibility checks on numbers that are none.
-/
namespace Verif.Spec

/-- One of the coefficients of the `d`-th derivative is NaN. -/
def HasNan (p : Poly Dbl) (d : ℕ) : Prop := ∃ j, d ≤ j ∧ p.coeffs[j]? = some .nan

/-- The `d`-th derivative is NaN at all times from 0 on. -/
def NanValued (p : Poly Dbl) (d : ℕ) : Prop := ∀ t : Dbl, ¬ t < 0 → p.evaluate t d = .ok .nan

/-- A scalar product with a NaN is NaN, in whatever order the products are added. -/
def NanDot (dot : Dot Dbl) : Prop := ∀ (n : ℕ) (a b : Fin n → Dbl) (i : Fin n), a i = .nan → dot n a b = .nan

/-- What is assumed of the conversion of flat states (position, velocity, acceleration, jerk, snap) to states of the vehicle: the
speed is NaN when one of the three velocities is, thrust and roll and pitch rates when one of the three accelerations is. -/
structure NanConv (conv : List (List Dbl) → MavState Dbl) : Prop where
  speed : ∀ (p v a j n : List Dbl) (i : ℕ), i < 3 → v[i]? = some .nan → (conv [p, v, a, j, n]).speed = .nan
  thrust : ∀ (p v a j n : List Dbl) (i : ℕ), i < 3 → a[i]? = some .nan → (conv [p, v, a, j, n]).thrust = .nan
  omega : ∀ (p v a j n : List Dbl) (i : ℕ), i < 3 → a[i]? = some .nan → (conv [p, v, a, j, n]).omegaXY = .nan

end Verif.Spec
