import Verif.Spec.Rounded
import Verif.Spec.Polynomial

/-
Specification side for extrema with rounded numbers.
-/
namespace Verif.Spec

/-- A root finder for rounded numbers with the accuracy `ε` on the interval from `a` to `b`: wherever the polynomial
changes its sign between `x` and `y` in this interval, a number that counts as real is returned that lies between them or no
further than `ε` outside. -/
def ApproxOn {rnd : ℝ → ℝ} (ε a b : ℝ) (rf : List (Fl rnd) → Bool × List (Fl rnd × Fl rnd)) : Prop :=
  ∀ c : List (Fl rnd), ∀ x y : ℝ, a ≤ x → x < y → y ≤ b →
    (ofCoeffs (vals c)).eval x * (ofCoeffs (vals c)).eval y < 0 →
    ∃ z ∈ (rf c).2, |z.2.val| ≤ 1 / 2 ^ 52 ∧ x - ε ≤ z.1.val ∧ z.1.val ≤ y + ε

end Verif.Spec
