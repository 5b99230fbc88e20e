import Verif.Model.Rpoly
import Verif.Model.Rounded
import Verif.Spec.Rounded

/-
What is assumed of the C library when the root finder computes with rounding.
-/
namespace Verif.Spec

/-- `fabs` and the comparison with zero are exact, a power of two is not zero, and the first guess
`est a b n` of the `n`-th root of `a / b` is positive and not much too small: its `n`-th power is at least half of
`a / b`. For doubles the error of `exp((log(a) - log(b)) / n)` is far smaller. The logarithm of zero is minus
infinity, so that the guess is 0. -/
structure RoundedMath {rnd : ℝ → ℝ} (m : RMath (Fl rnd)) : Prop where
  fabs : ∀ x, (m.fabs x).val = |x.val|
  isZero : ∀ x, m.isZero x = true ↔ x.val = 0
  pow2 : ∀ x, (m.pow2 x).val ≠ 0
  est_pos : ∀ a b n, 0 < a.val → 0 < b.val → 0 < (m.est a b n).val
  est_low : ∀ a b n, 1 ≤ n → n ≤ 100 → 0 < a.val → 0 < b.val → a.val ≤ 2 * (b.val * (m.est a b n).val ^ n)
  est_zero : ∀ a b n, a.val = 0 → (m.est a b n).val = 0

end Verif.Spec
