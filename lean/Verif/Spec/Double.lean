import Verif.Model.Double

/-
Specification side for `double`.
-/
namespace Verif.Spec

/-- The finite numbers of the format binary64: an integer of 53 bits times a power of two. -/
def IsDouble (x : ℝ) : Prop := ∃ m e : ℤ, |m| < 2 ^ 53 ∧ -1074 ≤ e ∧ e ≤ 971 ∧ x = m * (2 : ℝ) ^ e

/-- `z` is a finite `double` and none is nearer to `x`. -/
def Nearest (x z : ℝ) : Prop := IsDouble z ∧ ∀ w, IsDouble w → |z - x| ≤ |w - x|

/-- Neither an infinity nor NaN (`std::isfinite`). -/
def IsFinite (a : Dbl) : Prop := ∃ x, a = .fin x

/-- The unit of relative error. -/
noncomputable def u64 : ℝ := 1 / 2 ^ 53

/-- The largest error of a result below the normal range. -/
noncomputable def tiny64 : ℝ := (2 : ℝ) ^ (-1075 : ℤ)

/-- What underflow can add to the value of a polynomial with `n` coefficients at a time `t`. -/
noncomputable def underflowError (n : ℕ) (t : ℝ) : ℝ :=
  3 * tiny64 * (1 + u64) ^ (2 * n) * ∑ i ∈ Finset.range n, |t| ^ i

end Verif.Spec
