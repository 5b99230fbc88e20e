import Mathlib.Data.Real.Basic
import Mathlib.Algebra.BigOperators.Fin
import Verif.Spec.Rounded
import Verif.Model.RoundedMapping

/-
Specification side for the ends of a segment with rounded numbers.
-/
namespace Verif.Spec

/-- What is assumed of the scalar products of Eigen: `n` roundings of every term, which is what any order of the
additions gives. -/
def DotOk {rnd : ℝ → ℝ} (u : ℝ) (dot : Dot (Fl rnd)) : Prop :=
  ∀ (n : ℕ) (a b : Fin n → Fl rnd), |(dot n a b).val - ∑ i, (a i).val * (b i).val| ≤
    ((1 + u) ^ n - 1) * ∑ i, |(a i).val| * |(b i).val|

/-- Derivative `k` of `t ^ j` at `T`. -/
noncomputable def monoDeriv (T : ℝ) (k j : ℕ) : ℝ := (j.descFactorial k : ℝ) * T ^ (j - k)

/-- How far derivative `l` moves along a segment of duration `T`, at most: the value `d (h + l)` required at the end, and
what the Taylor polynomial with the values `d 0, …, d (h-1)` of the beginning gives there, all terms taken as positive. -/
noncomputable def reach {h : ℕ} (T : ℝ) (d : Fin (h + h) → ℝ) (l : Fin h) : ℝ :=
  |d (Fin.natAdd h l)| + ∑ j : Fin h, monoDeriv T l j / (j : ℕ).factorial * |d (Fin.castAdd h j)|

end Verif.Spec
