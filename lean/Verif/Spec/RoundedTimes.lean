import Mathlib.Analysis.SpecialFunctions.Exp
import Verif.Model.RoundedTimes
import Verif.Spec.Rounded

/-
Specification side for the time estimates with rounded numbers.
-/
namespace Verif.Spec

/-- `x` and `y` agree up to a factor `q`. -/
def Factor (q x y : ℝ) : Prop := x ≤ q * y ∧ y ≤ q * x

/-- For every size `n` above 0, all indices below `n` are added, each once, in whatever order. -/
def Orders (order : ℕ → AddOrder) : Prop := ∀ n, 0 < n → (order n).indices.Perm (List.range n)

/-- What is assumed of `exp` for negative numbers and 0: at most `e` roundings. -/
def ExpOk {rnd : ℝ → ℝ} (u : ℝ) (e : ℕ) (exp : Fl rnd → Fl rnd) : Prop :=
  ∀ x : Fl rnd, x.val ≤ 0 → Factor ((1 - u)⁻¹ ^ e) (exp x).val (Real.exp x.val)

end Verif.Spec
