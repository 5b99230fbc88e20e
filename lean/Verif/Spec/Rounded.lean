import Mathlib.Data.Real.Basic
import Verif.Model.Rounded

/-
Specification side for rounding.
-/
namespace Verif.Spec

/-- `rnd` is a rounding with relative error at most `u`: it is monotone and leaves its own results alone. -/
structure Rounding (rnd : ℝ → ℝ) (u : ℝ) : Prop where
  rel : ∀ x, |rnd x - x| ≤ u * |x|
  mono : Monotone rnd
  idem : ∀ x, rnd (rnd x) = rnd x

/-- `x` is `y` up to `m` relative errors of at most `u`. -/
def Close (u : ℝ) (m : ℕ) (x y : ℝ) : Prop := |x - y| ≤ ((1 + u) ^ m - 1) * |y|

/-- The real numbers that are stored. -/
def vals {rnd : ℝ → ℝ} (l : List (Fl rnd)) : List ℝ := l.map Fl.val

/-- The exact sum of the durations of the first `k` segments. -/
noncomputable def exactStart {rnd : ℝ → ℝ} (segs : List (Segment (Fl rnd))) (k : ℕ) : ℝ :=
  ((segs.take k).map fun s => s.time.val).sum

end Verif.Spec
