import Verif.Spec.RoundedMagnitude
import Verif.Spec.LinearOptimization

/-
Specification side for the cost with rounded numbers.
-/
namespace Verif.Spec

variable {rnd : ℝ → ℝ}

/-- What is assumed of `pow` for whole exponents: `q` roundings. -/
def PowOk (u : ℝ) (q : ℕ) (pow : Fl rnd → ℕ → Fl rnd) : Prop :=
  ∀ (t : Fl rnd) (e : ℕ), 0 < t.val → |(pow t e).val - t.val ^ e| ≤ ((1 + u) ^ q - 1) * t.val ^ e

/-- The stored segment as real numbers. -/
def stored (s : Segment (Fl rnd)) : Segment ℝ := ⟨s.polys.map fun p => ⟨vals p.coeffs⟩, s.time.val, s.N⟩

/-- The stored segment with the absolute values of its coefficients. -/
noncomputable def storedAbs (s : Segment (Fl rnd)) : Segment ℝ :=
  ⟨s.polys.map fun p => ⟨(vals p.coeffs).map abs⟩, s.time.val, s.N⟩

end Verif.Spec
