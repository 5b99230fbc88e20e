import Verif.Spec.Polynomial
import Verif.Model.Rpoly
import Mathlib.Analysis.Complex.Basic
import Mathlib.Analysis.Real.Sqrt

/-
Specification side for the root finder.
-/
namespace Verif.Spec

open Polynomial

/-- The polynomial with the given coefficients, highest power first. -/
noncomputable def decPoly {K : Type} [Semiring K] (c : List K) : K[X] := ofCoeffs c.reverse

/-- `Σ |c_k| ρ^(n-k)`: the polynomial with the moduli of the coefficients, at `ρ`. -/
noncomputable def absValue (c : List ℝ) (ρ : ℝ) : ℝ := (decPoly (c.map fun x => |x|)).eval ρ

/-- The arithmetic is exact: what is assumed of the functions of the C++ library. -/
structure ExactMath (m : RMath ℝ) : Prop where
  fabs : ∀ x, m.fabs x = |x|
  sqrt : ∀ x, m.sqrt x = Real.sqrt x
  isZero : ∀ x, m.isZero x = true ↔ x = 0
  eps : 0 < m.eps
  dblMin : 0 < m.dblMin
  pow2 : ∀ x, m.pow2 x ≠ 0
  est_pos : ∀ a b n, 0 < a → 0 < b → 0 < m.est a b n
  est_zero : ∀ b n, m.est 0 b n = 0

/-- How zeros of a polynomial (coefficients in decreasing order) are split off one after the other, with
relative accuracy `ε`, and which polynomial is left:
* zeros at the origin, and the zeros of linear and quadratic polynomials, exactly;
* a real number `s` with remainder `p(s)`, where `|p(s)| ≤ 40 (N+1) ε Σ |p_k| |s|^(N-k)`;
* a pair `z`, `w`, where the same holds for `w` with a larger factor; a pair that is not real is conjugate
  (so that it holds for `z` as well).
`c` is the factor by which the polynomial is scaled before. -/
inductive Deflation (ε : ℝ) : List ℝ → List ℂ → List ℝ → Prop
  | done (p : List ℝ) : Deflation ε p [] p
  | origin {p zs o} : Deflation ε p zs o → Deflation ε (p ++ [0]) (0 :: zs) o
  | linear (a b : ℝ) : a ≠ 0 → Deflation ε [a, b] [((-(b / a) : ℝ) : ℂ)] [a]
  | quadratic (a b c : ℝ) (z w : ℂ) : a ≠ 0 →
      (∀ x : ℂ, a * x ^ 2 + b * x + c = a * (x - z) * (x - w)) → Deflation ε [a, b, c] [z, w] [a]
  | real {p q zs o} (c r s : ℝ) : c ≠ 0 → q.length + 1 = p.length →
      C c * decPoly p = (X - C s) * decPoly q + C r →
      |(decPoly p).eval s| ≤ 40 * p.length * ε * absValue p |s| →
      Deflation ε q zs o → Deflation ε p ((s : ℂ) :: zs) o
  | pair {p q zs o} (c a b : ℝ) (z w : ℂ) : c ≠ 0 → q.length + 2 = p.length →
      (C c * decPoly p).map (algebraMap ℝ ℂ) = (X - C z) * (X - C w) * (decPoly q).map (algebraMap ℝ ℂ) +
        C (b : ℂ) * X + C (a : ℂ) →
      (z.im = 0 ∧ w.im = 0 ∨ 0 < z.im ∧ w = (starRingEnd ℂ) z) →
      ‖((decPoly p).map (algebraMap ℝ ℂ)).eval w‖ ≤
        290 * (p.length * (p.length + 1)) * ε * absValue p (max ‖z‖ ‖w‖) →
      Deflation ε q zs o → Deflation ε p (z :: w :: zs) o

end Verif.Spec
