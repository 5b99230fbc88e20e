import Verif.Spec.Rpoly
import Mathlib.Algebra.Polynomial.Derivative

/-
Specification side for the iteration by which the root finder looks for a zero: the three-stage algorithm of
Jenkins and Traub (A three-stage algorithm for real polynomials using quadratic iteration, SIAM J. Numer. Anal.
7, 1970), with the thresholds of the code. `P` is the polynomial, `K` the auxiliary polynomial of the algorithm.
-/
namespace Verif.Spec

open Polynomial

/-- The quadratic `x² + u x + v`. -/
noncomputable def quadr (u v : ℝ) : ℝ[X] := X ^ 2 + C u * X + C v

/-- A step with the real shift `s`: `K' = (P - (P(s) / K(s)) K) / (x - s)`, or, if `K(s)` is negligible,
`K' = (K - K(s)) / (x - s)`. -/
def LinearStep (δ s : ℝ) (P K K' : ℝ[X]) : Prop :=
  (K.eval s ≠ 0 ∧ (X - C s) * K' = P - C (P.eval s / K.eval s) * K) ∨
  (|K.eval s| ≤ δ ∧ (X - C s) * K' = K - C (K.eval s))

/-- A step with the quadratic shift `σ = x² + u x + v`. Let `b (x + u) + a` and `d (x + u) + c` be the remainders
of `P` and `K`.
* Usually `K'` is the polynomial with `σ K' = α K + (x + β) P` for some numbers `α` and `β` (there is exactly one,
  because the remainders are not proportional).
* If the remainders are almost proportional, the form without division: `σ K' = α K + β P`, up to a multiple of
  `a x - v b` by a negligible factor; here `α` is the product of the values of `P` at the zeros of `σ`, divided
  by `c` or `d`.
* If the remainder of `K` is negligible, `K'` is the quotient. -/
def QuadraticStep (ε u v : ℝ) (P K K' : ℝ[X]) : Prop :=
  ∃ a b c d : ℝ, quadr u v ∣ P - (C b * (X + C u) + C a) ∧ quadr u v ∣ K - (C d * (X + C u) + C c) ∧
    ((b * c - a * d ≠ 0 ∧ ∃ α β : ℝ, quadr u v * K' = C α * K + (X + C β) * P) ∨
     (∃ w γ α β : ℝ, w ≠ 0 ∧ (w = c ∧ |γ| ≤ 10 * ε * |b| ∨ w = d ∧ |γ| ≤ 10 * ε * |a|) ∧ w * γ = b * c - a * d ∧
        w * α = a ^ 2 + u * a * b + v * b ^ 2 ∧
        quadr u v * K' = C α * K + C β * P + C γ * (C a * X - C (v * b))) ∨
     (|c| ≤ 10 * ε * |K.coeff 0| ∧ |d| ≤ 10 * ε * |K.coeff 1| ∧
        quadr u v * K' = K - (C d * (X + C u) + C c)))

/-- The new quadratic `x² + u' x + v'` computed from `P`, `K` and the shift `σ = x² + u x + v`. Let `K1` and `K2` be
the polynomials that follow `K` when two steps are made without shift (scaled the other way round). Then
`K + u' K1 + v' K2` is zero at the zeros of `σ`. This determines `u'` and `v'`, unless `K1` and `K2` are
proportional there, or `K` is negligible; then the result is zero. -/
def QuadraticEstimate (ε u v : ℝ) (P K : ℝ[X]) (u' v' : ℝ) : Prop :=
  ∃ K1 K2 : ℝ[X], X * K1 = K - C (K.coeff 0 / P.coeff 0) * P ∧ X * K2 = K1 - C (K1.coeff 0 / P.coeff 0) * P ∧
    (quadr u v ∣ K + C u' * K1 + C v' * K2 ∧
        (∀ y z : ℝ, quadr u v ∣ C y * K1 + C z * K2 → y = 0 ∧ z = 0) ∨
      u' = 0 ∧ v' = 0 ∧
        ((∃ y z : ℝ, (y ≠ 0 ∨ z ≠ 0) ∧ quadr u v ∣ C y * K1 + C z * K2) ∨
          ∃ c d : ℝ, quadr u v ∣ K - (C d * (X + C u) + C c) ∧ |c| ≤ 10 * ε * |K.coeff 0| ∧
            |d| ≤ 10 * ε * |K.coeff 1|))

/-- The given number of steps without shift. `K(0)` is negligible if it is small relative to the coefficient of
`x` in `P`. -/
inductive Unshifted (ε : ℝ) (P : ℝ[X]) : ℕ → ℝ[X] → ℝ[X] → Prop
  | refl (K : ℝ[X]) : Unshifted ε P 0 K K
  | step {i : ℕ} {K K' K'' : ℝ[X]} : LinearStep (10 * ε * |P.coeff 1|) 0 P K K' → Unshifted ε P i K' K'' →
      Unshifted ε P (i + 1) K K''

mutual
/-- The auxiliary polynomials that occur while a zero of `P`, which has degree `n`, is looked for with the fixed
shift `x² + u0 x + v0`. -/
inductive Auxiliary (ε u0 v0 : ℝ) (n : ℕ) (P : ℝ[X]) : ℝ[X] → Prop
  /-- First stage: the derivative (divided by `n`), and five steps without shift. -/
  | start {K K'} : C (n : ℝ) * K = derivative P → Unshifted ε P 5 K K' → Auxiliary ε u0 v0 n P K'
  /-- Second stage: steps with the fixed shift. -/
  | fixed {K K'} : Auxiliary ε u0 v0 n P K → QuadraticStep ε u0 v0 P K K' → Auxiliary ε u0 v0 n P K'
  /-- Third stage, for a pair of zeros: the shift is the newest estimate. -/
  | quadratic {K K'} (u v : ℝ) : Auxiliary ε u0 v0 n P K → PairEstimate ε u0 v0 n P u v → QuadraticStep ε u v P K K' →
      Auxiliary ε u0 v0 n P K'
  /-- Third stage, for a real zero. -/
  | linear {K K'} (s : ℝ) : Auxiliary ε u0 v0 n P K → RealEstimate ε u0 v0 n P s →
      LinearStep (10 * ε * |K.coeff 0|) s P K K' → Auxiliary ε u0 v0 n P K'

/-- The quadratics `x² + u x + v` whose zeros are taken as estimates of a pair of zeros. -/
inductive PairEstimate (ε u0 v0 : ℝ) (n : ℕ) (P : ℝ[X]) : ℝ → ℝ → Prop
  /-- From the fixed shift. -/
  | fixed {K} (u v : ℝ) : Auxiliary ε u0 v0 n P K → QuadraticEstimate ε u0 v0 P K u v → PairEstimate ε u0 v0 n P u v
  /-- From the estimate before. -/
  | next {K} (u v u' v' : ℝ) : PairEstimate ε u0 v0 n P u v → Auxiliary ε u0 v0 n P K → QuadraticEstimate ε u v P K u' v' →
      PairEstimate ε u0 v0 n P u' v'
  /-- A double real zero, when the real iteration has met a cluster. -/
  | double (s : ℝ) : RealEstimate ε u0 v0 n P s → PairEstimate ε u0 v0 n P (-(2 * s)) (s ^ 2)
  /-- Moved a little, near a cluster of zeros. -/
  | cluster (u v ρ : ℝ) : PairEstimate ε u0 v0 n P u v → 0 < ρ → ρ ≤ 1 / 10 ∨ ρ = Real.sqrt ε →
      PairEstimate ε u0 v0 n P (u - u * ρ) (v + v * ρ)

/-- The estimates of a real zero. -/
inductive RealEstimate (ε u0 v0 : ℝ) (n : ℕ) (P : ℝ[X]) : ℝ → Prop
  /-- `-P(0) / K(0)`, from the second stage (zero if `K(0)` is zero). -/
  | fixed {K} (s : ℝ) : Auxiliary ε u0 v0 n P K → K.coeff 0 ≠ 0 ∧ s * K.coeff 0 = -P.coeff 0 ∨ K.coeff 0 = 0 ∧ s = 0 →
      RealEstimate ε u0 v0 n P s
  /-- `s - P(s) / K(s)`. -/
  | next {K} (s : ℝ) : RealEstimate ε u0 v0 n P s → Auxiliary ε u0 v0 n P K → K.eval s ≠ 0 →
      RealEstimate ε u0 v0 n P (s - P.eval s / K.eval s)
end

/-- `bnd` is, up to a relative error of `(n - 1) / 200`, the positive number at which the modulus of the constant
coefficient equals the sum of the moduli of the other terms. (Cauchy: no zero has a smaller modulus than that number.) -/
def NearCauchy (p : List ℝ) (bnd : ℝ) : Prop :=
  ∃ (l : List ℝ) (c r : ℝ), p = l ++ [c] ∧ 0 < r ∧ r * absValue l r = |c| ∧ r ≤ bnd ∧
    bnd - r ≤ (l.length - 1) * (bnd / 200)

/-- The fixed shift is `x² - 2 bnd x0 x + bnd`, with the bound above. -/
def FixedShift (p : List ℝ) (u0 v0 : ℝ) : Prop := ∃ x0 : ℝ, NearCauchy p v0 ∧ u0 = -(2 * (v0 * x0))

/-- How the zeros of a polynomial (coefficients in decreasing order) are found one after the other. As long as the
degree is greater than two (and the constant coefficient is not zero), the next zero or pair of zeros is an
estimate of the algorithm above, for the polynomial scaled by a factor `c`, and the search goes on with the
quotient. -/
inductive Search (ε : ℝ) : List ℝ → List ℂ → List ℝ → Prop
  | done (p : List ℝ) : Search ε p [] p
  | origin {p zs o} : Search ε p zs o → Search ε (p ++ [0]) (0 :: zs) o
  | direct {p zs o} : p.length ≤ 3 → zs.length + 1 = p.length → o.length = 1 → Search ε p zs o
  | real {p q zs o} (c s r : ℝ) : c ≠ 0 → q.length + 1 = p.length → C c * decPoly p = (X - C s) * decPoly q + C r →
      ((decPoly p).coeff 0 ≠ 0 → ∃ u0 v0, FixedShift p u0 v0 ∧ RealEstimate ε u0 v0 (p.length - 1) (C c * decPoly p) s) →
      Search ε q zs o → Search ε p ((s : ℂ) :: zs) o
  | pair {p q zs o} (c u v r t : ℝ) (z w : ℂ) : c ≠ 0 → q.length + 2 = p.length →
      C c * decPoly p = quadr u v * decPoly q + C r * X + C t →
      (∀ x : ℂ, x ^ 2 + u * x + v = (x - z) * (x - w)) →
      ((decPoly p).coeff 0 ≠ 0 → ∃ u0 v0, FixedShift p u0 v0 ∧ PairEstimate ε u0 v0 (p.length - 1) (C c * decPoly p) u v) →
      Search ε q zs o → Search ε p (z :: w :: zs) o

end Verif.Spec
