import Mathlib.Algebra.Polynomial.Derivative
import Mathlib.Analysis.Calculus.IteratedDeriv.Defs

/-
Specification side for polynomials: the mathematical polynomial and the real function that a
coefficient list stands for. Nothing here refers to the model.
-/
namespace Verif.Spec

open Polynomial

variable {K : Type}

/-- The polynomial `c_0 + c_1 X + ... + c_{n-1} X^(n-1)` (Mathlib polynomial). -/
noncomputable def ofCoeffs [Semiring K] (c : List K) : K[X] :=
  ∑ j ∈ Finset.range c.length, monomial j (c.getD j 0)

/-- The value of the `k`-th formal derivative of `c_0 + c_1 X + ...` at `t`. -/
noncomputable def derivAt [CommSemiring K] (c : List K) (k : ℕ) (t : K) : K :=
  (derivative^[k] (ofCoeffs c)).eval t

/-- The real function `t ↦ c_0 + c_1 t + ... + c_{n-1} t^(n-1)`. -/
def curve (c : List ℝ) : ℝ → ℝ := fun t => ∑ j ∈ Finset.range c.length, c.getD j 0 * t ^ j

/-- Product of a row vector with a column vector of the same size. -/
def dot [Zero K] [Add K] [Mul K] (a b : List K) : K := (List.zipWith (· * ·) a b).sum

/-- What the extremum theorems assume of the root finder: for every polynomial that is not zero,
every real root is in the returned list, with imaginary part 0. Nothing is said about further
entries (complex, repeated or wrong ones) nor about the success flag. -/
def Complete (rf : List ℝ → Bool × List (ℝ × ℝ)) : Prop :=
  ∀ c : List ℝ, ofCoeffs c ≠ 0 → ∀ x : ℝ, (ofCoeffs c).eval x = 0 → (x, 0) ∈ (rf c).2

/-- The root finder returns nothing but roots: every returned number whose imaginary part counts as zero is
a real root. Together with `Complete` this describes a root finder working in exact arithmetic. -/
def Exact (rf : List ℝ → Bool × List (ℝ × ℝ)) : Prop :=
  ∀ c : List ℝ, ∀ z ∈ (rf c).2, |z.2| ≤ 1 / 2 ^ 52 → (ofCoeffs c).eval z.1 = 0

/-- A root finder working to an accuracy `ε`: wherever a polynomial that is not zero changes its sign between
`a` and `b`, a number that counts as real is returned that lies between them or no further than `ε` outside.
Nothing is said about roots where the sign does not change, about further entries nor about the success
flag. -/
def Approx (ε : ℝ) (rf : List ℝ → Bool × List (ℝ × ℝ)) : Prop :=
  ∀ c : List ℝ, ∀ a b : ℝ, a < b → (ofCoeffs c).eval a * (ofCoeffs c).eval b < 0 →
    ∃ z ∈ (rf c).2, |z.2| ≤ 1 / 2 ^ 52 ∧ a - ε ≤ z.1 ∧ z.1 ≤ b + ε

end Verif.Spec
