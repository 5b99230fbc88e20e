import Verif.Props.LinearOptimization
import Verif.Props.Polynomial

/- Theorems: arguments outside the range of the functions on coefficients. -/
namespace Verif

open Spec

variable {K : Type}

/-- **C02.** The constructor takes exactly the announced number of coefficients and aborts otherwise; what it took is
what `getCoefficients(0)` returns. `setCoefficients` does the same with the present number. -/
theorem C02_constructor [Field K] (n : ℕ) (c : List K) (p : Poly K) (hp : p.N = n) :
    (c.length = n → (do let q ← Poly.mk' n c; q.getCoefficients 0) = .ok c ∧
      (do let q ← p.setCoefficients c; q.getCoefficients 0) = .ok c) ∧
    (c.length ≠ n → Poly.mk' n c = .abort ∧ p.setCoefficients c = .abort) := by
  constructor
  · intro hc
    have hg : (⟨c⟩ : Poly K).getCoefficients 0 = .ok c := by
      unfold Poly.getCoefficients
      rw [Res.check_of (by simp), Res.ok_bind, if_pos rfl, Res.pure_eq]
    constructor
    · unfold Poly.mk'
      rw [Res.check_of hc.symm, Res.ok_bind, Res.pure_eq, Res.ok_bind, hg]
    · unfold Poly.setCoefficients
      rw [Res.check_of (by rw [hp, hc]), Res.ok_bind, Res.pure_eq, Res.ok_bind, hg]
  · intro hc
    constructor
    · unfold Poly.mk'
      rw [Res.check_of_not (fun h => hc h.symm)]
      rfl
    · unfold Poly.setCoefficients
      rw [Res.check_of_not (by rw [hp]; exact fun h => hc h.symm)]
      rfl

example : (Poly.mk' 2 [(1 : ℚ), 2]).isUb = false ∧ Poly.mk' 3 [(1 : ℚ), 2] = .abort := by decide +kernel

/-- **C05.** With more than 22 coefficients the table of factors is read out of bounds, except at time zero for an order
below 22. -/
theorem C05_row_large_N (n k : ℕ) (t : ℝ) (hk : k < n) (hn : 22 < n) :
    baseCoeffsWithTime n k t = .ub ↔ 22 ≤ k ∨ (1 : ℝ) / 2 ^ 52 ≤ |t| := by
  unfold baseCoeffsWithTime
  rw [Res.check_of (by exact_mod_cast hk), Res.ok_bind, Res.check_of (by positivity), Res.ok_bind]
  by_cases h1 : 22 ≤ k
  · rw [if_pos (by unfold kMaxConvolutionSize; push_cast; omega)]
    simp [h1]
  · rw [if_neg (by unfold kMaxConvolutionSize; push_cast; omega)]
    dsimp only
    by_cases h2 : |t| < dblEpsilon
    · rw [if_pos h2, Res.pure_eq]
      unfold dblEpsilon at h2
      simp only [h1, false_or, reduceCtorEq, false_iff, not_le]
      exact h2
    · rw [if_neg h2, if_pos (by unfold kMaxConvolutionSize; omega)]
      unfold dblEpsilon at h2
      simp only [true_iff]
      exact .inr (not_lt.mp h2)

example : (22 : ℕ) < 23 ∧ 22 < 23 ∧ (22 ≤ 22 ∨ (1 : ℝ) / 2 ^ 52 ≤ |0|) := by simp

/-- **C32.** A cost matrix for an order of at least the number of coefficients is refused. -/
theorem C32_cost_matrix_refused (h : ℕ) (k : ℤ) (hk : (h : ℤ) + h ≤ k) (T : ℝ) :
    computeQuadraticCostJacobian h k T = .abort := by
  unfold computeQuadraticCostJacobian
  rw [Res.check_of_not (by push_cast; omega)]
  rfl

example : (2 : ℤ) + 2 ≤ 4 := by norm_num

end Verif
