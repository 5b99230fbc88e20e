import Mathlib.Algebra.Polynomial.Derivative
import Mathlib.Algebra.Polynomial.Eval.Degree
import Mathlib.Analysis.Calculus.Deriv.Polynomial
import Mathlib.Analysis.Calculus.IteratedDeriv.Lemmas
import Mathlib.Tactic.Linarith
import Mathlib.Tactic.Ring
import Verif.Model.Polynomial
import Verif.Spec.Polynomial

/- Helper lemmas for the polynomial properties. -/
namespace Verif

open Polynomial Spec

variable {K : Type}

section Coeffs
variable [Semiring K]

theorem coeff_ofCoeffs (c : List K) (m : ℕ) : (ofCoeffs c).coeff m = c.getD m 0 := by
  unfold ofCoeffs
  rw [finsetSum_coeff]
  simp only [coeff_monomial]
  by_cases h : m < c.length
  · rw [Finset.sum_eq_single m]
    · simp
    · intro b _ hb; simp [hb]
    · intro hm; simp at hm; omega
  · rw [Finset.sum_eq_zero]
    · simp [List.getD, List.getElem?_eq_none (Nat.le_of_not_lt h)]
    · intro j hj
      simp at hj
      rw [if_neg (by omega)]

theorem natDegree_ofCoeffs_lt (c : List K) (h : 0 < c.length) :
    (ofCoeffs c).natDegree < c.length := by
  rw [Nat.lt_iff_le_pred h, natDegree_le_iff_coeff_eq_zero]
  intro m hm
  rw [coeff_ofCoeffs]
  simp [List.getD, List.getElem?_eq_none (show c.length ≤ m by omega)]

theorem ofCoeffs_nil : ofCoeffs ([] : List K) = 0 := by simp [ofCoeffs]

theorem ofCoeffs_inj {a b : List K} (hl : a.length = b.length) (h : ofCoeffs a = ofCoeffs b) :
    a = b := by
  apply List.ext_getElem hl
  intro i h1 h2
  have := congrArg (fun p => p.coeff i) h
  simpa [coeff_ofCoeffs, List.getD, List.getElem?_eq_getElem h1, List.getElem?_eq_getElem h2]
    using this

end Coeffs

section CommSemiring
variable [CommSemiring K]

theorem baseRow_length (size n : ℕ) : (baseRow size n : List K).length = size := by
  cases n <;> simp [baseRow]

theorem baseRow_getD (size n i : ℕ) (hi : i < size) :
    (baseRow size n : List K).getD i 0 = (i.descFactorial n : K) := by
  induction n with
  | zero => simp [baseRow, hi]
  | succ n ih =>
    simp only [baseRow]
    rw [List.getD_eq_getElem?_getD, List.getElem?_map, List.getElem?_range hi]
    simp only [Option.map_some, Option.getD_some]
    split
    · rw [ih, Nat.descFactorial_succ, Nat.cast_mul]
    · next h =>
      rw [Nat.descFactorial_eq_zero_iff_lt.mpr (by omega)]
      simp

theorem baseCoeff_eq {d j : ℕ} (hj : j < kMaxConvolutionSize) :
    (baseCoeff d j : K) = (j.descFactorial d : K) := baseRow_getD _ _ _ hj

theorem hornerDown_eq (f : ℕ → K) (t : K) (d n : ℕ) (acc : K) :
    hornerDown f t d n acc = acc * t ^ n + ∑ i ∈ Finset.range n, f (d + i) * t ^ i := by
  induction n generalizing acc with
  | zero => simp [hornerDown]
  | succ n ih =>
    rw [hornerDown, ih, Finset.sum_range_succ]
    ring

theorem derivAt_eq_sum (c : List K) (k : ℕ) (t : K) :
    derivAt c k t =
      ∑ i ∈ Finset.range (c.length - k),
        ((k + i).descFactorial k : K) * c.getD (k + i) 0 * t ^ i := by
  unfold derivAt
  by_cases hk : k < c.length
  · have hdeg : (derivative^[k] (ofCoeffs c)).natDegree < c.length - k := by
      have h1 := natDegree_iterate_derivative (ofCoeffs c) k
      have h2 := natDegree_ofCoeffs_lt c (by omega)
      omega
    rw [eval_eq_sum_range' hdeg]
    apply Finset.sum_congr rfl
    intro i _
    rw [coeff_iterate_derivative, coeff_ofCoeffs, nsmul_eq_mul, add_comm i k]
  · have h0 : derivative^[k] (ofCoeffs c) = 0 := by
      rcases Nat.eq_zero_or_pos c.length with h | h
      · have : c = [] := List.eq_nil_of_length_eq_zero h
        subst this
        rw [ofCoeffs_nil, iterate_derivative_zero]
      · apply iterate_derivative_eq_zero
        have := natDegree_ofCoeffs_lt c h
        omega
    rw [h0, eval_zero, Nat.sub_eq_zero_of_le (by omega)]
    simp

theorem evalCore_eq (p : Poly K) (t : K) (d : ℕ) (hd : d < p.N) (hN : p.N ≤ kMaxConvolutionSize) :
    p.evalCore t d = derivAt p.coeffs d t := by
  unfold Poly.evalCore
  simp only
  rw [hornerDown_eq, derivAt_eq_sum]
  have hlen : p.coeffs.length - d = (p.N - 1 - d) + 1 := by unfold Poly.N at *; omega
  rw [hlen, Finset.sum_range_succ, add_comm]
  have h1 : p.N - 1 = d + (p.N - 1 - d) := by omega
  congr 1
  · apply Finset.sum_congr rfl
    intro i hi
    simp at hi
    rw [baseCoeff_eq (by omega)]
  · rw [← h1, baseCoeff_eq (by omega)]

theorem derivAt_of_ge (c : List K) (k : ℕ) (t : K) (h : c.length ≤ k) : derivAt c k t = 0 := by
  rw [derivAt_eq_sum, Nat.sub_eq_zero_of_le h]; simp

/-- The scalar evaluation in terms of the specification. -/
theorem evaluate_ok (p : Poly K) (t : K) (d : ℕ) (hN : p.N ≤ kMaxConvolutionSize) :
    p.evaluate t d = .ok (derivAt p.coeffs d t) := by
  unfold Poly.evaluate
  by_cases h : p.N ≤ d
  · rw [if_pos (by exact_mod_cast h), derivAt_of_ge _ _ _ h]
  · rw [if_neg (by omega), if_neg (by omega)]
    simp only [Int.toNat_natCast]
    rw [evalCore_eq p t d (by omega) hN]

theorem evaluateAll_ok (p : Poly K) (t : K) (len : ℕ) (hN : p.N ≤ kMaxConvolutionSize)
    (hl : len ≤ p.N) :
    p.evaluateAll t len = .ok ((List.range len).map fun k => derivAt p.coeffs k t) := by
  unfold Poly.evaluateAll
  rw [Res.check_of hl, Res.ok_bind, if_neg (by omega)]
  simp only [Res.pure_eq, Res.ok.injEq]
  apply List.map_congr_left
  intro k hk
  simp at hk
  exact evalCore_eq p t k (by omega) hN

/-- The coefficient list of the `k`-th derivative. -/
theorem getCoefficients_ok (p : Poly K) (k : ℕ) (hk : k ≤ p.N)
    (hN : p.N ≤ kMaxConvolutionSize) (hk' : k < kMaxConvolutionSize) :
    ∃ c, p.getCoefficients k = .ok c ∧ c.length = p.N ∧
      ofCoeffs c = derivative^[k] (ofCoeffs p.coeffs) := by
  unfold Poly.getCoefficients
  rw [Res.check_of (by exact_mod_cast hk), Res.ok_bind]
  by_cases h0 : k = 0
  · subst h0
    exact ⟨p.coeffs, by simp, rfl, rfl⟩
  · rw [if_neg (by exact_mod_cast h0), if_neg (by omega)]
    refine ⟨_, rfl, ?_, ?_⟩
    · simp; omega
    · ext m
      rw [coeff_ofCoeffs, coeff_iterate_derivative, coeff_ofCoeffs, Int.toNat_natCast]
      by_cases hm : m < p.N - k
      · rw [List.getD_eq_getElem?_getD, List.getElem?_append_left (by simpa using hm),
          List.getElem?_map, List.getElem?_range hm]
        simp only [Option.map_some, Option.getD_some]
        rw [baseCoeff_eq (by omega), nsmul_eq_mul, add_comm k m, mul_comm]
      · rw [List.getD_eq_getElem?_getD, List.getElem?_append_right (by simpa using hm)]
        have h2 : p.coeffs.getD (m + k) 0 = 0 := by
          rw [List.getD_eq_getElem?_getD, List.getElem?_eq_none (by unfold Poly.N at *; omega)]
          rfl
        rw [h2, smul_zero, List.getElem?_replicate]
        split <;> rfl

end CommSemiring

section Real

theorem curve_eq_eval (c : List ℝ) (t : ℝ) : curve c t = (ofCoeffs c).eval t := by
  simp [curve, ofCoeffs, eval_finsetSum, eval_monomial]

theorem curve_eq_fun (c : List ℝ) : curve c = fun t => (ofCoeffs c).eval t :=
  funext (curve_eq_eval c)

theorem iteratedDeriv_eval (P : ℝ[X]) (k : ℕ) :
    iteratedDeriv k (fun t => P.eval t) = fun t => (derivative^[k] P).eval t := by
  induction k generalizing P with
  | zero => simp [iteratedDeriv_zero]
  | succ k ih =>
    rw [iteratedDeriv_succ, ih]
    funext t
    rw [Polynomial.deriv, Function.iterate_succ_apply']

theorem iteratedDeriv_curve (c : List ℝ) (k : ℕ) :
    iteratedDeriv k (curve c) = derivAt c k := by
  rw [curve_eq_fun, iteratedDeriv_eval]; rfl

end Real
end Verif
