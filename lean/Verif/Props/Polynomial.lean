import Verif.Proofs.PolynomialExtrema
import Mathlib.Tactic.NormNum

/-
Properties C01 - C07: class `Polynomial`.

`Spec.curve c` is the real function `t ↦ ∑ c_j t^j`, `iteratedDeriv` is Mathlib's iterated
derivative of real functions; `Spec.derivAt c k t` is the value at `t` of the `k`-th derivative of
the Mathlib polynomial with these coefficients (used for arbitrary fields such as ℚ).
-/
namespace Verif

open Polynomial Spec Set

variable {K : Type}

/-! ### C01 evaluate -/

/-- **C01.** `evaluate(t, k)` is the `k`-th derivative at `t` of the polynomial function, for every
order `k` (also `k ≥ N`), every `t` and every coefficient vector that the static table supports. -/
theorem C01_evaluate (p : Poly ℝ) (hN : p.N ≤ 22) (t : ℝ) (k : ℕ) :
    p.evaluate t k = .ok (iteratedDeriv k (curve p.coeffs) t) := by
  rw [iteratedDeriv_curve]; exact evaluate_ok p t k hN

/-- **C01**, over any commutative semiring of scalars. -/
theorem C01_evaluate_exact [CommSemiring K] (p : Poly K) (hN : p.N ≤ 22) (t : K) (k : ℕ) :
    p.evaluate t k = .ok (derivAt p.coeffs k t) := evaluate_ok p t k hN

/-- **C01**, result-vector form: derivatives `0 .. len-1` in this order; a result vector longer than
the number of coefficients aborts. -/
theorem C01_evaluate_all (p : Poly ℝ) (hN : p.N ≤ 22) (t : ℝ) (len : ℕ) :
    (len ≤ p.N → ∃ r, p.evaluateAll t len = .ok r ∧ r.length = len ∧
      ∀ k, (hk : k < r.length) → r[k] = iteratedDeriv k (curve p.coeffs) t) ∧
    (p.N < len → p.evaluateAll t len = .abort) := by
  constructor
  · intro hl
    refine ⟨_, evaluateAll_ok p t len hN hl, by simp, ?_⟩
    intro k hk
    simp [iteratedDeriv_curve]
  · intro hl
    unfold Poly.evaluateAll
    rw [Res.check_of_not (by omega)]; rfl

/-- **C01**, range of validity: with more than 22 coefficients the table is read out of bounds. -/
theorem C01_evaluate_large_N (p : Poly ℝ) (hN : 22 < p.N) (t : ℝ) (k : ℕ) (hk : k < p.N) :
    p.evaluate t k = .ub := by
  unfold Poly.evaluate
  rw [if_neg (by omega), if_pos (Or.inr (by simpa [kMaxConvolutionSize] using hN))]

/-- **C01**, range of validity of the result-vector form: with more than 22 coefficients the table is read out
of bounds as soon as one value is asked for. -/
theorem C01_evaluate_all_large_N (p : Poly ℝ) (hN : 22 < p.N) (t : ℝ) (len : ℕ) (hl : len ≤ p.N) :
    p.evaluateAll t len = if len = 0 then .ok [] else .ub := by
  unfold Poly.evaluateAll
  rw [Res.check_of hl, Res.ok_bind]
  by_cases h : len = 0
  · simp [h]
  · rw [if_neg h, if_pos ⟨by omega, by simpa [kMaxConvolutionSize] using hN⟩]

example : (⟨[1, -2, 3]⟩ : Poly ℝ).N ≤ 22 := by decide
example : (⟨[1, -2, 3]⟩ : Poly ℚ).evaluate 2 1 = .ok 10 := by decide +kernel
example : (⟨[1, -2, 3]⟩ : Poly ℚ).evaluate 2 2 = .ok 6 := by decide +kernel
example : (⟨[1, -2, 3]⟩ : Poly ℚ).evaluateAll 2 3 = .ok [9, 10, 6] := by decide +kernel
example : (22 : ℕ) < (Poly.zero (K := ℝ) 23).N := by decide

/-! ### C02 getCoefficients -/

/-- **C02.** `getCoefficients(k)` has `N` entries, the last `k` of them zero, and read as a polynomial
it is the `k`-th derivative, hence agrees with `evaluate(t, k)`. -/
theorem C02_getCoefficients (p : Poly ℝ) (hN : p.N ≤ 22) (k : ℕ) (hk : k ≤ p.N) (hk2 : k < 22) :
    ∃ c, p.getCoefficients k = .ok c ∧ c.length = p.N ∧
      (∀ i, p.N - k ≤ i → (hi : i < c.length) → c[i] = 0) ∧
      (∀ t, curve c t = iteratedDeriv k (curve p.coeffs) t) ∧
      (∀ t, (⟨c⟩ : Poly ℝ).evaluate t 0 = p.evaluate t k) := by
  obtain ⟨c, h1, h2, h3⟩ := getCoefficients_ok p k hk hN hk2
  have hcurve : ∀ t, curve c t = iteratedDeriv k (curve p.coeffs) t := by
    intro t
    rw [curve_eq_eval, h3, iteratedDeriv_curve]; rfl
  refine ⟨c, h1, h2, ?_, hcurve, ?_⟩
  · intro i hi hi'
    have := congrArg (fun q => q.coeff i) h3
    simp only [coeff_ofCoeffs, coeff_iterate_derivative] at this
    rw [getD_of_ge p.coeffs _ _ (by unfold Poly.N at *; omega), smul_zero] at this
    simpa [List.getD_eq_getElem?_getD, hi'] using this
  · intro t
    have h4 : (⟨c⟩ : Poly ℝ).N ≤ 22 := by simpa [Poly.N, h2] using hN
    have := C01_evaluate ⟨c⟩ h4 t 0
    simp only [Nat.cast_zero] at this
    rw [this, C01_evaluate p hN t k, ← hcurve t, iteratedDeriv_zero]

/-- **C02.** Asking for more than `N` derivatives aborts. -/
theorem C02_getCoefficients_abort (p : Poly ℝ) (k : ℤ) (hk : (p.N : ℤ) < k) :
    p.getCoefficients k = .abort := by
  unfold Poly.getCoefficients
  rw [Res.check_of_not (by omega)]; rfl

example : (⟨[1, -2, 3, 4]⟩ : Poly ℚ).getCoefficients 2 = .ok [6, 24, 0, 0] := by decide +kernel

/-! ### C03 arithmetic -/

/-- **C03.** The sum of two polynomials with the same number of coefficients is the pointwise sum
(and has that number of coefficients). -/
theorem C03_add (p q : Poly ℝ) (h : p.N = q.N) :
    ∃ r, p.add q = .ok r ∧ r.N = p.N ∧ ∀ t, curve r.coeffs t = curve p.coeffs t + curve q.coeffs t := by
  refine ⟨_, if_pos h, ?_, ?_⟩
  · unfold Poly.N at *; simp [h]
  · intro t
    simp only [curve_eq_eval]
    rw [ofCoeffs_zipWith_add _ _ h, eval_add]

/-- **C03.** Scalar multiples are pointwise. -/
theorem C03_smul (p : Poly ℝ) (a : ℝ) :
    (p.smul a).N = p.N ∧ ∀ t, curve (p.smul a).coeffs t = a * curve p.coeffs t := by
  refine ⟨by simp [Poly.smul, Poly.N], ?_⟩
  intro t
  simp only [curve_eq_eval, Poly.smul]
  rw [ofCoeffs_map_mul, eval_C_mul]

/-- **C03.** The convolution product has `N_p + N_q - 1` coefficients and is the pointwise product,
for all lengths (not both empty). -/
theorem C03_mul (p q : Poly ℝ) (h : 0 < p.N + q.N) :
    ∃ r, p.mul q = .ok r ∧ r.N = p.N + q.N - 1 ∧
      ∀ t, curve r.coeffs t = curve p.coeffs t * curve q.coeffs t := by
  obtain ⟨c, h1, h2, h3⟩ := convolve_ok p.coeffs q.coeffs h
  refine ⟨⟨c⟩, ?_, h2, ?_⟩
  · unfold Poly.mul; rw [h1]; rfl
  · intro t
    simp only [curve_eq_eval]
    rw [h3, eval_mul]

/-- **C03.** Equality of polynomials with the same number of coefficients means equality as
functions; comparing different lengths is undefined. -/
theorem C03_eq (p q : Poly ℝ) :
    (p.N = q.N → ∃ b, p.beq q = .ok b ∧ (b = true ↔ ∀ t, curve p.coeffs t = curve q.coeffs t)) ∧
    (p.N ≠ q.N → p.beq q = .ub) := by
  constructor
  · intro h
    refine ⟨_, if_pos h, ?_⟩
    rw [decide_eq_true_eq]
    constructor
    · intro e t; rw [e]
    · intro e
      apply ofCoeffs_inj h
      apply Polynomial.funext
      intro t
      rw [← curve_eq_eval, ← curve_eq_eval, e]
  · intro h; exact if_neg h

example : (⟨[1, 2]⟩ : Poly ℚ).mul ⟨[3, 0, 5]⟩ = .ok ⟨[3, 6, 5, 10]⟩ := by decide +kernel
example : (⟨[1, 2]⟩ : Poly ℚ).add ⟨[3, 5]⟩ = .ok ⟨[4, 7]⟩ := by decide +kernel
example : (⟨[1, 2]⟩ : Poly ℚ).smul 3 = ⟨[3, 6]⟩ := by decide +kernel
example : (⟨[1, 2]⟩ : Poly ℚ).beq ⟨[1, 3]⟩ = .ok false := by decide +kernel

/-! ### C04 re-parametrisation -/

/-- **C04.** `scalePolynomialInTime(s)`: `p(t)` becomes `p(s t)`; the `k`-th derivative picks up the
factor `s^k`. -/
theorem C04_scaleInTime (p : Poly ℝ) (s : ℝ) :
    (p.scaleInTime s).N = p.N ∧
    (∀ t, curve (p.scaleInTime s).coeffs t = curve p.coeffs (s * t)) ∧
    (∀ k t, iteratedDeriv k (curve (p.scaleInTime s).coeffs) t =
      s ^ k * iteratedDeriv k (curve p.coeffs) (s * t)) := by
  refine ⟨scaleInTime_coeffs_length p s, ?_, ?_⟩
  · intro t
    have := derivAt_scaleInTime p s 0 t
    simpa [derivAt, curve_eq_eval] using this
  · intro k t
    rw [iteratedDeriv_curve, iteratedDeriv_curve, derivAt_scaleInTime]

/-- **C04.** `offsetPolynomial(o)` adds `o` to the value and leaves all derivatives; a polynomial
without coefficients is left alone. -/
theorem C04_offset (p : Poly ℝ) (o : ℝ) :
    (p.offset o).N = p.N ∧
    (0 < p.N → (∀ t, curve (p.offset o).coeffs t = curve p.coeffs t + o) ∧
      ∀ k t, 0 < k →
        iteratedDeriv k (curve (p.offset o).coeffs) t = iteratedDeriv k (curve p.coeffs) t) ∧
    (p.N = 0 → p.offset o = p) := by
  refine ⟨offset_N p o, ?_, ?_⟩
  · intro h
    constructor
    · intro t
      have := derivAt_offset p o h 0 t
      simpa [derivAt, curve_eq_eval] using this
    · intro k t hk
      rw [iteratedDeriv_curve, iteratedDeriv_curve, derivAt_offset p o h, if_neg (by omega), add_zero]
  · intro h
    have : p.coeffs = [] := List.eq_nil_of_length_eq_zero h
    unfold Poly.offset
    rw [this]

/-- **C04.** `getPolynomialWithAppendedCoefficients(M)` succeeds exactly for `M ≥ N`; then it has `M`
coefficients and is the same function; on failure the output is a copy of the input. -/
theorem C04_appendCoefficients (p : Poly ℝ) (M : ℕ) :
    ((p.withAppendedCoefficients M).1 = true ↔ p.N ≤ M) ∧
    (p.N ≤ M → (p.withAppendedCoefficients M).2.N = M) ∧
    (M < p.N → (p.withAppendedCoefficients M).2 = p) ∧
    (∀ t, curve (p.withAppendedCoefficients M).2.coeffs t = curve p.coeffs t) := by
  unfold Poly.withAppendedCoefficients
  by_cases h1 : M = p.N
  · simp only [if_pos h1]
    refine ⟨by simp [h1], by simp [h1], by simp, by simp⟩
  · by_cases h2 : M < p.N
    · simp only [if_neg h1, if_pos h2]
      refine ⟨by simpa using h2, by omega, by simp, by simp⟩
    · simp only [if_neg h1, if_neg h2]
      refine ⟨by simpa using h2, ?_, by omega, ?_⟩
      · intro _; unfold Poly.N at *; simp; omega
      · intro t; rw [curve_eq_eval, curve_eq_eval, ofCoeffs_append_zeros]

example : (⟨[1, 2, 3]⟩ : Poly ℚ).scaleInTime 2 = ⟨[1, 4, 12]⟩ := by decide +kernel
example : 0 < (⟨[1, 2, 3]⟩ : Poly ℝ).N := by decide
example : (⟨[1, 2]⟩ : Poly ℚ).withAppendedCoefficients 4 = (true, ⟨[1, 2, 0, 0]⟩) := by
  decide +kernel

/-! ### C05 baseCoeffsWithTime -/

/-- **C05 (partial).** The row returned by `baseCoeffsWithTime(N, k, t)` has `N` entries and, times a
coefficient vector, is the `k`-th derivative at `t`, provided `t = 0` or `|t|` is at least the
machine epsilon. Missing from the full claim: `0 < |t| < epsilon`, where it is false, see
`C05_row_false_near_zero`. -/
theorem C05_row_partial (n k : ℕ) (t : ℝ) (hk : k < n) (hn : n ≤ 22)
    (ht : t = 0 ∨ (1 : ℝ) / 2 ^ 52 ≤ |t|) :
    ∃ row, baseCoeffsWithTime n k t = .ok row ∧ row.length = n ∧
      ∀ c : List ℝ, c.length = n → dot row c = iteratedDeriv k (curve c) t := by
  obtain ⟨row, h1, h2, h3⟩ := baseCoeffsWithTime_ok n k t hk hn
  refine ⟨row, h1, h2, ?_⟩
  intro c hc
  rw [h3 c hc, iteratedDeriv_curve]
  rcases ht with rfl | ht
  · simp
  · rw [if_neg (by unfold dblEpsilon; exact not_lt.mpr ht)]

/-- **C05, refutation of the full claim.** For every `0 < |t| < epsilon` the row for `N = 2, k = 0`
misses the slope: it gives `p(0)` instead of `p(t)`. -/
theorem C05_row_false_near_zero (t : ℝ) (ht0 : t ≠ 0) (ht : |t| < 1 / 2 ^ 52) :
    ∃ row, baseCoeffsWithTime 2 0 t = .ok row ∧
      dot row [0, 1] ≠ iteratedDeriv 0 (curve [0, 1]) t := by
  obtain ⟨row, h1, h2, h3⟩ := baseCoeffsWithTime_ok 2 0 t (by omega) (by decide)
  refine ⟨row, h1, ?_⟩
  rw [h3 _ rfl, if_pos (by unfold dblEpsilon; exact ht), iteratedDeriv_zero]
  simp [derivAt_eq_sum, curve, Finset.sum_range_succ, ht0.symm]

/-- **C05.** Orders outside `0 .. N-1` abort. -/
theorem C05_row_abort (n : ℕ) (k : ℤ) (t : ℝ) (hk : k < 0 ∨ (n : ℤ) ≤ k) :
    baseCoeffsWithTime n k t = .abort := by
  unfold baseCoeffsWithTime
  by_cases h : k < n
  · rw [Res.check_of h, Res.ok_bind, Res.check_of_not (by omega)]; rfl
  · rw [Res.check_of_not h]; rfl

example : ((1 : ℝ) = 0 ∨ (1 : ℝ) / 2 ^ 52 ≤ |(1 : ℝ)|) := by right; norm_num
example : ((1 / 2 ^ 60 : ℝ) ≠ 0) ∧ |(1 / 2 ^ 60 : ℝ)| < 1 / 2 ^ 52 := by
  constructor
  · positivity
  · rw [abs_of_pos (by positivity)]; norm_num
example : baseCoeffsWithTime (K := ℚ) 4 1 2 = .ok [0, 1, 4, 12] := by decide +kernel

/-! ### C06 computeMinMax -/

/-- **C06.** With a complete root finder, `computeMinMax(a, b, k)` succeeds and returns a minimum and a
maximum (time, value) of the `k`-th derivative over `[a, b]`: times in the interval, values attained
there, and bounds for every time of the interval. (Values must be below `DBL_MAX`.) -/
theorem C06_computeMinMax (rf : RootFinder ℝ) (hrf : Complete rf) (p : Poly ℝ) (hN : p.N ≤ 22)
    (k : ℕ) (hk : k < p.N) (hk2 : k < 21) (a b : ℝ) (hab : a ≤ b)
    (hfin : ∀ t ∈ Icc a b, |iteratedDeriv k (curve p.coeffs) t| < dblMax) :
    ∃ m M : ℝ × ℝ, p.computeMinMax rf a b k = .ok (some (m, M)) ∧
      m.1 ∈ Icc a b ∧ M.1 ∈ Icc a b ∧
      m.2 = iteratedDeriv k (curve p.coeffs) m.1 ∧ M.2 = iteratedDeriv k (curve p.coeffs) M.1 ∧
      ∀ t ∈ Icc a b, m.2 ≤ iteratedDeriv k (curve p.coeffs) t ∧
        iteratedDeriv k (curve p.coeffs) t ≤ M.2 := by
  simp only [iteratedDeriv_curve] at *
  obtain ⟨m, M, h1, h2, h3, h4, h5, h6⟩ := computeMinMax_ok rf hrf p hN k hk
    (by unfold kMaxConvolutionSize; omega) hab hfin
  exact ⟨m, M, h1, h2, h4, h3, h5, h6⟩

/-- **C06.** It reports failure when the interval is reversed or the derivative order is not below
the number of coefficients. -/
theorem C06_computeMinMax_fails (rf : RootFinder ℝ) (p : Poly ℝ) (hN : p.N ≤ 22)
    (k : ℕ) (hk2 : k < 21) (a b : ℝ) (h : b < a ∨ p.N ≤ k) :
    p.computeMinMax rf a b k = .ok none := by
  unfold Poly.computeMinMax Poly.computeMinMaxCandidates
  by_cases hk : p.N ≤ k
  · rw [if_pos (by omega)]; rfl
  · have hba : b < a := by tauto
    obtain ⟨c, hc, _, _⟩ := getCoefficients_ok p (k + 1) (by omega) hN
      (by unfold kMaxConvolutionSize; omega)
    rw [if_neg (by omega)]
    unfold Poly.getRoots
    have : ((k : ℤ) + 1) = ((k + 1 : ℕ) : ℤ) := by push_cast; rfl
    rw [this, hc]
    simp only [Res.ok_bind, Res.pure_eq, candidates_none hba]
    rfl

/-- A complete root finder exists (all real roots of the polynomial), so the hypothesis of C06 can be
met. -/
theorem complete_rootFinder_exists : ∃ rf : RootFinder ℝ, Complete rf := by
  classical
  refine ⟨fun c => (true, (ofCoeffs c).roots.toList.map fun x => (x, 0)), ?_⟩
  intro c hc x hx
  simp only [List.mem_map, Prod.mk.injEq, and_true, exists_eq_right, Multiset.mem_toList]
  exact (mem_roots hc).mpr hx

/-- The hypotheses of `C06_computeMinMax` are met by `t² - t` on `[0, 2]`. -/
example : ∀ t ∈ Icc (0 : ℝ) 2,
    |iteratedDeriv 0 (curve (⟨[0, -1, 1]⟩ : Poly ℝ).coeffs) t| < dblMax := by
  intro t ht
  simp [iteratedDeriv_zero, curve, Finset.sum_range_succ]
  have h1 := ht.1
  have h2 := ht.2
  have : |-t + t ^ 2| ≤ 100 := by
    rw [abs_le]; constructor <;> nlinarith
  exact lt_trans (lt_of_le_of_lt this (by norm_num)) dblMax_gt
example : (⟨[0, -1, 1]⟩ : Poly ℚ).computeMinMax (fun _ => (true, [(1/2, 0)])) 0 2 0 =
    .ok (some ((1/2, -1/4), (2, 2))) := by decide +kernel

/-! ### C07 candidates for an arbitrary root list -/

/-- **C07.** Whatever the root finder returned: the candidates are the two ends followed by exactly the
reported (numerically) real roots inside the interval, so they all lie in the interval. -/
theorem C07_candidates (a b : ℝ) (roots : List (ℝ × ℝ)) :
    (b < a → selectMinMaxCandidatesFromRoots a b roots = none) ∧
    (a ≤ b → ∃ c, selectMinMaxCandidatesFromRoots a b roots = some (a :: b :: c) ∧
      (∀ x ∈ a :: b :: c, x ∈ Icc a b) ∧
      ∀ x, x ∈ c ↔ x ∈ Icc a b ∧ ∃ im, (x, im) ∈ roots ∧ |im| ≤ 1 / 2 ^ 52) := by
  refine ⟨fun h => candidates_none h roots, fun h => ?_⟩
  obtain ⟨c, h1, h2⟩ := candidates_some h roots
  refine ⟨c, h1, ?_, ?_⟩
  · intro x hx
    rcases List.mem_cons.mp hx with rfl | hx
    · exact left_mem_Icc.mpr h
    rcases List.mem_cons.mp hx with rfl | hx
    · exact right_mem_Icc.mpr h
    · exact ⟨((h2 x).mp hx).1, ((h2 x).mp hx).2.1⟩
  · intro x
    rw [h2 x]
    simp only [mem_Icc, dblEpsilon, and_assoc]

/-- **C07.** Hence for every root finder, even a wrong or failing one, `computeMinMax` returns times
inside the interval with the values taken there, and the minimum (maximum) is never above (below)
the values at the two ends. -/
theorem C07_any_rootFinder (rf : RootFinder ℝ) (p : Poly ℝ) (hN : p.N ≤ 22)
    (k : ℕ) (hk : k < p.N) (hk2 : k < 21) (a b : ℝ) (hab : a ≤ b)
    (hfin : ∀ t ∈ Icc a b, |iteratedDeriv k (curve p.coeffs) t| < dblMax) :
    ∃ m M : ℝ × ℝ, p.computeMinMax rf a b k = .ok (some (m, M)) ∧
      m.1 ∈ Icc a b ∧ M.1 ∈ Icc a b ∧
      m.2 = iteratedDeriv k (curve p.coeffs) m.1 ∧ M.2 = iteratedDeriv k (curve p.coeffs) M.1 ∧
      ∀ t ∈ ({a, b} : Set ℝ), m.2 ≤ iteratedDeriv k (curve p.coeffs) t ∧
        iteratedDeriv k (curve p.coeffs) t ≤ M.2 := by
  simp only [iteratedDeriv_curve] at *
  obtain ⟨c, cand, hl, hd, hcand, hmem⟩ := computeMinMaxCandidates_ok rf p hN k hk
    (by unfold kMaxConvolutionSize; omega) hab
  have hsub : ∀ x ∈ a :: b :: cand, x ∈ Icc a b := by
    intro x hx
    rcases List.mem_cons.mp hx with rfl | hx
    · exact left_mem_Icc.mpr hab
    rcases List.mem_cons.mp hx with rfl | hx
    · exact right_mem_Icc.mpr hab
    · exact ⟨((hmem x).mp hx).1, ((hmem x).mp hx).2.1⟩
  obtain ⟨m, M, hres, h1, h2, h3, h4, h5⟩ := selectMinMaxFromCandidates_ok p hN k (a :: b :: cand)
    (by simp) (fun t ht => hfin t (hsub t ht))
  refine ⟨m, M, ?_, hsub _ h1, hsub _ h3, h2, h4, ?_⟩
  · unfold Poly.computeMinMax
    rw [hcand, Res.ok_bind, if_pos rfl]
    exact hres
  · intro t ht
    rcases ht with rfl | ht
    · exact h5 _ (by simp)
    · rw [Set.mem_singleton_iff] at ht; subst ht; exact h5 _ (by simp)

example : selectMinMaxCandidatesFromRoots (0 : ℚ) 2 [(1, 0), (3, 0), (1/2, 1), (2, 0)] =
    some [0, 2, 1, 2] := by decide +kernel

end Verif
