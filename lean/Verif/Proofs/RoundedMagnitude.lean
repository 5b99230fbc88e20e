import Verif.Model.RoundedMagnitude
import Verif.Spec.RoundedMagnitude
import Verif.Proofs.RoundedExtrema

/- Helper lemmas for magnitudes with rounded numbers. -/
set_option linter.unusedSectionVars false

namespace Verif

open Polynomial Spec Set

/-! #### extrema of a polynomial whose derivative is known approximately -/

theorem exists_antiderivative (Q : ℝ[X]) : ∃ F : ℝ[X], derivative F = Q := by
  induction Q using Polynomial.induction_on' with
  | add p q hp hq =>
    obtain ⟨F, hF⟩ := hp
    obtain ⟨G, hG⟩ := hq
    exact ⟨F + G, by rw [derivative_add, hF, hG]⟩
  | monomial n a =>
    refine ⟨monomial (n + 1) (a / (n + 1)), ?_⟩
    rw [derivative_monomial]
    have : (n : ℝ) + 1 ≠ 0 := by positivity
    simp only [Nat.add_sub_cancel]
    push_cast
    rw [div_mul_cancel₀ _ this]

theorem max_perturbed (P Q : ℝ[X]) {a b η ε : ℝ} (hab : a ≤ b) (hε : 0 ≤ ε)
    (hQ : ∀ t ∈ Icc a b, |(derivative P).eval t - 2 * Q.eval t| ≤ η) (R S : List ℝ)
    (ha : a ∈ S) (hb : b ∈ S) (hR : CoversOn ε a b R Q) (hRS : ∀ z ∈ R, z ∈ Icc a b → z ∈ S) :
    ∃ M ∈ Icc a b, (∀ t ∈ Icc a b, P.eval t ≤ P.eval M + η * (b - a)) ∧
      ∃ s ∈ S, s ∈ Icc a b ∧ |s - M| ≤ ε := by
  obtain ⟨F, hF⟩ := exists_antiderivative Q
  obtain ⟨M, hM, h1, s, hs, h2, h3, -⟩ := near_max_on F hab hε R S ha hb (by rw [hF]; exact hR) hRS
  refine ⟨M, hM, fun t ht => ?_, s, hs, h2, h3⟩
  have hη : 0 ≤ η := (abs_nonneg _).trans (hQ M hM)
  have key := (convex_Icc a b).norm_image_sub_le_of_norm_hasDerivWithin_le
    (f := fun t => P.eval t - 2 * F.eval t) (f' := fun t => (derivative P).eval t - 2 * Q.eval t) (C := η)
    (fun t _ => by
      have := (P.hasDerivAt t).sub ((F.hasDerivAt t).const_mul 2)
      rw [hF] at this
      exact this.hasDerivWithinAt)
    (fun t ht => by rw [Real.norm_eq_abs]; exact hQ t ht) hM ht
  rw [Real.norm_eq_abs, Real.norm_eq_abs] at key
  have h4 : |t - M| ≤ b - a := abs_le.mpr ⟨by linarith [ht.1, hM.2], by linarith [ht.2, hM.1]⟩
  have h5 := mul_le_mul_of_nonneg_left h4 hη
  have h6 := (abs_le.mp (key.trans h5)).2
  have := h1 t ht
  linarith

theorem min_perturbed (P Q : ℝ[X]) {a b η ε : ℝ} (hab : a ≤ b) (hε : 0 ≤ ε)
    (hQ : ∀ t ∈ Icc a b, |(derivative P).eval t - 2 * Q.eval t| ≤ η) (R S : List ℝ)
    (ha : a ∈ S) (hb : b ∈ S) (hR : CoversOn ε a b R Q) (hRS : ∀ z ∈ R, z ∈ Icc a b → z ∈ S) :
    ∃ M ∈ Icc a b, (∀ t ∈ Icc a b, P.eval M ≤ P.eval t + η * (b - a)) ∧
      ∃ s ∈ S, s ∈ Icc a b ∧ |s - M| ≤ ε := by
  obtain ⟨M, hM, h1, h2⟩ := max_perturbed (-P) (-Q) hab hε (η := η) (fun t ht => by
    rw [derivative_neg, eval_neg, eval_neg, ← abs_neg]
    have := hQ t ht
    rwa [show -(-(derivative P).eval t - 2 * -Q.eval t) = (derivative P).eval t - 2 * Q.eval t by ring]) R S ha hb
    hR.neg hRS
  refine ⟨M, hM, fun t ht => ?_, h2⟩
  have := h1 t ht
  rw [eval_neg, eval_neg] at this
  linarith

/-! #### coefficients -/

/-- The coefficients of `X'` are those of `X` up to `α - 1` times those of `A`, which bound those of `X`. -/
def CoeffNear (α : ℝ) (X' X A : ℝ[X]) : Prop :=
  ∀ i, |X'.coeff i - X.coeff i| ≤ (α - 1) * A.coeff i ∧ |X.coeff i| ≤ A.coeff i

theorem CoeffNear.mono {α β : ℝ} (hαβ : α ≤ β) {X' X A : ℝ[X]} (h : CoeffNear α X' X A) : CoeffNear β X' X A :=
  fun i => ⟨(h i).1.trans (mul_le_mul_of_nonneg_right (by linarith) ((abs_nonneg _).trans (h i).2)), (h i).2⟩

theorem CoeffNear.le {α : ℝ} {X' X A : ℝ[X]} (h : CoeffNear α X' X A) (i : ℕ) : |X'.coeff i| ≤ α * A.coeff i := by
  have h1 := abs_add_le (X'.coeff i - X.coeff i) (X.coeff i)
  rw [sub_add_cancel] at h1
  have := h i
  linarith [this.1, this.2]

theorem CoeffNear.mul {α β : ℝ} (hα : 1 ≤ α) (_hβ : 1 ≤ β) {X' X A Y' Y B : ℝ[X]} (h1 : CoeffNear α X' X A)
    (h2 : CoeffNear β Y' Y B) : CoeffNear (α * β) (X' * Y') (X * Y) (A * B) := by
  intro i
  simp only [coeff_mul]
  rw [← Finset.sum_sub_distrib, Finset.mul_sum]
  refine ⟨(Finset.abs_sum_le_sum_abs _ _).trans (Finset.sum_le_sum fun p _ => ?_),
    (Finset.abs_sum_le_sum_abs _ _).trans (Finset.sum_le_sum fun p _ => ?_)⟩
  · obtain ⟨a1, a2⟩ := h1 p.1
    obtain ⟨b1, b2⟩ := h2 p.2
    have a3 := h1.le p.1
    have hA : 0 ≤ A.coeff p.1 := (abs_nonneg _).trans a2
    have hB : 0 ≤ B.coeff p.2 := (abs_nonneg _).trans b2
    have e : X'.coeff p.1 * Y'.coeff p.2 - X.coeff p.1 * Y.coeff p.2 =
        X'.coeff p.1 * (Y'.coeff p.2 - Y.coeff p.2) + (X'.coeff p.1 - X.coeff p.1) * Y.coeff p.2 := by ring
    rw [e]
    have q1 : |X'.coeff p.1 * (Y'.coeff p.2 - Y.coeff p.2)| ≤ (α * A.coeff p.1) * ((β - 1) * B.coeff p.2) := by
      rw [abs_mul]
      exact mul_le_mul a3 b1 (abs_nonneg _) (by positivity)
    have q2 : |(X'.coeff p.1 - X.coeff p.1) * Y.coeff p.2| ≤ ((α - 1) * A.coeff p.1) * B.coeff p.2 := by
      rw [abs_mul]
      exact mul_le_mul a1 b2 (abs_nonneg _) (mul_nonneg (by linarith) hA)
    have := abs_add_le (X'.coeff p.1 * (Y'.coeff p.2 - Y.coeff p.2)) ((X'.coeff p.1 - X.coeff p.1) * Y.coeff p.2)
    calc _ ≤ _ := this
      _ ≤ (α * A.coeff p.1) * ((β - 1) * B.coeff p.2) + ((α - 1) * A.coeff p.1) * B.coeff p.2 := add_le_add q1 q2
      _ = _ := by ring
  · rw [abs_mul]
    exact mul_le_mul (h1 p.1).2 (h2 p.2).2 (abs_nonneg _) ((abs_nonneg _).trans (h1 p.1).2)

theorem CoeffNear.eval {α : ℝ} (hα : 1 ≤ α) {X' X A : ℝ[X]} (h : CoeffNear α X' X A) {t T : ℝ} (ht : |t| ≤ T) :
    |X'.eval t - X.eval t| ≤ (α - 1) * A.eval T := by
  have hT : 0 ≤ T := (abs_nonneg _).trans ht
  set n := max (max X'.natDegree X.natDegree) A.natDegree + 1 with hn
  rw [eval_eq_sum_range' (n := n) (by omega), eval_eq_sum_range' (n := n) (by omega) t,
    eval_eq_sum_range' (n := n) (by omega) T, ← Finset.sum_sub_distrib, Finset.mul_sum]
  refine (Finset.abs_sum_le_sum_abs _ _).trans (Finset.sum_le_sum fun i _ => ?_)
  rw [← sub_mul, abs_mul, abs_pow, ← mul_assoc]
  exact mul_le_mul (h i).1 (pow_le_pow_left₀ (abs_nonneg _) ht i) (by positivity)
    (mul_nonneg (by linarith) ((abs_nonneg _).trans (h i).2))

variable {rnd : ℝ → ℝ} {u : ℝ}

theorem vals_getD (l : List (Fl rnd)) (n : ℕ) : (vals l).getD n 0 = (l.getD n 0).val := by
  unfold vals
  rw [List.getD_eq_getElem?_getD, List.getElem?_map, List.getD_eq_getElem?_getD]
  cases l[n]? <;> rfl

theorem abs_getD (l : List ℝ) (n : ℕ) : (l.map abs).getD n 0 = |l.getD n 0| := by
  rw [List.getD_eq_getElem?_getD, List.getElem?_map, List.getD_eq_getElem?_getD]
  cases l[n]? <;> simp

theorem one_le_pow_u (h : Rounding rnd u) (n : ℕ) : 1 ≤ (1 + u) ^ n :=
  one_le_pow₀ (by linarith [rounding_nonneg h])

theorem coeffNear_abs (c : List ℝ) (k : ℕ) :
    CoeffNear 1 (derivative^[k] (ofCoeffs c)) (derivative^[k] (ofCoeffs c)) (derivative^[k] (ofCoeffs (c.map abs))) := by
  intro i
  rw [sub_self, abs_zero, sub_self, zero_mul]
  refine ⟨le_rfl, ?_⟩
  rw [coeff_iterate_derivative, coeff_iterate_derivative, coeff_ofCoeffs, coeff_ofCoeffs, abs_getD, nsmul_eq_mul,
    nsmul_eq_mul, abs_mul, Nat.abs_cast]

/-- The coefficients of the `k`-th derivative, with rounding. -/
theorem getCoefficients_near (h : Rounding rnd u) (p : Poly (Fl rnd)) (k : ℕ) (hk : k ≤ p.N) (hN : p.N ≤ 22)
    (hk2 : k < 22) :
    ∃ c, p.getCoefficients (k : ℤ) = .ok c ∧ c.length = p.N ∧
      CoeffNear ((1 + u) ^ (2 * p.N)) (ofCoeffs (vals c)) (derivative^[k] (ofCoeffs (vals p.coeffs)))
        (derivative^[k] (ofCoeffs ((vals p.coeffs).map abs))) ∧ ∀ m, p.N - k ≤ m → (ofCoeffs (vals c)).coeff m = 0 := by
  rcases k with _ | k
  · refine ⟨p.coeffs, ?_, rfl, ?_, ?_⟩
    · unfold Poly.getCoefficients
      rw [Res.check_of (by push_cast; omega), Res.ok_bind, if_pos (by rfl)]
      rfl
    · exact (coeffNear_abs (vals p.coeffs) 0).mono (one_le_pow_u h _)
    · intro m hm
      rw [coeff_ofCoeffs, vals_getD, List.getD_eq_getElem?_getD, List.getElem?_eq_none (by simpa [Poly.N] using hm)]
      rfl
  · obtain ⟨c, c', h1, h2, h3⟩ := getCoefficients_rounded h p k (by omega) hN (by omega)
    have hl : c.length = p.N := by
      unfold Poly.getCoefficients at h1
      rw [Res.check_of (by omega), Res.ok_bind, if_neg (by omega), if_neg (by unfold kMaxConvolutionSize; omega),
        Res.pure_eq, Res.ok.injEq] at h1
      rw [← h1]
      simp
      omega
    have hl' : c'.length = p.N := by
      rw [h2.length_eq]
      simp [vals, Poly.N]
    refine ⟨c, by push_cast; exact h1, hl, ?_, ?_⟩
    · rw [h3]
      intro i
      have hA := ((coeffNear_abs (vals p.coeffs) (k + 1)) i).2
      refine ⟨?_, hA⟩
      rw [coeff_iterate_derivative, coeff_iterate_derivative, coeff_iterate_derivative, coeff_ofCoeffs, coeff_ofCoeffs,
        coeff_ofCoeffs, abs_getD, nsmul_eq_mul, nsmul_eq_mul, nsmul_eq_mul, ← mul_sub, abs_mul, Nat.abs_cast,
        mul_left_comm]
      refine mul_le_mul_of_nonneg_left ?_ (Nat.cast_nonneg _)
      by_cases hi : i + (k + 1) < p.N
      · have hi1 : i + (k + 1) < c'.length := by omega
        have hi2 : i + (k + 1) < (vals p.coeffs).length := by simpa [vals, Poly.N] using hi
        have := (List.forall₂_iff_get.mp h2).2 (i + (k + 1)) hi1 hi2
        rw [List.getD_eq_getElem?_getD, List.getD_eq_getElem?_getD, List.getElem?_eq_getElem hi1,
          List.getElem?_eq_getElem hi2]
        exact this
      · have hi1 : c'.length ≤ i + (k + 1) := by omega
        have hi2 : (vals p.coeffs).length ≤ i + (k + 1) := by simp [vals]; unfold Poly.N at hi; omega
        rw [List.getD_eq_getElem?_getD, List.getD_eq_getElem?_getD, List.getElem?_eq_none hi1,
          List.getElem?_eq_none hi2]
        simp
    · intro m hm
      rw [h3, coeff_iterate_zero]
      omega

theorem ofCoeffs_vals_take {c : List (Fl rnd)} {n : ℕ} (h : ∀ m, n ≤ m → (ofCoeffs (vals c)).coeff m = 0) :
    ofCoeffs (vals (c.take n)) = ofCoeffs (vals c) := by
  have : vals (c.take n) = (vals c).take n := by simp [vals, List.map_take]
  rw [this, ofCoeffs_take h]

/-- One convolution with rounding. -/
theorem convolve_near (h : Rounding rnd u) (a b : List (Fl rnd)) (hab : 0 < a.length + b.length) {m : ℕ}
    {X A Y B : ℝ[X]} (hX : CoeffNear ((1 + u) ^ m) (ofCoeffs (vals a)) X A)
    (hY : CoeffNear ((1 + u) ^ m) (ofCoeffs (vals b)) Y B) :
    ∃ c, convolve a b = .ok c ∧ c.length = a.length + b.length - 1 ∧
      ∀ i < c.length, |(c.getD i 0).val - (X * Y).coeff i| ≤ ((1 + u) ^ (2 * m + (b.length + 1)) - 1) * (A * B).coeff i := by
  obtain ⟨r, h1, h2, h3⟩ := C100_product h ⟨a⟩ ⟨b⟩ (by simpa [Poly.N] using hab)
  unfold Poly.mul at h1
  rw [Res.bind_eq_ok] at h1
  obtain ⟨c, hc, h1⟩ := h1
  rw [Res.pure_eq, Res.ok.injEq] at h1
  subst h1
  refine ⟨c, hc, by simpa [Poly.N] using h2, fun i hi => ?_⟩
  have h4 := h3 i c[i] (by simp [hi])
  have hXY := hX.mul (one_le_pow_u h m) (one_le_pow_u h m) hY
  have ab : ∀ l : List (Fl rnd), ∀ j, (ofCoeffs ((vals l).map abs)).coeff j = |(ofCoeffs (vals l)).coeff j| := by
    intro l j
    rw [coeff_ofCoeffs, coeff_ofCoeffs, abs_getD]
  have h5 : (ofCoeffs ((vals a).map abs) * ofCoeffs ((vals b).map abs)).coeff i ≤
      (1 + u) ^ (2 * m) * (A * B).coeff i := by
    rw [coeff_mul, coeff_mul, Finset.mul_sum]
    refine Finset.sum_le_sum fun p _ => ?_
    rw [ab, ab, two_mul, pow_add]
    have e : (1 + u) ^ m * (1 + u) ^ m * (A.coeff p.1 * B.coeff p.2) =
      ((1 + u) ^ m * A.coeff p.1) * ((1 + u) ^ m * B.coeff p.2) := by ring
    rw [e]
    exact mul_le_mul (hX.le _) (hY.le _) (abs_nonneg _) ((abs_nonneg _).trans (hX.le _))
  have h6 := (hXY i).1
  rw [← pow_add, ← two_mul] at h6
  rw [List.getD_eq_getElem?_getD, List.getElem?_eq_getElem hi, Option.getD_some]
  have h7 := abs_add_le (c[i].val - (ofCoeffs (vals a) * ofCoeffs (vals b)).coeff i)
    ((ofCoeffs (vals a) * ofCoeffs (vals b)).coeff i - (X * Y).coeff i)
  rw [sub_add_sub_cancel] at h7
  have h8 := mul_le_mul_of_nonneg_left h5 (sub_nonneg.mpr (one_le_pow_u h (b.length + 1)))
  have h4' := h4.trans h8
  refine h7.trans ((add_le_add h4' h6).trans (le_of_eq ?_))
  rw [pow_add]
  ring

/-- The derivative of half the sum of the squares, and its bound, as polynomials. -/
noncomputable def crossPoly (ps : List (List ℝ)) (ds : List ℕ) (k : ℕ) : ℝ[X] :=
  (ds.map fun d => derivative^[k] (ofCoeffs (ps.getD d [])) * derivative^[k + 1] (ofCoeffs (ps.getD d []))).sum

/-- The coefficients of a segment as real numbers. -/
def segVals (s : Segment (Fl rnd)) : List (List ℝ) := s.polys.map fun p => vals p.coeffs

theorem segVals_getD (s : Segment (Fl rnd)) {d : ℕ} (hd : d < s.polys.length) :
    (segVals s).getD d [] = vals s.polys[d].coeffs := by
  unfold segVals
  rw [List.getD_eq_getElem?_getD, List.getElem?_map, List.getElem?_eq_getElem hd]
  rfl

theorem segVals_abs_getD (s : Segment (Fl rnd)) {d : ℕ} (hd : d < s.polys.length) :
    ((segVals s).map (List.map abs)).getD d [] = (vals s.polys[d].coeffs).map abs := by
  unfold segVals
  rw [List.getD_eq_getElem?_getD, List.getElem?_map, List.getElem?_map, List.getElem?_eq_getElem hd]
  rfl

/-- The loop over the dimensions with rounding. -/
theorem convolvedLoop_near (h : Rounding rnd u) (s : Segment (Fl rnd)) (hs : s.WF) (k : ℕ) (hk : k < s.N)
    (hk2 : k + 1 < 22) (ds : List ℕ) (hds : ∀ d ∈ ds, d < s.D) (m : ℕ) (hm : 5 * s.N + 1 ≤ m)
    (acc : List (Fl rnd)) (hacc : acc.length = (s.N - k) + (s.N - k - 1) - 1) {X A : ℝ[X]}
    (hX : ∀ i < acc.length, |(acc.getD i 0).val - X.coeff i| ≤ ((1 + u) ^ m - 1) * A.coeff i)
    (hXA : ∀ i, |X.coeff i| ≤ A.coeff i) (hXz : ∀ i, acc.length ≤ i → X.coeff i = 0) :
    ∃ c, convolvedLoop s k (s.N - k) (s.N - k - 1) (asInts ds) acc = .ok (some c) ∧
      CoeffNear ((1 + u) ^ (m + ds.length)) (ofCoeffs (vals c)) (X + crossPoly (segVals s) ds k)
        (A + crossPoly ((segVals s).map (List.map abs)) ds k) := by
  have hu := rounding_nonneg h
  induction ds generalizing acc X A m with
  | nil =>
    refine ⟨acc, rfl, fun i => ?_⟩
    simp only [crossPoly, List.map_nil, List.sum_nil, add_zero, List.length_nil]
    refine ⟨?_, hXA i⟩
    rw [coeff_ofCoeffs, vals_getD]
    by_cases hi : i < acc.length
    · exact hX i hi
    · rw [hXz i (by omega), List.getD_eq_getElem?_getD, List.getElem?_eq_none (by omega)]
      have : (0 : Fl rnd).val = 0 := rfl
      rw [Option.getD_none, this, sub_zero, abs_zero]
      exact mul_nonneg (sub_nonneg.mpr (one_le_pow_u h m)) ((abs_nonneg _).trans (hXA i))
  | cons d ds ih =>
    have hd : d < s.polys.length := hds d (by simp)
    have hmem := List.getElem_mem hd
    have hpN : s.polys[d].N = s.N := hs.polysN _ hmem
    have hsmall := hs.small
    obtain ⟨c1, h1, l1, e1, z1⟩ := getCoefficients_near h s.polys[d] k (by omega) (by omega) (by omega)
    obtain ⟨c2, h2, l2, e2, z2⟩ := getCoefficients_near h s.polys[d] (k + 1) (by omega) (by omega) hk2
    rw [hpN] at e1 e2 z1 z2 l1 l2
    rw [← ofCoeffs_vals_take z1] at e1
    rw [← ofCoeffs_vals_take z2] at e2
    have t1 : (c1.take (s.N - k)).length = s.N - k := by rw [List.length_take, l1]; omega
    have t2 : (c2.take (s.N - (k + 1))).length = s.N - (k + 1) := by rw [List.length_take, l2]; omega
    obtain ⟨cv, hcv, lcv, ecv⟩ := convolve_near h (c1.take (s.N - k)) (c2.take (s.N - (k + 1)))
      (by rw [t1, t2]; omega) e1 e2
    rw [t1, t2] at lcv
    rw [t2] at ecv
    set PX := derivative^[k] (ofCoeffs (vals s.polys[d].coeffs)) * derivative^[k + 1] (ofCoeffs (vals s.polys[d].coeffs))
      with hPX
    set PA := derivative^[k] (ofCoeffs ((vals s.polys[d].coeffs).map abs)) *
      derivative^[k + 1] (ofCoeffs ((vals s.polys[d].coeffs).map abs)) with hPA
    have lcv' : cv.length = acc.length := by rw [lcv, hacc]; omega
    have hPXA : ∀ i, |PX.coeff i| ≤ PA.coeff i := fun i =>
      (((coeffNear_abs (vals s.polys[d].coeffs) k).mul le_rfl le_rfl (coeffNear_abs (vals s.polys[d].coeffs) (k + 1))) i).2
    have hPXz : ∀ i, acc.length ≤ i → PX.coeff i = 0 := by
      intro i hi
      rw [hPX, coeff_mul]
      refine Finset.sum_eq_zero fun p hp => ?_
      have hp := Finset.mem_antidiagonal.mp hp
      have hvl : (vals s.polys[d].coeffs).length = s.N := by rw [← hpN]; simp [vals, Poly.N]
      by_cases hp1 : s.N - k ≤ p.1
      · rw [coeff_iterate_zero _ _ _ (by omega), zero_mul]
      · rw [coeff_iterate_zero _ (k + 1) p.2 (by omega), mul_zero]
    have hcv' : ∀ i < acc.length, |(cv.getD i 0).val - PX.coeff i| ≤ ((1 + u) ^ m - 1) * PA.coeff i := by
      intro i hi
      refine (ecv i (by omega)).trans (mul_le_mul_of_nonneg_right ?_ ((abs_nonneg _).trans (hPXA i)))
      refine sub_le_sub_right (pow_le_pow_right₀ (by linarith) ?_) 1
      omega
    obtain ⟨c, hc, hnear⟩ := ih (fun x hx => hds x (by simp [hx])) (m + 1) (by omega)
      (List.zipWith (· + ·) acc cv) (by simp [lcv', hacc]) (X := X + PX) (A := A + PA)
      (by
        intro i hi
        have hi : i < acc.length := by simpa [lcv'] using hi
        have g : (List.zipWith (· + ·) acc cv).getD i 0 = acc.getD i 0 + cv.getD i 0 := by
          rw [List.getD_eq_getElem?_getD, List.getD_eq_getElem?_getD, List.getD_eq_getElem?_getD,
            List.getElem?_eq_getElem (by simpa [lcv'] using hi), List.getElem?_eq_getElem hi,
            List.getElem?_eq_getElem (by omega), List.getElem_zipWith]
          rfl
        rw [g]
        change |rnd ((acc.getD i 0).val + (cv.getD i 0).val) - _| ≤ _
        rw [coeff_add, coeff_add]
        have r1 := h.rel ((acc.getD i 0).val + (cv.getD i 0).val)
        have r2 := hX i hi
        have r3 := hcv' i hi
        have r4 : |(acc.getD i 0).val + (cv.getD i 0).val - (X.coeff i + PX.coeff i)| ≤
            ((1 + u) ^ m - 1) * (A.coeff i + PA.coeff i) := by
          rw [show (acc.getD i 0).val + (cv.getD i 0).val - (X.coeff i + PX.coeff i) =
            ((acc.getD i 0).val - X.coeff i) + ((cv.getD i 0).val - PX.coeff i) by ring]
          refine (abs_add_le _ _).trans ?_
          rw [mul_add]
          exact add_le_add r2 r3
        have r5 : |(acc.getD i 0).val + (cv.getD i 0).val| ≤ (1 + u) ^ m * (A.coeff i + PA.coeff i) := by
          have q := abs_add_le ((acc.getD i 0).val + (cv.getD i 0).val - (X.coeff i + PX.coeff i))
            (X.coeff i + PX.coeff i)
          rw [sub_add_cancel] at q
          have q2 := (abs_add_le (X.coeff i) (PX.coeff i)).trans (add_le_add (hXA i) (hPXA i))
          linarith
        have r6 := abs_add_le (rnd ((acc.getD i 0).val + (cv.getD i 0).val) - ((acc.getD i 0).val + (cv.getD i 0).val))
          ((acc.getD i 0).val + (cv.getD i 0).val - (X.coeff i + PX.coeff i))
        rw [sub_add_sub_cancel] at r6
        have r7 := mul_le_mul_of_nonneg_left r5 hu
        rw [pow_succ]
        refine r6.trans ((add_le_add (r1.trans r7) r4).trans (le_of_eq ?_))
        ring)
      (by
        intro i
        rw [coeff_add, coeff_add]
        exact (abs_add_le _ _).trans (add_le_add (hXA i) (hPXA i)))
      (by
        intro i hi
        have hi : acc.length ≤ i := by simpa [lcv'] using hi
        rw [coeff_add, hXz i hi, hPXz i hi, add_zero])
    refine ⟨c, ?_, ?_⟩
    · simp only [asInts, List.map_cons, convolvedLoop]
      rw [if_neg (by unfold Segment.D; omega), Int.toNat_natCast, Res.at'_of_lt hd, Res.ok_bind, h1,
        Res.ok_bind]
      unfold headN
      rw [if_pos (by omega), Res.ok_bind]
      have : ((k : ℤ) + 1) = ((k + 1 : ℕ) : ℤ) := by push_cast; rfl
      rw [this, h2, Res.ok_bind, if_pos (by omega), Res.ok_bind,
        show s.N - k - 1 = s.N - (k + 1) by omega, hcv, Res.ok_bind, if_pos lcv']
      rw [show s.N - k - 1 = s.N - (k + 1) by omega, asInts] at hc
      exact hc
    · have ec : ∀ ps : List (List ℝ), crossPoly ps (d :: ds) k =
          derivative^[k] (ofCoeffs (ps.getD d [])) * derivative^[k + 1] (ofCoeffs (ps.getD d [])) + crossPoly ps ds k :=
        fun ps => by simp [crossPoly]
      rw [ec, ec, segVals_getD s hd, segVals_abs_getD s hd, ← hPX, ← hPA, ← add_assoc, ← add_assoc, List.length_cons,
        show m + (ds.length + 1) = m + 1 + ds.length by ring]
      exact hnear

/-! #### the value of the magnitude -/

theorem hypot_near {x y a b : ℝ} (ha : 0 ≤ a) (hb : 0 ≤ b) :
    Real.sqrt (x ^ 2 + a ^ 2) ≤ Real.sqrt (y ^ 2 + b ^ 2) + (|x - y| + |a - b|) := by
  have hR0 := Real.sqrt_nonneg (y ^ 2 + b ^ 2)
  have hR := Real.sq_sqrt (show 0 ≤ y ^ 2 + b ^ 2 by positivity)
  set R := Real.sqrt (y ^ 2 + b ^ 2)
  have h1 : |y| ≤ R := by
    rw [← Real.sqrt_sq_eq_abs]; exact Real.sqrt_le_sqrt (by nlinarith)
  have h2 : b ≤ R := by
    rw [← Real.sqrt_sq hb]; exact Real.sqrt_le_sqrt (by nlinarith)
  have hp := abs_nonneg (x - y)
  have hq := abs_nonneg (a - b)
  have h3 : |x| ≤ |y| + |x - y| := by
    have := abs_add_le y (x - y); rwa [add_sub_cancel] at this
  have h4 : a ≤ b + |a - b| := by linarith [le_abs_self (a - b)]
  have h5 : x ^ 2 ≤ (|y| + |x - y|) ^ 2 := by
    rw [← sq_abs x]; exact pow_le_pow_left₀ (abs_nonneg _) h3 2
  have h6 : a ^ 2 ≤ (b + |a - b|) ^ 2 := pow_le_pow_left₀ ha h4 2
  rw [Real.sqrt_le_left (by positivity)]
  have h7 : |y| ^ 2 = y ^ 2 := sq_abs y
  nlinarith [mul_le_mul_of_nonneg_right h1 hp, mul_le_mul_of_nonneg_right h2 hq, mul_nonneg hp hq]

theorem norm_near {α : Type} (f g : α → ℝ) (l : List α) :
    |Real.sqrt (l.map fun d => f d ^ 2).sum - Real.sqrt (l.map fun d => g d ^ 2).sum| ≤
      (l.map fun d => |f d - g d|).sum := by
  induction l with
  | nil => simp
  | cons d l ih =>
    simp only [List.map_cons, List.sum_cons]
    have nn : ∀ f : α → ℝ, 0 ≤ (l.map fun d => f d ^ 2).sum := by
      intro f
      refine List.sum_nonneg fun x hx => ?_
      obtain ⟨y, -, rfl⟩ := List.mem_map.mp hx
      positivity
    have ef := Real.sq_sqrt (nn f)
    have eg := Real.sq_sqrt (nn g)
    have h1 := hypot_near (x := f d) (y := g d) (Real.sqrt_nonneg (l.map fun d => f d ^ 2).sum)
      (Real.sqrt_nonneg (l.map fun d => g d ^ 2).sum)
    have h2 := hypot_near (x := g d) (y := f d) (Real.sqrt_nonneg (l.map fun d => g d ^ 2).sum)
      (Real.sqrt_nonneg (l.map fun d => f d ^ 2).sum)
    rw [ef, eg] at h1 h2
    rw [abs_sub_comm (g d) (f d), abs_sub_comm (Real.sqrt (l.map fun d => g d ^ 2).sum)] at h2
    rw [abs_le]
    constructor <;> linarith

/-- The square root of a sum with relative error, rounded. -/
theorem sqrt_near (h : Rounding rnd u) {S Q : ℝ} {n : ℕ} (hQ : 0 ≤ Q) (hS : |S - Q| ≤ ((1 + u) ^ n - 1) * Q) :
    |rnd (Real.sqrt S) - Real.sqrt Q| ≤ ((1 + u) ^ (n + 1) - 1) * Real.sqrt Q := by
  have hu := rounding_nonneg h
  have hp := one_le_pow_u h n
  set p := (1 + u) ^ n with hpdef
  have hq := Real.sqrt_nonneg Q
  have hS' := abs_le.mp hS
  have up : Real.sqrt S ≤ p * Real.sqrt Q := by
    have : p * Real.sqrt Q = Real.sqrt (p ^ 2 * Q) := by
      rw [Real.sqrt_mul (by positivity), Real.sqrt_sq (by linarith)]
    rw [this]
    apply Real.sqrt_le_sqrt
    nlinarith [hS'.2, mul_nonneg (sub_nonneg.mpr hp) hQ]
  have lo : (2 - p) * Real.sqrt Q ≤ Real.sqrt S := by
    by_cases h2 : p ≤ 2
    · have : (2 - p) * Real.sqrt Q = Real.sqrt ((2 - p) ^ 2 * Q) := by
        rw [Real.sqrt_mul (by positivity), Real.sqrt_sq (by linarith)]
      rw [this]
      apply Real.sqrt_le_sqrt
      nlinarith [hS'.1, mul_nonneg (mul_nonneg (sub_nonneg.mpr hp) (sub_nonneg.mpr h2)) hQ]
    · push Not at h2
      have : (2 - p) * Real.sqrt Q ≤ 0 := mul_nonpos_of_nonpos_of_nonneg (by linarith) hq
      exact this.trans (Real.sqrt_nonneg S)
  have h1 := h.rel (Real.sqrt S)
  rw [abs_of_nonneg (Real.sqrt_nonneg S)] at h1
  have h2 : u * Real.sqrt S ≤ u * (p * Real.sqrt Q) := mul_le_mul_of_nonneg_left up hu
  have h3 := abs_le.mp (h1.trans h2)
  rw [pow_succ, ← hpdef, abs_le]
  constructor
  · nlinarith [h3.1]
  · nlinarith [h3.2]

theorem squaresG_ok (s : Segment (Fl rnd)) (k : ℕ) (t : Fl rnd) (v : ℕ → Fl rnd) (ds : List ℕ)
    (hds : ∀ d ∈ ds, d < s.D) (hv : ∀ d ∈ ds, ∀ hd : d < s.polys.length, s.polys[d].evaluate t k = .ok (v d))
    (acc : Fl rnd) :
    s.squaresG (flLib rnd) k t (asInts ds) acc = .ok (ds.foldl (fun a d => a + v d * v d) acc) := by
  induction ds generalizing acc with
  | nil => rfl
  | cons d ds ih =>
    have hd : d < s.polys.length := hds d (by simp)
    simp only [asInts, List.map_cons, Segment.squaresG]
    rw [if_neg (by omega), Int.toNat_natCast, Res.at'_of_lt hd, Res.ok_bind, hv d (by simp) hd, Res.ok_bind]
    have := ih (fun x hx => hds x (by simp [hx])) (fun x hx => hv x (by simp [hx])) (acc + v d * v d)
    rw [asInts] at this
    rw [List.foldl_cons]
    exact this

theorem realPolys_value (s : Segment (Fl rnd)) (k : ℕ) (t : ℝ) {d : ℕ} (hd : d < s.polys.length) :
    (valuesAt (realPolys s) k t).getD d 0 = derivAt (vals s.polys[d].coeffs) k t := by
  unfold valuesAt realPolys
  rw [List.map_map, List.getD_eq_getElem?_getD, List.getElem?_map, List.getElem?_eq_getElem hd, Option.map_some,
    Option.getD_some, Function.comp_apply, iteratedDeriv_curve]

theorem absSize_eq (s : Segment (Fl rnd)) (ds : List ℕ) (hds : ∀ d ∈ ds, d < s.D) (k : ℕ) (T : ℝ) :
    absSize s ds k T = (ds.map fun d => derivAt (((segVals s).map (List.map abs)).getD d []) k T).sum := by
  unfold absSize
  congr 1
  refine List.map_congr_left fun d hd => ?_
  have hd : d < s.polys.length := hds d hd
  rw [segVals_abs_getD s hd]
  unfold valuesAt
  rw [List.map_map, List.getD_eq_getElem?_getD, List.getElem?_map, List.getElem?_eq_getElem hd, Option.map_some,
    Option.getD_some, Function.comp_apply, iteratedDeriv_curve]

theorem sum_le_sum_map {α : Type} (l : List α) {f g : α → ℝ} (h : ∀ x ∈ l, f x ≤ g x) :
    (l.map f).sum ≤ (l.map g).sum := by
  induction l with
  | nil => simp
  | cons x l ih =>
    simp only [List.map_cons, List.sum_cons]
    exact add_le_add (h x (by simp)) (ih fun y hy => h y (by simp [hy]))

theorem sqrt_sum_sq_le {α : Type} (f : α → ℝ) (l : List α) :
    Real.sqrt (l.map fun d => f d ^ 2).sum ≤ (l.map fun d => |f d|).sum := by
  have := norm_near f (fun _ => 0) l
  simp only [sub_zero, ne_eq, OfNat.ofNat_ne_zero, not_false_eq_true, zero_pow, List.map_const', List.sum_replicate,
    smul_zero, Real.sqrt_zero] at this
  exact (le_abs_self _).trans this

/-- The size bounds the magnitude. -/
theorem magnitude_le_absSize (s : Segment (Fl rnd)) (ds : List ℕ) (hds : ∀ d ∈ ds, d < s.D) (k : ℕ) {t T : ℝ}
    (ht : |t| ≤ T) : magnitude (realPolys s) ds k t ≤ absSize s ds k T := by
  unfold magnitude
  rw [absSize_eq s ds hds]
  refine (sqrt_sum_sq_le _ ds).trans (sum_le_sum_map ds fun d hd => ?_)
  have hd : d < s.polys.length := hds d hd
  rw [realPolys_value s k t hd, segVals_abs_getD s hd]
  exact (abs_derivAt_le _ k ht).1

theorem absSize_nonneg (s : Segment (Fl rnd)) (ds : List ℕ) (hds : ∀ d ∈ ds, d < s.D) (k : ℕ) {T : ℝ} (hT : 0 ≤ T) :
    0 ≤ absSize s ds k T :=
  (magnitude_nonneg (realPolys s) ds k 0).trans (magnitude_le_absSize s ds hds k (by simpa using hT))

/-- The value computed at a time. -/
theorem magnitude_value (h : Rounding rnd u) (s : Segment (Fl rnd)) (hs : s.WF) (k : ℕ) (ds : List ℕ)
    (hds : ∀ d ∈ ds, d < s.D) (t : Fl rnd) {T E V : ℝ} (ht : |t.val| ≤ T)
    (hE : ((1 + u) ^ (2 * s.N) - 1) * absSize s ds k T ≤ E)
    (hV : E + ((1 + u) ^ (ds.length + 2) - 1) * (absSize s ds k T + E) ≤ V) :
    ∃ S, s.squaresG (flLib rnd) k t (asInts ds) 0 = .ok S ∧
      |((flLib rnd).sqrt S).val - magnitude (realPolys s) ds k t.val| ≤ V := by
  have hu := rounding_nonneg h
  have hγ : 0 ≤ (1 + u) ^ (2 * s.N) - 1 := sub_nonneg.mpr (one_le_pow_u h _)
  have hev : ∀ d, ∃ v : Fl rnd, ∀ hd : d < s.polys.length, s.polys[d].evaluate t k = .ok v ∧
      |v.val - derivAt (vals s.polys[d].coeffs) k t.val| ≤
        ((1 + u) ^ (2 * s.N) - 1) * derivAt ((vals s.polys[d].coeffs).map abs) k T := by
    intro d
    by_cases hd : d < s.polys.length
    · have hpN := hs.polysN _ (List.getElem_mem hd)
      obtain ⟨v, h1, h2⟩ := C99_error h s.polys[d] (by rw [hpN]; exact hs.small) t k
      rw [iteratedDeriv_curve, iteratedDeriv_curve, hpN] at h2
      exact ⟨v, fun _ => ⟨h1, h2.trans (mul_le_mul_of_nonneg_left (abs_derivAt_le _ k ht).2.1 hγ)⟩⟩
    · exact ⟨0, fun h => absurd h hd⟩
  choose v hv using hev
  refine ⟨_, squaresG_ok s k t v ds hds (fun d _ hd => (hv d hd).1) 0, ?_⟩
  have key := foldl_rounded h v v ds 0
  have e0 : (0 : Fl rnd).val = 0 := rfl
  rw [e0, zero_add, abs_zero, mul_zero, zero_add] at key
  have e1 : (ds.map fun x => (v x).val * (v x).val) = ds.map fun d => (v d).val ^ 2 :=
    List.map_congr_left fun d _ => (sq _).symm
  have e2 : (ds.map fun x => |(v x).val| * |(v x).val|) = ds.map fun d => (v d).val ^ 2 :=
    List.map_congr_left fun d _ => by rw [← sq, sq_abs]
  rw [e1, e2] at key
  have hQ : 0 ≤ (ds.map fun d => (v d).val ^ 2).sum := by
    refine List.sum_nonneg fun x hx => ?_
    obtain ⟨y, -, rfl⟩ := List.mem_map.mp hx
    positivity
  have key2 := sqrt_near h hQ key
  have key3 := norm_near (fun d => (v d).val) (fun d => (valuesAt (realPolys s) k t.val).getD d 0) ds
  have key4 : (ds.map fun d => |(v d).val - (valuesAt (realPolys s) k t.val).getD d 0|).sum ≤ E := by
    refine le_trans ?_ hE
    rw [absSize_eq s ds hds, ← List.sum_map_mul_left]
    refine sum_le_sum_map ds fun d hd => ?_
    have hd : d < s.polys.length := hds d hd
    rw [realPolys_value s k t.val hd, segVals_abs_getD s hd]
    exact (hv d hd).2
  have key5 := abs_le.mp (key3.trans key4)
  have key6 := magnitude_le_absSize s ds hds k ht
  change |rnd (Real.sqrt _) - _| ≤ V
  unfold magnitude at key6 ⊢
  set G := (ds.map fun d => (valuesAt (realPolys s) k t.val).getD d 0 ^ 2).sum
  set W := (ds.map fun d => (v d).val ^ 2).sum
  have key7 : ((1 + u) ^ (ds.length + 2) - 1) * Real.sqrt W ≤ ((1 + u) ^ (ds.length + 2) - 1) * (absSize s ds k T + E) :=
    mul_le_mul_of_nonneg_left (by linarith [key5.2]) (sub_nonneg.mpr (one_le_pow_u h _))
  have key8 := abs_le.mp (key2.trans key7)
  rw [abs_le]
  constructor
  · linarith [key8.1, key5.1]
  · linarith [key8.2, key5.2]

/-! #### candidates -/

/-- The real numbers among the results of the root finder. -/
noncomputable def flReal (z : List (Fl rnd × Fl rnd)) : List ℝ :=
  (z.filter fun z => decide (|z.2.val| ≤ 1 / 2 ^ 52)).map fun z => z.1.val

theorem approxOn_covers {ε a b : ℝ} {rf : RootFinder (Fl rnd)} (hrf : ApproxOn ε a b rf) (c : List (Fl rnd)) :
    CoversOn ε a b (flReal (rf c).2) (ofCoeffs (vals c)) := by
  intro x y hx hxy hy hs
  obtain ⟨z, hz, z1, z2, z3⟩ := hrf c x y hx hxy hy hs
  exact ⟨z.1.val, List.mem_map.mpr ⟨z, List.mem_filter.mpr ⟨hz, by simpa using z1⟩, rfl⟩, z2, z3⟩

theorem flReal_cand {a b : Fl rnd} {z : List (Fl rnd × Fl rnd)} {cand : List (Fl rnd)}
    (hmem : ∀ x, x ∈ cand ↔ a.val ≤ x.val ∧ x.val ≤ b.val ∧ ∃ im : Fl rnd, (x, im) ∈ z ∧ |im.val| ≤ dblEpsilon) :
    ∀ r ∈ flReal z, r ∈ Icc a.val b.val → r ∈ (a :: b :: cand).map Fl.val := by
  intro r hr hrI
  obtain ⟨w, hw, rfl⟩ := List.mem_map.mp hr
  obtain ⟨hw1, hw2⟩ := List.mem_filter.mp hw
  refine List.mem_map.mpr ⟨w.1, ?_, rfl⟩
  right; right
  exact (hmem w.1).mpr ⟨hrI.1, hrI.2, w.2, hw1, by simpa [dblEpsilon] using hw2⟩

/-- A segment with the stored numbers as real numbers. -/
def realSeg (s : Segment (Fl rnd)) : Segment ℝ := ⟨realPolys s, s.time.val, s.N⟩

theorem realSeg_D (s : Segment (Fl rnd)) : (realSeg s).D = s.D := by simp [realSeg, realPolys, Segment.D]

theorem sqPoly_realSeg (s : Segment (Fl rnd)) (ds : List ℕ) (hds : ∀ d ∈ ds, d < s.D) (k : ℕ) :
    derivative (sqPoly (realSeg s) ds k) = 2 * crossPoly (segVals s) ds k := by
  rw [derivative_sqPoly]
  unfold crossPoly
  congr 2
  refine List.map_congr_left fun d hd => ?_
  have hd : d < s.polys.length := hds d hd
  have : (realSeg s).polys.getD d ⟨[]⟩ = ⟨vals s.polys[d].coeffs⟩ := by
    simp [realSeg, realPolys, List.getD_eq_getElem?_getD, hd]
  rw [this, segVals_getD s hd]

theorem sum_mul_le {α : Type} (l : List α) {f g : α → ℝ} (hf : ∀ x ∈ l, 0 ≤ f x) (hg : ∀ x ∈ l, 0 ≤ g x) :
    (l.map fun x => f x * g x).sum ≤ (l.map f).sum * (l.map g).sum := by
  induction l with
  | nil => simp
  | cons x l ih =>
    simp only [List.map_cons, List.sum_cons]
    have i := ih (fun y hy => hf y (by simp [hy])) (fun y hy => hg y (by simp [hy]))
    have f0 := hf x (by simp)
    have g0 := hg x (by simp)
    have f1 : 0 ≤ (l.map f).sum := List.sum_nonneg fun y hy => by
      obtain ⟨z, hz, rfl⟩ := List.mem_map.mp hy; exact hf z (by simp [hz])
    have g1 : 0 ≤ (l.map g).sum := List.sum_nonneg fun y hy => by
      obtain ⟨z, hz, rfl⟩ := List.mem_map.mp hy; exact hg z (by simp [hz])
    nlinarith [mul_nonneg f0 g1, mul_nonneg f1 g0]

theorem crossPoly_abs_le (s : Segment (Fl rnd)) (ds : List ℕ) (hds : ∀ d ∈ ds, d < s.D) (k : ℕ) {T : ℝ} (hT : 0 ≤ T) :
    (crossPoly ((segVals s).map (List.map abs)) ds k).eval T ≤ absSize s ds k T * absSize s ds (k + 1) T := by
  unfold crossPoly
  rw [eval_list_sum, List.map_map, absSize_eq s ds hds, absSize_eq s ds hds]
  have e : ((fun p : ℝ[X] => p.eval T) ∘ fun d => derivative^[k] (ofCoeffs (((segVals s).map (List.map abs)).getD d [])) *
      derivative^[k + 1] (ofCoeffs (((segVals s).map (List.map abs)).getD d []))) =
      fun d => derivAt (((segVals s).map (List.map abs)).getD d []) k T *
        derivAt (((segVals s).map (List.map abs)).getD d []) (k + 1) T := by
    funext d
    simp only [Function.comp_apply, eval_mul, derivAt]
  rw [e]
  refine sum_mul_le ds (fun d hd => ?_) (fun d hd => ?_)
  · rw [segVals_abs_getD s (hds d hd)]
    exact (abs_derivAt_le _ k (t := 0) (by simpa using hT)).2.2
  · rw [segVals_abs_getD s (hds d hd)]
    exact (abs_derivAt_le _ (k + 1) (t := 0) (by simpa using hT)).2.2

theorem sqrt_le_sqrt_add {x y c : ℝ} (hy : 0 ≤ y) (hc : 0 ≤ c) (h : x ≤ y + c) :
    Real.sqrt x ≤ Real.sqrt y + Real.sqrt c := by
  refine (Real.sqrt_le_sqrt h).trans ?_
  rw [Real.sqrt_le_left (by positivity)]
  have h1 := Real.sq_sqrt hy
  have h2 := Real.sq_sqrt hc
  nlinarith [mul_nonneg (Real.sqrt_nonneg y) (Real.sqrt_nonneg c)]

/-- The candidates with rounding: for every time there is a candidate with a magnitude that is larger up to `W`, and, with
at least two dimensions, one with a magnitude that is smaller up to `W`. -/
theorem candidateTimesG_near (h : Rounding rnd u) (rf : RootFinder (Fl rnd)) {ε : ℝ} (hε : 0 ≤ ε) (s : Segment (Fl rnd))
    (hs : s.WF) (k : ℕ) (hk : k < s.N) (hk2 : k + 1 < 22) (ds : List ℕ) (hne : ds ≠ []) (hds : ∀ d ∈ ds, d < s.D)
    {a b : Fl rnd} (hab : a.val ≤ b.val) (hrf : ApproxOn ε a.val b.val rf) {T E W : ℝ} (hT : ∀ t ∈ Icc a.val b.val, |t| ≤ T)
    (hE : ((1 + u) ^ (2 * s.N) - 1) * absSize s ds k T ≤ E)
    (hW : absSize s ds (k + 1) T * ε + 2 * E + Real.sqrt (2 * ((1 + u) ^ (5 * s.N + 1 + ds.length) - 1) *
      (absSize s ds k T * absSize s ds (k + 1) T) * (b.val - a.val)) ≤ W) :
    ∃ rest, s.candidateTimesG (flLib rnd) rf k a b (asInts ds) = .ok (true, a :: b :: rest) ∧
      (∀ t ∈ a :: b :: rest, t.val ∈ Icc a.val b.val) ∧
      (∀ x ∈ Icc a.val b.val, ∃ t ∈ a :: b :: rest,
        magnitude (realPolys s) ds k x ≤ magnitude (realPolys s) ds k t.val + W) ∧
      (2 ≤ ds.length → ∀ x ∈ Icc a.val b.val, ∃ t ∈ a :: b :: rest,
        magnitude (realPolys s) ds k t.val ≤ magnitude (realPolys s) ds k x + W) := by
  have hT0 : 0 ≤ T := (abs_nonneg _).trans (hT _ ⟨le_rfl, hab⟩)
  have hA0 := absSize_nonneg s ds hds k hT0
  have hA1 := absSize_nonneg s ds hds (k + 1) hT0
  have hγ : ∀ n, 0 ≤ (1 + u) ^ n - 1 := fun n => sub_nonneg.mpr (one_le_pow_u h n)
  have hE0 : 0 ≤ E := (mul_nonneg (hγ _) hA0).trans hE
  have hdsR : ∀ d ∈ ds, d < (realSeg s).D := by rw [realSeg_D]; exact hds
  have hlip : ∀ x ∈ Icc a.val b.val, ∀ y ∈ Icc a.val b.val, |y - x| ≤ ε →
      |magnitude (realPolys s) ds k y - magnitude (realPolys s) ds k x| ≤ absSize s ds (k + 1) T * ε := by
    intro x hx y hy hxy
    have := magnitude_lipschitz (realSeg s) ds hdsR k (L := absSize s ds (k + 1) T)
      (fun t ht => magnitude_le_absSize s ds hds (k + 1) (hT t ht)) hx hy
    exact this.trans (mul_le_mul_of_nonneg_left hxy hA1)
  have hins : ∀ {cand : List (Fl rnd)} {z : List (Fl rnd × Fl rnd)},
      (∀ x, x ∈ cand ↔ a.val ≤ x.val ∧ x.val ≤ b.val ∧ ∃ im : Fl rnd, (x, im) ∈ z ∧ |im.val| ≤ dblEpsilon) →
      ∀ t ∈ a :: b :: cand, t.val ∈ Icc a.val b.val := by
    intro cand z hmem t ht
    rcases List.mem_cons.mp ht with rfl | ht
    · exact ⟨le_rfl, hab⟩
    rcases List.mem_cons.mp ht with rfl | ht
    · exact ⟨hab, le_rfl⟩
    exact ⟨((hmem t).mp ht).1, ((hmem t).mp ht).2.1⟩
  match ds, hne with
  | [d], _ =>
    have hd : d < s.polys.length := hds d (by simp)
    have hpN : s.polys[d].N = s.N := hs.polysN _ (List.getElem_mem hd)
    obtain ⟨c, c', hc, hclose, hder⟩ := getCoefficients_rounded h s.polys[d] k (by omega) (by rw [hpN]; exact hs.small) hk2
    obtain ⟨cand, hcand, hmem⟩ := candidatesG_some hab (rf c).2
    refine ⟨cand, ?_, hins hmem, ?_, by simp⟩
    · simp only [asInts, List.map_cons, List.map_nil, Segment.candidateTimesG]
      rw [if_neg (by omega), Int.toNat_natCast, Res.at'_of_lt hd, Res.ok_bind]
      unfold Poly.computeMinMaxCandidatesG
      rw [if_neg (by omega), hc, Res.ok_bind]
      rw [show candidatesG (flLib rnd).abs (flLib rnd).eps a b (rf c).2 = some (a :: b :: cand) from hcand]
      rfl
    · set P := derivative^[k] (ofCoeffs c') with hP
      have hPd : derivative P = ofCoeffs (vals c) := by rw [hder, hP, Function.iterate_succ_apply']
      have hcov := approxOn_covers hrf c
      rw [← hPd] at hcov
      have hRS := flReal_cand hmem
      have hm : ∀ t, magnitude (realPolys s) [d] k t = |derivAt (vals s.polys[d].coeffs) k t| := by
        intro t
        unfold magnitude
        simp only [List.map_cons, List.map_nil, List.sum_cons, List.sum_nil, add_zero]
        rw [realPolys_value s k t hd, Real.sqrt_sq_eq_abs]
      have hPnear : ∀ x ∈ Icc a.val b.val, |P.eval x - derivAt (vals s.polys[d].coeffs) k x| ≤ E := by
        intro x hx
        have q := derivAt_close (d := k) hclose x
        rw [hpN] at q
        refine q.trans (le_trans (mul_le_mul_of_nonneg_left (abs_derivAt_le _ k (hT x hx)).2.1 (hγ _)) ?_)
        rw [absSize_eq s [d] hds] at hE
        simp only [List.map_cons, List.map_nil, List.sum_cons, List.sum_nil, add_zero] at hE
        rw [segVals_abs_getD s hd] at hE
        exact hE
      have hsq : 0 ≤ Real.sqrt (2 * ((1 + u) ^ (5 * s.N + 1 + [d].length) - 1) *
        (absSize s [d] k T * absSize s [d] (k + 1) T) * (b.val - a.val)) := Real.sqrt_nonneg _
      intro x hx
      have hx' := abs_le.mp (hPnear x hx)
      by_cases hsign : 0 ≤ derivAt (vals s.polys[d].coeffs) k x
      · obtain ⟨M, hM, e1, w, hw, g1, d1, -⟩ := near_max_on P hab hε _ _ (by simp) (by simp) hcov hRS
        obtain ⟨t, ht, rfl⟩ := List.mem_map.mp hw
        refine ⟨t, ht, ?_⟩
        have l1 := abs_le.mp (hlip M hM _ g1 d1)
        have n1 := abs_le.mp (hPnear M hM)
        have := e1 x hx
        have hMm := le_abs_self (derivAt (vals s.polys[d].coeffs) k M)
        rw [hm, hm] at l1
        rw [hm, hm, abs_of_nonneg hsign]
        linarith [l1.1, n1.2, hx'.1]
      · push Not at hsign
        obtain ⟨M, hM, e1, w, hw, g1, d1, -⟩ := near_min_on P hab hε _ _ (by simp) (by simp) hcov hRS
        obtain ⟨t, ht, rfl⟩ := List.mem_map.mp hw
        refine ⟨t, ht, ?_⟩
        have l1 := abs_le.mp (hlip M hM _ g1 d1)
        have n1 := abs_le.mp (hPnear M hM)
        have := e1 x hx
        have hMm := neg_le_abs (derivAt (vals s.polys[d].coeffs) k M)
        rw [hm, hm] at l1
        rw [hm, hm, abs_of_neg hsign]
        linarith [l1.1, n1.1, hx'.2]
  | d1 :: d2 :: ds, _ =>
    obtain ⟨c, hc, hnear⟩ := convolvedLoop_near h s hs k hk hk2 (d1 :: d2 :: ds) hds (5 * s.N + 1) le_rfl
      (List.replicate ((s.N - k) + (s.N - k - 1) - 1) 0) (by simp) (X := 0) (A := 0)
      (by
        intro i hi
        rw [List.getD_eq_getElem?_getD, List.getElem?_replicate]
        have hi : i < s.N - k + (s.N - k - 1) - 1 := by simpa using hi
        rw [if_pos hi, Option.getD_some, coeff_zero, mul_zero]
        change |(0 : ℝ) - 0| ≤ 0
        simp) (by simp) (by simp)
    rw [zero_add, zero_add] at hnear
    obtain ⟨cand, hcand, hmem⟩ := candidatesG_some hab (rf c).2
    have hcov := approxOn_covers hrf c
    have hRS := flReal_cand hmem
    set η := 2 * ((1 + u) ^ (5 * s.N + 1 + (d1 :: d2 :: ds).length) - 1) *
      (absSize s (d1 :: d2 :: ds) k T * absSize s (d1 :: d2 :: ds) (k + 1) T) with hη
    have hη0 : 0 ≤ η := by have := hγ (5 * s.N + 1 + (d1 :: d2 :: ds).length); positivity
    have hQ : ∀ t ∈ Icc a.val b.val,
        |(derivative (sqPoly (realSeg s) (d1 :: d2 :: ds) k)).eval t - 2 * (ofCoeffs (vals c)).eval t| ≤ η := by
      intro t ht
      rw [sqPoly_realSeg s _ hds, eval_mul]
      have e2 : (2 : ℝ[X]).eval t = 2 := by simp
      rw [e2, ← mul_sub, abs_mul, abs_two, abs_sub_comm, hη, mul_assoc]
      refine mul_le_mul_of_nonneg_left ?_ (by norm_num)
      refine (hnear.eval (one_le_pow_u h _) (hT t ht)).trans ?_
      exact mul_le_mul_of_nonneg_left (crossPoly_abs_le s _ hds k hT0) (hγ _)
    have hmag : ∀ t, magnitude (realPolys s) (d1 :: d2 :: ds) k t =
        Real.sqrt ((sqPoly (realSeg s) (d1 :: d2 :: ds) k).eval t) := fun t => magnitude_eq (realSeg s) _ hdsR k t
    have hba : 0 ≤ η * (b.val - a.val) := mul_nonneg hη0 (by linarith)
    refine ⟨cand, ?_, hins hmem, ?_, ?_⟩
    · simp only [asInts, List.map_cons, Segment.candidateTimesG]
      rw [if_neg (by omega)]
      have e1 : ((s.N : ℤ) - k).toNat = s.N - k := by omega
      have e2 : ((s.N : ℤ) - k - 1).toNat = s.N - k - 1 := by omega
      have e3 : ((s.N : ℤ) - k + ((s.N : ℤ) - k - 1) - 1).toNat =
          (s.N - k) + (s.N - k - 1) - 1 := by omega
      rw [e1, e2, e3]
      simp only [asInts, List.map_cons] at hc
      rw [hc, Res.ok_bind]
      simp only [Poly.computeMinMaxCandidatesG, Poly.getCoefficients]
      rw [if_neg (by simp [Poly.N]), Res.check_of (by simp [Poly.N]), Res.ok_bind, if_pos (by rfl), Res.pure_eq,
        Res.ok_bind]
      rw [show candidatesG (flLib rnd).abs (flLib rnd).eps a b (rf c).2 = some (a :: b :: cand) from hcand]
      rfl
    · intro x hx
      obtain ⟨M, hM, e1, w, hw, g1, dd1⟩ := max_perturbed (sqPoly (realSeg s) (d1 :: d2 :: ds) k) (ofCoeffs (vals c)) hab hε
        hQ _ _ (by simp) (by simp) hcov hRS
      obtain ⟨t, ht, rfl⟩ := List.mem_map.mp hw
      refine ⟨t, ht, ?_⟩
      have l1 := abs_le.mp (hlip M hM _ g1 dd1)
      have l2 := sqrt_le_sqrt_add (sqPoly_nonneg _ _ _ _) hba (e1 x hx)
      rw [← hmag, ← hmag] at l2
      linarith [l1.1]
    · intro _ x hx
      obtain ⟨M, hM, e1, w, hw, g1, dd1⟩ := min_perturbed (sqPoly (realSeg s) (d1 :: d2 :: ds) k) (ofCoeffs (vals c)) hab hε
        hQ _ _ (by simp) (by simp) hcov hRS
      obtain ⟨t, ht, rfl⟩ := List.mem_map.mp hw
      refine ⟨t, ht, ?_⟩
      have l1 := abs_le.mp (hlip M hM _ g1 dd1)
      have l2 := sqrt_le_sqrt_add (sqPoly_nonneg _ _ _ _) hba (e1 x hx)
      rw [← hmag, ← hmag] at l2
      linarith [l1.2]

/-! #### selection and the loop over the segments -/

theorem magnitudeCandidatesG_near (h : Rounding rnd u) (rf : RootFinder (Fl rnd)) {ε : ℝ} (hε : 0 ≤ ε)
    (s : Segment (Fl rnd)) (hs : s.WF) (k : ℕ) (hk : k < s.N) (hk2 : k + 1 < 22) (ds : List ℕ) (hne : ds ≠ [])
    (hds : ∀ d ∈ ds, d < s.D) {a b : Fl rnd} (hab : a.val ≤ b.val) (hrf : ApproxOn ε a.val b.val rf) {T E V W : ℝ}
    (hT : ∀ t ∈ Icc a.val b.val, |t| ≤ T)
    (hE : ((1 + u) ^ (2 * s.N) - 1) * absSize s ds k T ≤ E)
    (hV : E + ((1 + u) ^ (ds.length + 2) - 1) * (absSize s ds k T + E) ≤ V)
    (hW : absSize s ds (k + 1) T * ε + 2 * E + Real.sqrt (2 * ((1 + u) ^ (5 * s.N + 1 + ds.length) - 1) *
      (absSize s ds k T * absSize s ds (k + 1) T) * (b.val - a.val)) ≤ W) :
    ∃ (times : List (Fl rnd)) (val : Fl rnd → Fl rnd),
      s.magnitudeCandidatesG (flLib rnd) rf k a b (asInts ds) = .ok (true, times.map fun t => ⟨t, val t, 0⟩) ∧ a ∈ times ∧
      (∀ t ∈ times, t.val ∈ Icc a.val b.val ∧ |(val t).val - magnitude (realPolys s) ds k t.val| ≤ V) ∧
      (∀ x ∈ Icc a.val b.val, ∃ t ∈ times, magnitude (realPolys s) ds k x ≤ magnitude (realPolys s) ds k t.val + W) ∧
      (2 ≤ ds.length → ∀ x ∈ Icc a.val b.val, ∃ t ∈ times,
        magnitude (realPolys s) ds k t.val ≤ magnitude (realPolys s) ds k x + W) := by
  obtain ⟨rest, h1, h2, h3, h4⟩ := candidateTimesG_near h rf hε s hs k hk hk2 ds hne hds hab hrf hT hE hW
  have hv : ∀ t : Fl rnd, ∃ S, t.val ∈ Icc a.val b.val → s.squaresG (flLib rnd) k t (asInts ds) 0 = .ok S ∧
      |((flLib rnd).sqrt S).val - magnitude (realPolys s) ds k t.val| ≤ V := by
    intro t
    by_cases ht : t.val ∈ Icc a.val b.val
    · obtain ⟨S, e1, e2⟩ := magnitude_value h s hs k ds hds t (hT _ ht) hE hV
      exact ⟨S, fun _ => ⟨e1, e2⟩⟩
    · exact ⟨0, fun h => absurd h ht⟩
  choose S hS using hv
  refine ⟨a :: b :: rest, fun t => (flLib rnd).sqrt (S t), ?_, by simp, fun t ht => ⟨h2 t ht, (hS t (h2 t ht)).2⟩, h3, h4⟩
  unfold Segment.magnitudeCandidatesG
  rw [h1, Res.ok_bind]
  rw [Res.mapM_ok (g := fun t => (⟨t, (flLib rnd).sqrt (S t), 0⟩ : Extremum (Fl rnd)))]
  · rfl
  · intro t ht
    rw [(hS t (h2 t ht)).1, Res.ok_bind, Res.pure_eq]

theorem stdMin_le (a b : Extremum (Fl rnd)) :
    (a.stdMin b).value.val ≤ a.value.val ∧ (a.stdMin b).value.val ≤ b.value.val ∧ (a.stdMin b = a ∨ a.stdMin b = b) := by
  unfold Extremum.stdMin
  by_cases hc : b.value < a.value
  · rw [if_pos hc]
    exact ⟨le_of_lt (show b.value.val < a.value.val from hc), le_rfl, Or.inr rfl⟩
  · rw [if_neg hc]
    exact ⟨le_rfl, not_lt.mp (show ¬ b.value.val < a.value.val from hc), Or.inl rfl⟩

theorem le_stdMax (a b : Extremum (Fl rnd)) :
    a.value.val ≤ (a.stdMax b).value.val ∧ b.value.val ≤ (a.stdMax b).value.val ∧ (a.stdMax b = a ∨ a.stdMax b = b) := by
  unfold Extremum.stdMax
  by_cases hc : a.value < b.value
  · rw [if_pos hc]
    exact ⟨le_of_lt (show a.value.val < b.value.val from hc), le_rfl, Or.inr rfl⟩
  · rw [if_neg hc]
    exact ⟨le_rfl, not_lt.mp (show ¬ a.value.val < b.value.val from hc), Or.inl rfl⟩

theorem selectFoldG (a b : Fl rnd) (es : List (Extremum (Fl rnd))) (hin : ∀ e ∈ es, e.time.val ∈ Icc a.val b.val)
    (mn mx : Extremum (Fl rnd)) :
    let r := es.foldl (fun (s : Extremum (Fl rnd) × Extremum (Fl rnd)) c =>
        if c.time < a ∨ c.time > b then s else (s.1.stdMin c, s.2.stdMax c)) (mn, mx)
    (r.1.value.val ≤ mn.value.val ∧ (∀ e ∈ es, r.1.value.val ≤ e.value.val) ∧ (r.1 = mn ∨ r.1 ∈ es)) ∧
    (mx.value.val ≤ r.2.value.val ∧ (∀ e ∈ es, e.value.val ≤ r.2.value.val) ∧ (r.2 = mx ∨ r.2 ∈ es)) := by
  induction es generalizing mn mx with
  | nil => simp
  | cons e es ih =>
    have he := hin e (by simp)
    have hne : ¬ (e.time < a ∨ e.time > b) := by
      rw [not_or]
      exact ⟨not_lt.mpr he.1, not_lt.mpr he.2⟩
    simp only [List.foldl_cons]
    rw [if_neg hne]
    obtain ⟨⟨h1, h2, h3⟩, ⟨h4, h5, h6⟩⟩ := ih (fun x hx => hin x (by simp [hx])) (mn.stdMin e) (mx.stdMax e)
    obtain ⟨a1, a2, a3⟩ := stdMin_le mn e
    obtain ⟨b1, b2, b3⟩ := le_stdMax mx e
    refine ⟨⟨h1.trans a1, ?_, ?_⟩, ⟨b1.trans h4, ?_, ?_⟩⟩
    · intro x hx
      rcases List.mem_cons.mp hx with rfl | hx
      · exact h1.trans a2
      · exact h2 x hx
    · rcases h3 with h3 | h3
      · rw [h3]
        rcases a3 with a3 | a3
        · exact Or.inl a3
        · rw [a3]; exact Or.inr (by simp)
      · exact Or.inr (List.mem_cons_of_mem _ h3)
    · intro x hx
      rcases List.mem_cons.mp hx with rfl | hx
      · exact b2.trans h4
      · exact h5 x hx
    · rcases h6 with h6 | h6
      · rw [h6]
        rcases b3 with b3 | b3
        · exact Or.inl b3
        · rw [b3]; exact Or.inr (by simp)
      · exact Or.inr (List.mem_cons_of_mem _ h6)

theorem selectMinMaxMagnitudeG_ok {a b : Fl rnd} (hab : a.val ≤ b.val) (es : List (Extremum (Fl rnd)))
    (hin : ∀ e ∈ es, e.time.val ∈ Icc a.val b.val) (e0 : Extremum (Fl rnd)) (he0 : e0 ∈ es)
    (hfin : |e0.value.val| < dblMax) (mn0 mx0 : Extremum (Fl rnd)) :
    ∃ m ∈ es, ∃ M ∈ es, selectMinMaxMagnitudeG (flLib rnd) a b es mn0 mx0 = (true, m, M) ∧
      ∀ e ∈ es, m.value.val ≤ e.value.val ∧ e.value.val ≤ M.value.val := by
  obtain ⟨⟨h1, h2, h3⟩, ⟨h4, h5, h6⟩⟩ := selectFoldG a b es hin
    { mn0 with value := (flLib rnd).max } { mx0 with value := -(flLib rnd).max }
  have hfin := abs_lt.mp hfin
  unfold selectMinMaxMagnitudeG
  have hab' : ¬ a > b := not_lt.mpr hab
  rw [if_neg hab']
  set r := es.foldl (fun (s : Extremum (Fl rnd) × Extremum (Fl rnd)) c =>
      if c.time < a ∨ c.time > b then s else (s.1.stdMin c, s.2.stdMax c))
    ({ mn0 with value := (flLib rnd).max }, { mx0 with value := -(flLib rnd).max }) with hr
  refine ⟨r.1, ?_, r.2, ?_, rfl, fun e he => ⟨h2 e he, h5 e he⟩⟩
  · rcases h3 with h3 | h3
    · have := h2 e0 he0
      rw [h3] at this
      exact absurd this (not_le.mpr hfin.2)
    · exact h3
  · rcases h6 with h6 | h6
    · have := h5 e0 he0
      rw [h6] at this
      exact absurd this (not_le.mpr hfin.1)
    · exact h6

/-- What is needed of the segments of a trajectory, with the bounds `E`, `V` and `W`. -/
structure SegOk (u ε : ℝ) (rf : RootFinder (Fl rnd)) (k : ℕ) (ds : List ℕ) (T E V W : ℝ) (s : Segment (Fl rnd)) : Prop where
  wf : s.WF
  deg : k < s.N
  dims : ∀ d ∈ ds, d < s.D
  nonneg : 0 ≤ s.time.val
  le : s.time.val ≤ T
  roots : ApproxOn ε 0 s.time.val rf
  hE : ((1 + u) ^ (2 * s.N) - 1) * absSize s ds k T ≤ E
  hV : E + ((1 + u) ^ (ds.length + 2) - 1) * (absSize s ds k T + E) ≤ V
  hW : absSize s ds (k + 1) T * ε + 2 * E + Real.sqrt (2 * ((1 + u) ^ (5 * s.N + 1 + ds.length) - 1) *
      (absSize s ds k T * absSize s ds (k + 1) T) * T) ≤ W
  fin : absSize s ds k T + V < dblMax

theorem minMaxMagnitudeLoopG_ok (h : Rounding rnd u) (rf : RootFinder (Fl rnd)) {ε : ℝ} (hε : 0 ≤ ε) (k : ℕ)
    (hk2 : k + 1 < 22) (ds : List ℕ) (hne : ds ≠ []) {T E V W : ℝ} (segs : List (Segment (Fl rnd)))
    (hw : ∀ s ∈ segs, SegOk u ε rf k ds T E V W s) (i : ℕ) (mn0 mx0 : Extremum (Fl rnd)) :
    ∃ mn mx, minMaxMagnitudeLoopG (flLib rnd) rf k (asInts ds) segs i mn0 mx0 = .ok (true, mn, mx) ∧
      mx0.value.val ≤ mx.value.val ∧ mn.value.val ≤ mn0.value.val ∧
      (∀ s ∈ segs, ∀ t ∈ Icc 0 s.time.val, magnitude (realPolys s) ds k t ≤ mx.value.val + (V + W)) ∧
      (2 ≤ ds.length → ∀ s ∈ segs, ∀ t ∈ Icc 0 s.time.val, mn.value.val - (V + W) ≤ magnitude (realPolys s) ds k t) ∧
      (mx = mx0 ∨ ∃ j, ∃ hj : j < segs.length, mx.segmentIdx = i + j ∧
        mx.time.val ∈ Icc 0 segs[j].time.val ∧ |mx.value.val - magnitude (realPolys segs[j]) ds k mx.time.val| ≤ V) ∧
      (mn = mn0 ∨ ∃ j, ∃ hj : j < segs.length, mn.segmentIdx = i + j ∧
        mn.time.val ∈ Icc 0 segs[j].time.val ∧ |mn.value.val - magnitude (realPolys segs[j]) ds k mn.time.val| ≤ V) ∧
      (∀ s ∈ segs, mn.value.val < dblMax ∧ -dblMax < mx.value.val) := by
  have hu := rounding_nonneg h
  induction segs generalizing i mn0 mx0 with
  | nil =>
    exact ⟨mn0, mx0, rfl, le_rfl, le_rfl, by simp, by simp, Or.inl rfl, Or.inl rfl, by simp⟩
  | cons s ss ih =>
    have ws := hw s (by simp)
    have hT : ∀ t ∈ Icc (0 : Fl rnd).val s.time.val, |t| ≤ T := by
      intro t ht
      have h0 : (0 : Fl rnd).val = 0 := rfl
      rw [h0] at ht
      rw [abs_of_nonneg ht.1]
      exact ht.2.trans ws.le
    have hT0 : 0 ≤ T := ws.nonneg.trans ws.le
    have hW : absSize s ds (k + 1) T * ε + 2 * E + Real.sqrt (2 * ((1 + u) ^ (5 * s.N + 1 + ds.length) - 1) *
      (absSize s ds k T * absSize s ds (k + 1) T) * (s.time.val - (0 : Fl rnd).val)) ≤ W := by
      refine le_trans (add_le_add_right (Real.sqrt_le_sqrt ?_) _) ws.hW
      have h0 : (0 : Fl rnd).val = 0 := rfl
      rw [h0, sub_zero]
      refine mul_le_mul_of_nonneg_left ws.le ?_
      have p1 : 0 ≤ (1 + u) ^ (5 * s.N + 1 + ds.length) - 1 := sub_nonneg.mpr (one_le_pow_u h _)
      have p2 := absSize_nonneg s ds ws.dims k hT0
      have p3 := absSize_nonneg s ds ws.dims (k + 1) hT0
      positivity
    obtain ⟨times, val, hcand, h0mem, hval, hup, hlo⟩ := magnitudeCandidatesG_near h rf hε s ws.wf k ws.deg hk2 ds hne ws.dims
      (a := 0) (b := s.time) ws.nonneg ws.roots hT ws.hE ws.hV hW
    have hin : ∀ e ∈ times.map (fun t => (⟨t, val t, 0⟩ : Extremum (Fl rnd))), e.time.val ∈ Icc (0 : Fl rnd).val s.time.val := by
      intro e he
      obtain ⟨t, ht, rfl⟩ := List.mem_map.mp he
      exact (hval t ht).1
    have hvfin : ∀ t ∈ times, |(val t).val| < dblMax := by
      intro t ht
      obtain ⟨q1, q2⟩ := hval t ht
      have q3 := magnitude_le_absSize s ds ws.dims k (hT _ q1)
      have q4 := magnitude_nonneg (realPolys s) ds k t.val
      have q5 := abs_le.mp q2
      have := ws.fin
      rw [abs_lt]
      constructor
      · linarith [q5.1]
      · linarith [q5.2]
    obtain ⟨m, hm, M, hM, hsel, hbound⟩ := selectMinMaxMagnitudeG_ok (a := 0) (b := s.time) ws.nonneg
      (times.map fun t => (⟨t, val t, 0⟩ : Extremum (Fl rnd))) hin ⟨0, val 0, 0⟩ (List.mem_map.mpr ⟨0, h0mem, rfl⟩)
      (hvfin 0 h0mem) Extremum.zero Extremum.zero
    obtain ⟨tm, htm, rfl⟩ := List.mem_map.mp hm
    obtain ⟨tM, htM, rfl⟩ := List.mem_map.mp hM
    have hb : ∀ t ∈ times, (val tm).val ≤ (val t).val ∧ (val t).val ≤ (val tM).val := fun t ht =>
      hbound _ (List.mem_map.mpr ⟨t, ht, rfl⟩)
    set mn1 : Extremum (Fl rnd) := if val tm < mn0.value then ⟨tm, val tm, i⟩ else mn0 with hmn1
    set mx1 : Extremum (Fl rnd) := if val tM > mx0.value then ⟨tM, val tM, i⟩ else mx0 with hmx1
    obtain ⟨mn, mx, hrun, g1, g2, g3, g4, g5, g6, g7⟩ := ih (fun x hx => hw x (by simp [hx])) (i + 1) mn1 mx1
    have c1 : mn1.value.val ≤ mn0.value.val ∧ mn1.value.val ≤ (val tm).val ∧ (mn1 = mn0 ∨ mn1 = ⟨tm, val tm, i⟩) := by
      by_cases hc : val tm < mn0.value
      · rw [hmn1, if_pos hc]
        exact ⟨le_of_lt (show (val tm).val < mn0.value.val from hc), le_rfl, Or.inr rfl⟩
      · rw [hmn1, if_neg hc]
        exact ⟨le_rfl, not_lt.mp (show ¬ (val tm).val < mn0.value.val from hc), Or.inl rfl⟩
    have c2 : mx0.value.val ≤ mx1.value.val ∧ (val tM).val ≤ mx1.value.val ∧ (mx1 = mx0 ∨ mx1 = ⟨tM, val tM, i⟩) := by
      by_cases hc : val tM > mx0.value
      · rw [hmx1, if_pos hc]
        exact ⟨le_of_lt (show mx0.value.val < (val tM).val from hc), le_rfl, Or.inr rfl⟩
      · rw [hmx1, if_neg hc]
        exact ⟨le_rfl, not_lt.mp (show ¬ mx0.value.val < (val tM).val from hc), Or.inl rfl⟩
    refine ⟨mn, mx, ?_, c2.1.trans g1, g2.trans c1.1, ?_, ?_, ?_, ?_, ?_⟩
    · simp only [minMaxMagnitudeLoopG, hcand, Res.ok_bind, hsel, Bool.not_true]
      exact hrun
    · intro x hx t ht
      rcases List.mem_cons.mp hx with rfl | hx
      · obtain ⟨w, hw1, hw2⟩ := hup t ht
        have q1 := abs_le.mp (hval w hw1).2
        linarith [q1.1, (hb w hw1).2, c2.2.1]
      · exact g3 x hx t ht
    · intro h2 x hx t ht
      rcases List.mem_cons.mp hx with rfl | hx
      · obtain ⟨w, hw1, hw2⟩ := hlo h2 t ht
        have q1 := abs_le.mp (hval w hw1).2
        linarith [q1.2, (hb w hw1).1, c1.2.1]
      · exact g4 h2 x hx t ht
    · rcases g5 with g5 | ⟨j, hj, j1, j2⟩
      · rcases c2.2.2 with c | c
        · exact Or.inl (g5.trans c)
        · right
          refine ⟨0, by simp, ?_⟩
          rw [g5, c]
          exact ⟨by simp, (hval tM htM).1, (hval tM htM).2⟩
      · right
        refine ⟨j + 1, by simpa using hj, ?_⟩
        simp only [List.getElem_cons_succ]
        exact ⟨by omega, j2⟩
    · rcases g6 with g6 | ⟨j, hj, j1, j2⟩
      · rcases c1.2.2 with c | c
        · exact Or.inl (g6.trans c)
        · right
          refine ⟨0, by simp, ?_⟩
          rw [g6, c]
          exact ⟨by simp, (hval tm htm).1, (hval tm htm).2⟩
      · right
        refine ⟨j + 1, by simpa using hj, ?_⟩
        simp only [List.getElem_cons_succ]
        exact ⟨by omega, j2⟩
    · intro _ _
      have q1 := abs_lt.mp (hvfin tm htm)
      have q2 := abs_lt.mp (hvfin tM htM)
      exact ⟨by linarith [q1.2, c1.2.1], by linarith [q2.1, c2.2.1]⟩

end Verif
