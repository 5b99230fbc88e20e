import Verif.Proofs.ExtremaRoots

/-
C126: extrema of one polynomial with the root finder of the code, with rounding after every operation.
-/
set_option linter.unusedSectionVars false

namespace Verif

open Polynomial Spec Set

variable {rnd : ℝ → ℝ} {u : ℝ}

/-- **C126.** For every polynomial and derivative the code has tables for, and without any assumption on the root finder, which
is the one of the code: `computeMinMax` returns; the two times lie inside the interval, the values are those at these times up
to the error `E` of the evaluation, and they include the values at both ends up to `E`. -/
theorem C126_returns (h : Rounding rnd u) (hu : u ≤ 1 / 10 ^ 11) (m : RMath (Fl rnd)) (hm : RoundedMath m)
    (p : Poly (Fl rnd)) (hN : p.N ≤ 22) (k : ℕ) (hk : k < p.N) (hk2 : k + 1 < 22) {a b : Fl rnd} (hab : a.val ≤ b.val)
    (T : ℝ) (ha : |a.val| ≤ T) (hb : |b.val| ≤ T) (E : ℝ)
    (hE : ((1 + u) ^ (2 * p.N) - 1) * iteratedDeriv k (curve ((vals p.coeffs).map abs)) T ≤ E)
    (hfin : iteratedDeriv k (curve ((vals p.coeffs).map abs)) T + E < dblMax) :
    ∃ F, ∀ fuel, F ≤ fuel → ∃ mn mx : Fl rnd × Fl rnd, p.computeMinMaxJFl m fuel a b k = .ok (some (mn, mx)) ∧
      mn.1.val ∈ Icc a.val b.val ∧ mx.1.val ∈ Icc a.val b.val ∧
      |mn.2.val - iteratedDeriv k (curve (vals p.coeffs)) mn.1.val| ≤ E ∧
      |mx.2.val - iteratedDeriv k (curve (vals p.coeffs)) mx.1.val| ≤ E ∧
      ∀ t : Fl rnd, t = a ∨ t = b → mn.2.val - E ≤ iteratedDeriv k (curve (vals p.coeffs)) t.val ∧
        iteratedDeriv k (curve (vals p.coeffs)) t.val ≤ mx.2.val + E := by
  simp only [iteratedDeriv_curve] at hE hfin ⊢
  obtain ⟨c, c', hc, -, -, hlen, -⟩ := getCoefficients_entries h hu p k hk hN hk2
  obtain ⟨F, r, hF⟩ := C123_returns h hu m hm c (by omega)
  refine ⟨F, fun fuel hf => ?_⟩
  rw [computeMinMaxJFl_eq m fuel p a b k c hc r (hF fuel hf)]
  obtain ⟨mn, mx, e, h1, h2, h3, h4, h5⟩ :=
    minMaxFl_core h (fun _ => (r.1, r.2.getD [])) p hN k hk hab T ha hb E hE hfin c hc
  refine ⟨mn, mx, e, h1, h2, h3, h4, fun t ht => ?_⟩
  rcases ht with rfl | rfl
  · exact h5 _ ⟨le_rfl, hab⟩ (Or.inl rfl)
  · exact h5 _ ⟨hab, le_rfl⟩ (Or.inr (Or.inl rfl))

/-- **C126.** When the derivative searched is a polynomial of degree at most three in time (positions up to third order,
velocities of polynomials of order four, ...), the extrema found with the root finder of the code are those of the polynomial up
to three errors of the evaluation and `240 u` times the length of the interval times the largest possible slope. -/
theorem C126_degree_three (h : Rounding rnd u) (hu : u ≤ 1 / 10 ^ 11) (hnat : ∀ n : ℕ, n < 2 ^ 53 → rnd n = n)
    (m : RMath (Fl rnd)) (hm : RoundedMath m) (hs : RoundedSqrt m) (hd : 0 < m.dblMin.val) (fuel : ℕ)
    (p : Poly (Fl rnd)) (hN : p.N ≤ 22) (k : ℕ) (hk : k < p.N) (hk2 : k + 1 < 22)
    (hdeg : ∀ j, k + 4 ≤ j → (vals p.coeffs).getD j 0 = 0)
    (hnorm : ∀ x ∈ p.coeffs, x.val = 0 ∨ 2 * m.dblMin.val ≤ |x.val|) {a b : Fl rnd} (hab : a.val ≤ b.val)
    (T : ℝ) (ha : |a.val| ≤ T) (hb : |b.val| ≤ T) (E D : ℝ)
    (hE : ((1 + u) ^ (2 * p.N) - 1) * iteratedDeriv k (curve ((vals p.coeffs).map abs)) T ≤ E)
    (hD : 120 * u * ((1 + u) ^ (2 * p.N) * iteratedDeriv (k + 1) (curve ((vals p.coeffs).map abs)) T) * (b.val - a.val) ≤ D)
    (hfin : iteratedDeriv k (curve ((vals p.coeffs).map abs)) T + E < dblMax) :
    ∃ mn mx : Fl rnd × Fl rnd, p.computeMinMaxJFl m fuel a b k = .ok (some (mn, mx)) ∧
      mn.1.val ∈ Icc a.val b.val ∧ mx.1.val ∈ Icc a.val b.val ∧
      |mn.2.val - iteratedDeriv k (curve (vals p.coeffs)) mn.1.val| ≤ E ∧
      |mx.2.val - iteratedDeriv k (curve (vals p.coeffs)) mx.1.val| ≤ E ∧
      ∀ t ∈ Icc a.val b.val, mn.2.val - (3 * E + 2 * D) ≤ iteratedDeriv k (curve (vals p.coeffs)) t ∧
        iteratedDeriv k (curve (vals p.coeffs)) t ≤ mx.2.val + (3 * E + 2 * D) := by
  simp only [iteratedDeriv_curve] at hE hD hfin ⊢
  have hu0 := rounding_nonneg h
  have hγ : 0 ≤ (1 + u) ^ (2 * p.N) - 1 := by
    have := one_le_pow₀ (n := 2 * p.N) (by linarith : (1 : ℝ) ≤ 1 + u)
    linarith
  have hT0 : 0 ≤ T := (abs_nonneg _).trans ha
  have hT : ∀ t ∈ Icc a.val b.val, |t| ≤ T := by
    intro t ht
    rw [abs_le] at ha hb ⊢
    exact ⟨by linarith [ha.1, ht.1], by linarith [hb.2, ht.2]⟩
  obtain ⟨c, c', hc, hclose, hof, hlen, hent⟩ := getCoefficients_entries h hu p k hk hN hk2
  have hlow : ∀ j, 3 ≤ j → (vals c).getD j 0 = 0 := by
    intro j hj
    have := (hent j).1
    rw [hdeg (k + 1 + j) (by omega), abs_zero, mul_zero, mul_zero] at this
    exact abs_nonpos_iff.mp this
  have hnorm' : ∀ x ∈ c, x.val = 0 ∨ m.dblMin.val ≤ |x.val| := by
    intro x hx
    obtain ⟨j, hj, rfl⟩ := List.mem_iff_getElem.mp hx
    have ej : (vals c).getD j 0 = (c[j]).val := by
      rw [vals_getD, List.getD_eq_getElem?_getD, List.getElem?_eq_getElem hj]
      rfl
    rw [← ej]
    obtain ⟨h1, h2⟩ := hent j
    have hcase : (vals p.coeffs).getD (k + 1 + j) 0 = 0 ∨ 2 * m.dblMin.val ≤ |(vals p.coeffs).getD (k + 1 + j) 0| := by
      rw [vals_getD, List.getD_eq_getElem?_getD]
      by_cases hl : k + 1 + j < p.coeffs.length
      · rw [List.getElem?_eq_getElem hl]
        exact hnorm _ (List.getElem_mem hl)
      · rw [List.getElem?_eq_none (by omega)]
        exact Or.inl rfl
    rcases hcase with h0 | h0
    · left
      rw [h0, abs_zero, mul_zero, mul_zero] at h1
      exact abs_nonpos_iff.mp h1
    · right
      linarith
  obtain ⟨zs, hzs, b2, b1, b0, hnear, hsign⟩ := findRoots_low h hu hnat m hm hs hd fuel c hlow hnorm'
  rw [computeMinMaxJFl_eq m fuel p a b k c hc _ hzs]
  obtain ⟨mn, mx, e, h1, h2, h3, h4, h5⟩ :=
    minMaxFl_core h (fun _ => (true, zs)) p hN k hk hab T ha hb E hE hfin c hc
  refine ⟨mn, mx, e, h1, h2, h3, h4, fun t ht => ?_⟩
  have hder : ∀ x, (derivative (C (b2 / 3) * X ^ 3 + C (b1 / 2) * X ^ 2 + C b0 * X)).eval x = b2 * x ^ 2 + b1 * x + b0 := by
    intro x
    simp
    ring
  have hPder : ∀ x, (derivative (derivative^[k] (ofCoeffs c'))).eval x = (ofCoeffs (vals c)).eval x := by
    intro x
    rw [hof, Function.iterate_succ_apply']
  obtain ⟨s, hsS, s', hsS', hs1, hs2, hmax, hmin⟩ := extremes_from (f := fun t => derivAt (vals p.coeffs) k t) (E := E) (D := D)
    hab (derivative^[k] (ofCoeffs c')) (C (b2 / 3) * X ^ 3 + C (b1 / 2) * X ^ 2 + C b0 * X)
    (by
      intro s hs
      have q := derivAt_close (d := k) hclose s
      refine q.trans (le_trans ?_ hE)
      exact mul_le_mul_of_nonneg_left (abs_derivAt_le (vals p.coeffs) k (hT _ hs)).2.1 hγ)
    (by
      intro s hs
      rw [hder, hPder]
      refine le_trans (mul_le_mul_of_nonneg_right (hnear s) (by linarith)) (le_trans ?_ hD)
      refine mul_le_mul_of_nonneg_right (mul_le_mul_of_nonneg_left ?_ (by positivity)) (by linarith)
      have q := three_le_derivAt (vals p.coeffs) (k + 1) hT0
      have q1 := mul_le_mul_of_nonneg_left q (by positivity : 0 ≤ (1 + u) ^ (2 * p.N))
      refine le_trans ?_ q1
      have hs' := hT s hs
      have hs0 := abs_nonneg s
      rw [Finset.sum_range_succ, Finset.sum_range_succ, Finset.sum_range_succ, Finset.sum_range_zero]
      have w0 := (hent 0).1
      have w1 := mul_le_mul (hent 1).1 hs' hs0 ((abs_nonneg _).trans (hent 1).1)
      have w2 := mul_le_mul (hent 2).1 (pow_le_pow_left₀ hs0 hs' 2) (by positivity) ((abs_nonneg _).trans (hent 2).1)
      rw [pow_zero, pow_one]
      linarith)
    ((zs.filter fun z => z.2.val = 0).map fun z => z.1.val)
    (a.val :: b.val :: (zs.filter fun z => z.2.val = 0).map fun z => z.1.val) (by simp) (by simp)
    (by
      intro x y _ hxy _ hneg
      rw [hder, hder] at hneg
      obtain ⟨z, hz, hz0, q1, q2⟩ := hsign x y hxy hneg
      exact ⟨z.1.val, List.mem_map.mpr ⟨z, List.mem_filter.mpr ⟨hz, by simpa using hz0⟩, rfl⟩, by linarith, by linarith⟩)
    (fun z hz _ => by simp only [List.mem_cons]; exact Or.inr (Or.inr hz)) t ht
  have hcand : ∀ x, x ∈ (a.val :: b.val :: (zs.filter fun z => z.2.val = 0).map fun z => z.1.val) → x ∈ Icc a.val b.val →
      mn.2.val - E ≤ derivAt (vals p.coeffs) k x ∧ derivAt (vals p.coeffs) k x ≤ mx.2.val + E := by
    intro x hx hI
    rcases List.mem_cons.mp hx with rfl | hx
    · exact h5 a hI (Or.inl rfl)
    rcases List.mem_cons.mp hx with rfl | hx
    · exact h5 b hI (Or.inr (Or.inl rfl))
    obtain ⟨z, hz, rfl⟩ := List.mem_map.mp hx
    obtain ⟨hz1, hz2⟩ := List.mem_filter.mp hz
    refine h5 z.1 hI (Or.inr (Or.inr ⟨z.2, hz1, ?_⟩))
    rw [of_decide_eq_true hz2, abs_zero]
    unfold dblEpsilon
    norm_num
  have k1 := (hcand s hsS hs1).2
  have k2 := (hcand s' hsS' hs2).1
  constructor
  · linarith
  · linarith

/-- **C126.** An interval that runs backwards and a derivative that does not exist are reported. -/
theorem C126_rejected (h : Rounding rnd u) (hu : u ≤ 1 / 10 ^ 11) (m : RMath (Fl rnd)) (hm : RoundedMath m)
    (p : Poly (Fl rnd)) (hN : p.N ≤ 22) (k : ℕ) (hk2 : k + 1 < 22) (a b : Fl rnd) (hbad : b.val < a.val ∨ p.N ≤ k) :
    ∃ F, ∀ fuel, F ≤ fuel → p.computeMinMaxJFl m fuel a b k = .ok none := by
  by_cases hk : k < p.N
  · obtain ⟨c, c', hc, -, -, hlen, -⟩ := getCoefficients_entries h hu p k hk hN hk2
    obtain ⟨F, r, hF⟩ := C123_returns h hu m hm c (by omega)
    refine ⟨F, fun fuel hf => ?_⟩
    rw [computeMinMaxJFl_eq m fuel p a b k c hc r (hF fuel hf)]
    exact C114_rejected _ p hN k hk2 a b hbad
  · refine ⟨0, fun fuel _ => ?_⟩
    unfold Poly.computeMinMaxJFl Poly.computeMinMaxM Poly.computeMinMaxCandidatesM
    rw [if_pos (by omega)]
    rfl

/-- Numbers without rounding. -/
theorem id_rounding : Rounding (id : ℝ → ℝ) 0 where
  rel := by simp
  mono := monotone_id
  idem := by simp

/-- **C126.** Without rounding, and for derivatives of degree at most three, the minimum and the maximum over the interval are
found exactly, and no number of iterations is needed for it. -/
theorem C126_exact (m : RMath (Fl id)) (hm : RoundedMath m) (hs : RoundedSqrt m) (hd : 0 < m.dblMin.val) (fuel : ℕ)
    (p : Poly (Fl id)) (hN : p.N ≤ 22) (k : ℕ) (hk : k < p.N) (hk2 : k + 1 < 22)
    (hdeg : ∀ j, k + 4 ≤ j → (vals p.coeffs).getD j 0 = 0)
    (hnorm : ∀ x ∈ p.coeffs, x.val = 0 ∨ 2 * m.dblMin.val ≤ |x.val|) {a b : Fl id} (hab : a.val ≤ b.val)
    (hfin : iteratedDeriv k (curve ((vals p.coeffs).map abs)) (max |a.val| |b.val|) < dblMax) :
    ∃ mn mx : Fl id × Fl id, p.computeMinMaxJFl m fuel a b k = .ok (some (mn, mx)) ∧
      mn.1.val ∈ Icc a.val b.val ∧ mx.1.val ∈ Icc a.val b.val ∧
      mn.2.val = iteratedDeriv k (curve (vals p.coeffs)) mn.1.val ∧
      mx.2.val = iteratedDeriv k (curve (vals p.coeffs)) mx.1.val ∧
      ∀ t ∈ Icc a.val b.val, mn.2.val ≤ iteratedDeriv k (curve (vals p.coeffs)) t ∧
        iteratedDeriv k (curve (vals p.coeffs)) t ≤ mx.2.val := by
  obtain ⟨mn, mx, e, h1, h2, h3, h4, h5⟩ := C126_degree_three id_rounding (by norm_num) (fun _ _ => rfl) m hm hs hd fuel p hN k hk
    hk2 hdeg hnorm hab (max |a.val| |b.val|) (le_max_left _ _) (le_max_right _ _) 0 0 (by simp) (by simp) (by simpa using hfin)
  refine ⟨mn, mx, e, h1, h2, ?_, ?_, fun t ht => ?_⟩
  · exact sub_eq_zero.mp (abs_nonpos_iff.mp h3)
  · exact sub_eq_zero.mp (abs_nonpos_iff.mp h4)
  · simpa using h5 t ht

/-- The maximum of `t - t³` on `[0, 1]`, found with doubles and the root finder of the code: it is not below the value `3/8` at
`1/2` by more than `10^-12`. -/
example : ∃ mn mx : Fl round53 × Fl round53,
    (⟨[⟨0⟩, ⟨1⟩, ⟨0⟩, ⟨-1⟩]⟩ : Poly (Fl round53)).computeMinMaxJFl (flMath round53) 0 ⟨0⟩ ⟨1⟩ 0 = .ok (some (mn, mx)) ∧
      3 / 8 - 1 / 10 ^ 12 ≤ mx.2.val := by
  have hv : (vals [⟨0⟩, ⟨1⟩, ⟨0⟩, (⟨-1⟩ : Fl round53)]).map abs = [0, 1, 0, 1] := by simp [vals]
  have hA : ∀ k, iteratedDeriv k (curve ([0, 1, 0, 1] : List ℝ)) 1 =
      ∑ i ∈ Finset.range (4 - k), ((k + i).descFactorial k : ℝ) * ([0, 1, 0, 1] : List ℝ).getD (k + i) 0 * 1 ^ i := by
    intro k
    rw [iteratedDeriv_curve, derivAt_eq_sum]
    rfl
  have h0 : iteratedDeriv 0 (curve ([0, 1, 0, 1] : List ℝ)) 1 = 2 := by
    rw [hA]
    norm_num [Finset.sum_range_succ]
  have h1 : iteratedDeriv 1 (curve ([0, 1, 0, 1] : List ℝ)) 1 = 4 := by
    rw [hA]
    norm_num [Finset.sum_range_succ, Nat.descFactorial]
  have hn : 2 * (flMath round53).dblMin.val ≤ 1 := by
    change 2 * (1 / 2 ^ 1022 : ℝ) ≤ 1
    have h2 : (2 : ℝ) ^ 1 ≤ 2 ^ 1022 := pow_le_pow_right₀ (by norm_num) (by norm_num)
    generalize (2 : ℝ) ^ 1022 = y at h2
    rw [mul_one_div, div_le_one (by linarith)]
    linarith
  obtain ⟨mn, mx, e, -, -, -, -, hM⟩ := C126_degree_three round53_rounding (by norm_num) (fun n hn => round53_nat n hn)
    (flMath round53) (flMath_rounded round53_rounding (by norm_num)) (flMath_sqrt _) (flMath_dblMin _) 0
    ⟨[⟨0⟩, ⟨1⟩, ⟨0⟩, ⟨-1⟩]⟩ (by simp [Poly.N]) 0 (by simp [Poly.N]) (by norm_num)
    (by
      intro j hj
      rw [List.getD_eq_getElem?_getD, List.getElem?_eq_none (by simpa [vals] using hj)]
      rfl)
    (by
      intro x hx
      simp only [List.mem_cons, List.not_mem_nil, or_false] at hx
      rcases hx with rfl | rfl | rfl | rfl
      · exact Or.inl rfl
      · right; simpa using hn
      · exact Or.inl rfl
      · right; simpa using hn) (a := ⟨0⟩) (b := ⟨1⟩) (by norm_num) 1 (by simp) (by simp)
    (2 / 10 ^ 15) (1 / 10 ^ 13) (by rw [hv, h0]; norm_num [Poly.N]) (by rw [hv, h1]; norm_num [Poly.N])
    (by
      rw [hv, h0]
      have := dblMax_gt (K := ℝ)
      norm_num at this ⊢
      linarith)
  refine ⟨mn, mx, e, ?_⟩
  have := (hM (1 / 2) ⟨by norm_num, by norm_num⟩).2
  have hc : iteratedDeriv 0 (curve (vals [⟨0⟩, ⟨1⟩, ⟨0⟩, (⟨-1⟩ : Fl round53)])) (1 / 2) = 3 / 8 := by
    rw [iteratedDeriv_zero]
    norm_num [curve, vals, Finset.sum_range_succ]
  rw [hc] at this
  norm_num at this ⊢
  linarith

end Verif
