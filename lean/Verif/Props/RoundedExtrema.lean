import Verif.Proofs.RoundedExtrema

/-
Property C114 (extrema in floating point): the search for the extrema of a polynomial with numbers `Fl rnd`, every
operation of which rounds its result, and with a root finder of limited accuracy that gets the rounded coefficients.
`Spec.vals` are the real numbers that are stored, `Spec.ApproxOn` is the accuracy of the root finder.
-/
set_option linter.unusedSectionVars false

namespace Verif

open Polynomial Spec Set

/-- **C114.** The function used below is `computeMinMax` of the other theorems (C06, C07), with other numbers. -/
theorem C114_same_code {K : Type} [Field K] [LinearOrder K] (rf : RootFinder K) (p : Poly K) (a b : K) (d : ℤ) :
    p.computeMinMaxG (fun x => |x|) dblEpsilon dblMax rf a b d = p.computeMinMax rf a b d := by
  unfold Poly.computeMinMaxG Poly.computeMinMax Poly.computeMinMaxCandidatesG Poly.computeMinMaxCandidates Poly.getRoots
  by_cases h : (p.N : ℤ) - d - 1 < 0
  · rw [if_pos h, if_pos h]
    rfl
  · rw [if_neg h, if_neg h]
    rcases p.getCoefficients (d + 1) with c | _ | _ | _ | _ <;> rfl

variable {rnd : ℝ → ℝ} {u : ℝ}

/-- **C114.** With rounding and a root finder of accuracy `ε`, `computeMinMax` returns two times inside the interval; the
values it reports are those at these times up to the error of the evaluation, and no value on the interval lies outside
them by more than three errors of the evaluation and `ε²` times a bound on the second derivative of the function searched.
`T` bounds the times, `(curve ((vals p.coeffs).map abs))` is the polynomial with the absolute coefficients. -/
theorem C114_computeMinMax (h : Rounding rnd u) (rf : RootFinder (Fl rnd)) {ε : ℝ} (hε : 0 ≤ ε) (p : Poly (Fl rnd))
    (hN : p.N ≤ 22) (k : ℕ) (hk : k < p.N) (hk2 : k + 1 < 22) {a b : Fl rnd} (hab : a.val ≤ b.val)
    (hrf : ApproxOn ε a.val b.val rf) (T : ℝ) (ha : |a.val| ≤ T) (hb : |b.val| ≤ T) (E B : ℝ)
    (hE : ((1 + u) ^ (2 * p.N) - 1) * iteratedDeriv k (curve ((vals p.coeffs).map abs)) T ≤ E)
    (hB : (1 + u) ^ (2 * p.N) * iteratedDeriv (k + 2) (curve ((vals p.coeffs).map abs)) T ≤ B)
    (hfin : iteratedDeriv k (curve ((vals p.coeffs).map abs)) T + E < dblMax) :
    ∃ m M : Fl rnd × Fl rnd, p.computeMinMaxFl rf a b k = .ok (some (m, M)) ∧
      m.1.val ∈ Icc a.val b.val ∧ M.1.val ∈ Icc a.val b.val ∧
      |m.2.val - iteratedDeriv k (curve (vals p.coeffs)) m.1.val| ≤ E ∧
      |M.2.val - iteratedDeriv k (curve (vals p.coeffs)) M.1.val| ≤ E ∧
      ∀ t ∈ Icc a.val b.val, m.2.val - (3 * E + B * ε ^ 2) ≤ iteratedDeriv k (curve (vals p.coeffs)) t ∧
        iteratedDeriv k (curve (vals p.coeffs)) t ≤ M.2.val + (3 * E + B * ε ^ 2) := by
  have hu := rounding_nonneg h
  have hγ : 0 ≤ (1 + u) ^ (2 * p.N) - 1 := by
    have := one_le_pow₀ (n := 2 * p.N) (by linarith : (1 : ℝ) ≤ 1 + u)
    linarith
  have hT : ∀ t ∈ Icc a.val b.val, |t| ≤ T := by
    intro t ht
    rw [abs_le] at ha hb ⊢
    exact ⟨by linarith [ha.1, ht.1], by linarith [hb.2, ht.2]⟩
  rw [iteratedDeriv_curve] at hE hB hfin
  -- evaluation
  have hev : ∀ t : Fl rnd, t.val ∈ Icc a.val b.val → ∃ v, p.evaluate t k = .ok v ∧
      |v.val - derivAt (vals p.coeffs) k t.val| ≤ E := by
    intro t ht
    obtain ⟨v, h1, h2⟩ := C99_error h p hN t k
    rw [iteratedDeriv_curve, iteratedDeriv_curve] at h2
    refine ⟨v, h1, h2.trans (le_trans ?_ hE)⟩
    exact mul_le_mul_of_nonneg_left (abs_derivAt_le (vals p.coeffs) k (hT _ ht)).2.1 hγ
  choose! val hval1 hval2 using hev
  -- candidates
  obtain ⟨c, c', hc, hclose, hder⟩ := getCoefficients_rounded h p k hk hN hk2
  obtain ⟨cand, hcand, hmem⟩ := candidatesG_some hab (rf c).2
  have hin : ∀ x ∈ a :: b :: cand, x.val ∈ Icc a.val b.val := by
    intro x hx
    rcases List.mem_cons.mp hx with rfl | hx
    · exact ⟨le_rfl, hab⟩
    · rcases List.mem_cons.mp hx with rfl | hx
      · exact ⟨hab, le_rfl⟩
      · exact ⟨((hmem x).mp hx).1, ((hmem x).mp hx).2.1⟩
  have hmap : ((a :: b :: cand).mapM fun t => do
      let v ← p.evaluate t k
      pure (t, v)) = Res.ok ((a :: b :: cand).map fun t => (t, val t)) := by
    apply Res.mapM_ok
    intro t ht
    rw [hval1 t (hin t ht), Res.ok_bind, Res.pure_eq]
  set tvs := (a :: b :: cand).map fun t => (t, val t) with htvs
  have hres : p.computeMinMaxFl rf a b k =
      .ok (some (tvs.foldl minMaxStepG ((a, ⟨dblMax⟩), (a, -⟨dblMax⟩)))) := by
    unfold Poly.computeMinMaxFl Poly.computeMinMaxG Poly.computeMinMaxCandidatesG
    rw [if_neg (by omega), hc, Res.ok_bind, hcand]
    dsimp only
    rw [Res.pure_eq, Res.ok_bind, if_pos rfl]
    unfold Poly.selectMinMaxFromCandidatesG
    dsimp only
    rw [hmap, Res.ok_bind]
    rfl
  obtain ⟨⟨h1, h2, h3⟩, ⟨h4, h5, h6⟩⟩ := foldl_minMaxStepG tvs (a, ⟨dblMax⟩) (a, -⟨dblMax⟩)
  set r := tvs.foldl minMaxStepG ((a, ⟨dblMax⟩), (a, -⟨dblMax⟩)) with hr
  have hmema : (a, val a) ∈ tvs := by simp [htvs]
  have ha0 : |(val a).val| < dblMax := by
    have q1 := hval2 a ⟨le_rfl, hab⟩
    have q2 := (abs_derivAt_le (vals p.coeffs) k (hT a.val ⟨le_rfl, hab⟩)).1
    have q3 : |(val a).val| ≤ |(val a).val - derivAt (vals p.coeffs) k a.val| + |derivAt (vals p.coeffs) k a.val| := by
      have := abs_add_le ((val a).val - derivAt (vals p.coeffs) k a.val) (derivAt (vals p.coeffs) k a.val)
      rwa [sub_add_cancel] at this
    linarith
  have ha1 := abs_lt.mp ha0
  have m3 : r.1 ∈ tvs := by
    rcases h3 with h3 | h3
    · have := h2 _ hmema
      rw [h3] at this
      exact absurd this (not_le.mpr ha1.2)
    · exact h3
  have m6 : r.2 ∈ tvs := by
    rcases h6 with h6 | h6
    · have := h5 _ hmema
      rw [h6] at this
      exact absurd this (not_le.mpr ha1.1)
    · exact h6
  obtain ⟨x, hx, hx'⟩ := List.mem_map.mp m3
  obtain ⟨y, hy, hy'⟩ := List.mem_map.mp m6
  refine ⟨r.1, r.2, hres, ?_, ?_, ?_, ?_, ?_⟩
  · rw [← hx']; exact hin x hx
  · rw [← hy']; exact hin y hy
  · rw [← hx', iteratedDeriv_curve]; exact hval2 x (hin x hx)
  · rw [← hy', iteratedDeriv_curve]; exact hval2 y (hin y hy)
  · intro t ht
    rw [iteratedDeriv_curve]
    set P := derivative^[k] (ofCoeffs c') with hP
    have hPd : derivative P = ofCoeffs (vals c) := by rw [hder, hP, Function.iterate_succ_apply']
    set R := ((rf c).2.filter fun z => decide (|z.2.val| ≤ 1 / 2 ^ 52)).map fun z => z.1.val with hR
    set S := (a :: b :: cand).map Fl.val with hS
    have hcov : CoversOn ε a.val b.val R (derivative P) := by
      intro x y hx hxy hy hs
      rw [hPd] at hs
      obtain ⟨z, hz, z1, z2, z3⟩ := hrf c x y hx hxy hy hs
      exact ⟨z.1.val, List.mem_map.mpr ⟨z, List.mem_filter.mpr ⟨hz, by simpa using z1⟩, rfl⟩, z2, z3⟩
    have hRS : ∀ z ∈ R, z ∈ Icc a.val b.val → z ∈ S := by
      intro z hz hzI
      obtain ⟨w, hw, rfl⟩ := List.mem_map.mp hz
      obtain ⟨hw1, hw2⟩ := List.mem_filter.mp hw
      refine List.mem_map.mpr ⟨w.1, ?_, rfl⟩
      right; right
      exact (hmem w.1).mpr ⟨hzI.1, hzI.2, w.2, hw1, by simpa [dblEpsilon] using hw2⟩
    have haS : a.val ∈ S := by simp [hS]
    have hbS : b.val ∈ S := by simp [hS]
    have hdd : derivative (derivative P) = derivative^[k + 2] (ofCoeffs c') := by
      rw [hP, Function.iterate_succ_apply', Function.iterate_succ_apply']
    have hPnear : ∀ s ∈ Icc a.val b.val, |P.eval s - derivAt (vals p.coeffs) k s| ≤ E := by
      intro s hs
      have q := derivAt_close (d := k) hclose s
      unfold derivAt at q ⊢
      refine q.trans (le_trans ?_ hE)
      exact mul_le_mul_of_nonneg_left (abs_derivAt_le (vals p.coeffs) k (hT _ hs)).2.1 hγ
    have hB' : ∀ s ∈ Icc a.val b.val, |(derivative (derivative P)).eval s| ≤ B := by
      intro s hs
      rw [hdd]
      have q := derivAt_close (d := k + 2) hclose s
      obtain ⟨q1, q2, q3⟩ := abs_derivAt_le (vals p.coeffs) (k + 2) (hT _ hs)
      have q4 := q.trans (mul_le_mul_of_nonneg_left q2 hγ)
      have q5 : |derivAt c' (k + 2) s| ≤ |derivAt c' (k + 2) s - derivAt (vals p.coeffs) (k + 2) s| +
          |derivAt (vals p.coeffs) (k + 2) s| := by
        have := abs_add_le (derivAt c' (k + 2) s - derivAt (vals p.coeffs) (k + 2) s) (derivAt (vals p.coeffs) (k + 2) s)
        rwa [sub_add_cancel] at this
      change |derivAt c' (k + 2) s| ≤ B
      linarith
    obtain ⟨x1, hx1, e1, s1, hs1, g1, d1, f1⟩ := near_max_on P hab hε R S haS hbS hcov hRS
    obtain ⟨x2, hx2, e2, s2, hs2, g2, d2, f2⟩ := near_min_on P hab hε R S haS hbS hcov hRS
    have o1 := abs_le.mp (second_order P hx1 g1 d1 f1 hB')
    have o2 := abs_le.mp (second_order P hx2 g2 d2 f2 hB')
    obtain ⟨w1, hw1, rfl⟩ := List.mem_map.mp hs1
    obtain ⟨w2, hw2, rfl⟩ := List.mem_map.mp hs2
    have v1 := h5 _ (List.mem_map.mpr ⟨w1, hw1, rfl⟩)
    have v2 := h2 _ (List.mem_map.mpr ⟨w2, hw2, rfl⟩)
    have n1 := abs_le.mp (hval2 w1 g1)
    have n2 := abs_le.mp (hval2 w2 g2)
    have i1 := abs_le.mp (hPnear _ g1)
    have i2 := abs_le.mp (hPnear _ g2)
    have i3 := abs_le.mp (hPnear t ht)
    have e1 := e1 t ht
    have e2 := e2 t ht
    dsimp only at v1 v2
    constructor
    · linarith [n2.2, i2.1, i3.2, o2.2]
    · linarith [n1.1, i1.2, i3.1, o1.1]

/-- **C114.** With rounding too, an interval that runs backwards and a derivative that does not exist are reported, for
every root finder. -/
theorem C114_rejected (rf : RootFinder (Fl rnd)) (p : Poly (Fl rnd)) (hN : p.N ≤ 22) (k : ℕ) (hk2 : k + 1 < 22)
    (a b : Fl rnd) (hbad : b.val < a.val ∨ p.N ≤ k) : p.computeMinMaxFl rf a b k = .ok none := by
  unfold Poly.computeMinMaxFl Poly.computeMinMaxG Poly.computeMinMaxCandidatesG
  by_cases hk : (p.N : ℤ) - k - 1 < 0
  · rw [if_pos hk]
    rfl
  · rw [if_neg hk]
    have hba : a > b := by
      rcases hbad with h | h
      · exact h
      · omega
    have hc : ∃ c, p.getCoefficients ((k : ℤ) + 1) = .ok c := by
      unfold Poly.getCoefficients
      rw [Res.check_of (by omega), Res.ok_bind, if_neg (by omega), if_neg (by unfold kMaxConvolutionSize; omega)]
      exact ⟨_, rfl⟩
    obtain ⟨c, hc⟩ := hc
    rw [hc, Res.ok_bind]
    unfold candidatesG
    rw [if_pos hba]
    rfl

/-- The exact roots, rounded. -/
noncomputable def roundedRoots (rnd : ℝ → ℝ) : RootFinder (Fl rnd) := fun c =>
  (true, (ofCoeffs (vals c)).roots.toList.map fun x => (⟨rnd x⟩, ⟨0⟩))

/-- A root finder that rounds the exact roots has the accuracy `u T` on intervals within `[-T, T]`. -/
theorem roundedRoots_approx (h : Rounding rnd u) {T a b : ℝ} (ha : -T ≤ a) (hb : b ≤ T) :
    ApproxOn (u * T) a b (roundedRoots rnd) := by
  intro c x y hx hxy hy hs
  have hne : ofCoeffs (vals c) ≠ 0 := by
    rintro h0
    rw [h0] at hs
    simp at hs
  have hcont : ContinuousOn (fun x => (ofCoeffs (vals c)).eval x) (uIcc x y) := (ofCoeffs (vals c)).continuous.continuousOn
  have h0 : (0 : ℝ) ∈ uIcc ((ofCoeffs (vals c)).eval x) ((ofCoeffs (vals c)).eval y) := by
    rw [mem_uIcc]
    rcases mul_neg_iff.mp hs with ⟨h1, h2⟩ | ⟨h1, h2⟩
    · exact Or.inr ⟨h2.le, h1.le⟩
    · exact Or.inl ⟨h1.le, h2.le⟩
  obtain ⟨r, hr, hr0⟩ := intermediate_value_uIcc hcont h0
  rw [uIcc_of_le hxy.le] at hr
  refine ⟨(⟨rnd r⟩, ⟨0⟩), ?_, by simp, ?_⟩
  · unfold roundedRoots
    simp only [List.mem_map]
    exact ⟨r, by simpa using ⟨hne, hr0⟩, rfl⟩
  · have h1 := h.rel r
    have h2 : u * |r| ≤ u * T :=
      mul_le_mul_of_nonneg_left (abs_le.mpr ⟨by linarith [hr.1], by linarith [hr.2]⟩) (rounding_nonneg h)
    have h3 := abs_le.mp (h1.trans h2)
    constructor
    · simp only
      linarith [h3.1, hr.1]
    · simp only
      linarith [h3.2, hr.2]

/-- The maximum 1/4 of `t - t²` on `[0, 1]` with doubles and a root finder that rounds to doubles: the reported value is
off by less than `10^-14`. -/
example : ∃ m M : Fl round53 × Fl round53,
    (⟨[⟨0⟩, ⟨1⟩, ⟨-1⟩]⟩ : Poly (Fl round53)).computeMinMaxFl (roundedRoots round53) ⟨0⟩ ⟨1⟩ 0 = .ok (some (m, M)) ∧
      1 / 4 - 1 / 10 ^ 14 ≤ M.2.val := by
  have hv : (vals [⟨0⟩, ⟨1⟩, (⟨-1⟩ : Fl round53)]).map abs = [0, 1, 1] := by simp [vals]
  have hA : ∀ k, iteratedDeriv k (curve ([0, 1, 1] : List ℝ)) 1 =
      ∑ i ∈ Finset.range (3 - k), ((k + i).descFactorial k : ℝ) * ([0, 1, 1] : List ℝ).getD (k + i) 0 * 1 ^ i := by
    intro k
    rw [iteratedDeriv_curve, derivAt_eq_sum]
    rfl
  have h0 : iteratedDeriv 0 (curve ([0, 1, 1] : List ℝ)) 1 = 2 := by
    rw [hA]
    norm_num [Finset.sum_range_succ]
  have h2 : iteratedDeriv 2 (curve ([0, 1, 1] : List ℝ)) 1 = 2 := by
    rw [hA]
    norm_num [Finset.sum_range_succ, Nat.descFactorial]
  obtain ⟨m, M, e, -, -, -, -, hM⟩ := C114_computeMinMax round53_rounding (roundedRoots round53) (ε := 1 / 2 ^ 53 * 1)
    (by norm_num) ⟨[⟨0⟩, ⟨1⟩, ⟨-1⟩]⟩ (by simp [Poly.N]) 0 (by simp [Poly.N]) (by norm_num) (a := ⟨0⟩) (b := ⟨1⟩)
    (by norm_num) (roundedRoots_approx round53_rounding (by norm_num) (by norm_num)) 1 (by simp) (by simp)
    (2 / 10 ^ 15) 3 (by rw [hv, h0]; norm_num [Poly.N]) (by rw [hv, h2]; norm_num [Poly.N])
    (by
      rw [hv, h0]
      have := dblMax_gt (K := ℝ)
      norm_num at this ⊢
      linarith)
  refine ⟨m, M, e, ?_⟩
  have := (hM (1 / 2) ⟨by norm_num, by norm_num⟩).2
  have hc : iteratedDeriv 0 (curve (vals [⟨0⟩, ⟨1⟩, (⟨-1⟩ : Fl round53)])) (1 / 2) = 1 / 4 := by
    rw [iteratedDeriv_zero]
    norm_num [curve, vals, Finset.sum_range_succ]
  rw [hc] at this
  norm_num at this ⊢
  linarith

end Verif
