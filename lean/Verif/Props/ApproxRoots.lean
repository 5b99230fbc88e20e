import Verif.Proofs.ApproxRoots
import Verif.Props.Magnitude

/-
Property C103: extrema with a root finder of limited accuracy.

`Spec.Approx ε rf` says that the root finder returns, for every sign change of the polynomial, a number that
is off by at most `ε`. This is weaker than `Spec.Complete rf`, which the other theorems about extrema assume:
the returned numbers need not be roots, and roots without a change of sign need not be found.
-/
namespace Verif

open Polynomial Spec Set

/-! ### C103 extrema with a root finder of limited accuracy -/

/-- An exact root finder is a root finder of every accuracy. -/
theorem complete_approx {rf : RootFinder ℝ} (h : Complete rf) {ε : ℝ} (hε : 0 ≤ ε) : Approx ε rf := by
  intro c a b hab hs
  have hne : ofCoeffs c ≠ 0 := by
    rintro h0
    rw [h0] at hs
    simp at hs
  have hcont : ContinuousOn (fun x => (ofCoeffs c).eval x) (uIcc a b) :=
    (ofCoeffs c).continuous.continuousOn
  have h0 : (0 : ℝ) ∈ uIcc ((ofCoeffs c).eval a) ((ofCoeffs c).eval b) := by
    rw [mem_uIcc]
    rcases mul_neg_iff.mp hs with ⟨h1, h2⟩ | ⟨h1, h2⟩
    · exact Or.inr ⟨h2.le, h1.le⟩
    · exact Or.inl ⟨h1.le, h2.le⟩
  obtain ⟨x, hx, hx0⟩ := intermediate_value_uIcc hcont h0
  rw [uIcc_of_le hab.le] at hx
  exact ⟨(x, 0), h c hne x hx0, by norm_num, by simpa using by linarith [hx.1],
    by simpa using by linarith [hx.2]⟩

/-- The real roots, each too large by `ε`. -/
noncomputable def shifted (ε : ℝ) : RootFinder ℝ := fun c =>
  (true, (ofCoeffs c).roots.toList.map fun x => (x + ε, 0))

/-- A root finder that is never right but has the accuracy `ε`. -/
theorem shifted_approx {ε : ℝ} (hε : 0 ≤ ε) : Approx ε (shifted ε) := by
  classical
  intro c a b hab hs
  have hrf : Complete (fun c => (true, (ofCoeffs c).roots.toList.map fun x => (x, 0))) := by
    intro c hc x hx
    simp only [List.mem_map, Prod.mk.injEq, and_true, exists_eq_right, Multiset.mem_toList]
    exact (mem_roots hc).mpr hx
  obtain ⟨z, hz, h1, h2, h3⟩ := complete_approx hrf le_rfl c a b hab hs
  simp only [List.mem_map] at hz
  obtain ⟨x, hx, rfl⟩ := hz
  refine ⟨(x + ε, 0), ?_, h1, ?_, ?_⟩
  · unfold shifted
    simp only [List.mem_map]
    exact ⟨x, hx, rfl⟩
  · simp only at h2 ⊢; linarith
  · simp only at h3 ⊢; linarith

/-- **C103 (one polynomial).** With a root finder of accuracy `ε`, `computeMinMax` still returns two values of
the derivative inside the interval, at the reported times, and no value on the interval lies outside them by
more than `B ε²`, where `B` bounds the second derivative of the function searched. -/
theorem C103_computeMinMax (rf : RootFinder ℝ) {ε : ℝ} (hε : 0 ≤ ε) (hrf : Approx ε rf) (p : Poly ℝ)
    (hN : p.N ≤ 22) (k : ℕ) (hk : k < p.N) (hk2 : k + 1 < 22)
    {a b : ℝ} (hab : a ≤ b) (hfin : ∀ t ∈ Icc a b, |iteratedDeriv k (curve p.coeffs) t| < dblMax)
    (B : ℝ) (hB : ∀ t ∈ Icc a b, |iteratedDeriv (k + 2) (curve p.coeffs) t| ≤ B) :
    ∃ m M : ℝ × ℝ, p.computeMinMax rf a b k = .ok (some (m, M)) ∧
      m.1 ∈ Icc a b ∧ m.2 = iteratedDeriv k (curve p.coeffs) m.1 ∧
      M.1 ∈ Icc a b ∧ M.2 = iteratedDeriv k (curve p.coeffs) M.1 ∧
      ∀ t ∈ Icc a b, m.2 - B * ε ^ 2 ≤ iteratedDeriv k (curve p.coeffs) t ∧
        iteratedDeriv k (curve p.coeffs) t ≤ M.2 + B * ε ^ 2 := by
  simp only [iteratedDeriv_curve] at hfin hB ⊢
  obtain ⟨c, cand, hl, hd, hcand, hmem⟩ := computeMinMaxCandidates_ok rf p
    (by simpa [kMaxConvolutionSize] using hN) k hk (by simpa [kMaxConvolutionSize] using hk2) hab
  have hsub : ∀ x ∈ a :: b :: cand, x ∈ Icc a b :=
    cand_inside hab fun x hx => ⟨((hmem x).mp hx).1, ((hmem x).mp hx).2.1⟩
  obtain ⟨m, M, hres, h1, h2, h3, h4, h5⟩ := selectMinMaxFromCandidates_ok p
    (by simpa [kMaxConvolutionSize] using hN) k (a :: b :: cand)
    (by simp) (fun t ht => hfin t (hsub t ht))
  have hcov := approx_covers hrf c
  rw [hd, Function.iterate_succ_apply'] at hcov
  have hRS : ∀ z ∈ realParts (rf c).2, z ∈ Icc a b → z ∈ a :: b :: cand := by
    intro z hz hzI
    right; right
    obtain ⟨im, h1, h2⟩ := (mem_realParts _ _).mp hz
    exact (hmem z).mpr ⟨hzI.1, hzI.2, im, h1, h2⟩
  have hB' : ∀ t ∈ Icc a b, |(derivative (derivative (derivative^[k] (ofCoeffs p.coeffs)))).eval t| ≤ B := by
    intro t ht
    have := hB t ht
    unfold derivAt at this
    rwa [Function.iterate_succ_apply', Function.iterate_succ_apply'] at this
  refine ⟨m, M, ?_, hsub _ h1, h2, hsub _ h3, h4, ?_⟩
  · unfold Poly.computeMinMax
    rw [hcand, Res.ok_bind, if_pos rfl]
    exact hres
  · intro t ht
    obtain ⟨x, hx, q1, s, hs, q2, q3, q4⟩ := near_max _ hab hε _ _ (by simp) (by simp) hcov hRS
    obtain ⟨y, hy, r1, u, hu, r2, r3, r4⟩ := near_min _ hab hε _ _ (by simp) (by simp) hcov hRS
    have q5 := abs_le.mp (second_order _ hx q2 q3 q4 hB')
    have r5 := abs_le.mp (second_order _ hy r2 r3 r4 hB')
    have q6 := (h5 s hs).2
    have r6 := (h5 u hu).1
    have q7 := q1 t ht
    have r7 := r1 t ht
    unfold derivAt at q6 r6 ⊢
    constructor <;> linarith [q5.1, r5.2]

/-- **C103 (the error is real).** With accuracy `ε` the true maximum can be missed: for `-t²` on `[-1, 1]` and
a root finder whose roots are too large by `ε`, the reported maximum is `-ε²` instead of 0. -/
theorem C103_error_attained (ε : ℝ) (h0 : 0 < ε) (h1 : ε < 1) :
    Approx ε (shifted ε) ∧
    ∃ m M : ℝ × ℝ, (⟨[0, 0, -1]⟩ : Poly ℝ).computeMinMax (shifted ε) (-1) 1 0 = .ok (some (m, M)) ∧
      M.2 = -ε ^ 2 ∧ curve [0, 0, -1] 0 = 0 := by
  classical
  refine ⟨shifted_approx h0.le, ?_⟩
  obtain ⟨c, cand, hl, hd, hcand, hmem⟩ := computeMinMaxCandidates_ok (shifted ε) (⟨[0, 0, -1]⟩ : Poly ℝ)
    (by simp [Poly.N, kMaxConvolutionSize]) 0 (by simp [Poly.N])
    (by simp [kMaxConvolutionSize]) (show (-1 : ℝ) ≤ 1 by norm_num)
  have hval : ∀ t : ℝ, derivAt [0, 0, -1] 0 t = -t ^ 2 := by
    intro t
    norm_num [derivAt, ofCoeffs, Finset.sum_range_succ]
  have hdc : ofCoeffs c = C (-2) * (X - C 0) := by
    rw [hd]
    apply Polynomial.funext
    intro x
    simp [ofCoeffs, Finset.sum_range_succ]
    ring
  have hroots : (shifted ε c).2 = [(ε, 0)] := by
    unfold shifted
    rw [hdc, roots_C_mul _ (by norm_num), roots_X_sub_C]
    simp
  have hcandε : ∀ x, x ∈ cand ↔ x = ε := by
    intro x
    rw [hmem, hroots]
    constructor
    · rintro ⟨_, _, im, h, _⟩
      simp only [List.mem_singleton, Prod.mk.injEq] at h
      exact h.1
    · rintro rfl
      exact ⟨by linarith, by linarith, 0, by simp, by simpa using dblEpsilon_pos.le⟩
  have hin : ∀ t ∈ (-1 : ℝ) :: 1 :: cand, t = -1 ∨ t = 1 ∨ t = ε := by
    intro t ht
    simp only [List.mem_cons, hcandε] at ht
    exact ht
  have hdm : (10 : ℝ) ^ 15 < dblMax := dblMax_gt
  obtain ⟨m, M, hres, g1, g2, g3, g4, g5⟩ := selectMinMaxFromCandidates_ok (⟨[0, 0, -1]⟩ : Poly ℝ)
    (by simp [Poly.N, kMaxConvolutionSize]) 0 ((-1 : ℝ) :: 1 :: cand) (by simp) (by
      intro t ht
      rw [hval]
      have : |-t ^ 2| ≤ 1 := by
        rw [abs_neg, abs_of_nonneg (by positivity)]
        rcases hin t ht with rfl | rfl | rfl
        · norm_num
        · norm_num
        · nlinarith
      refine lt_of_le_of_lt this (lt_trans (by norm_num) hdm))
  refine ⟨m, M, ?_, ?_, by simp [curve, Finset.sum_range_succ]⟩
  · unfold Poly.computeMinMax
    rw [Nat.cast_zero] at hcand hres
    rw [hcand, Res.ok_bind, if_pos rfl]
    exact hres
  · have e1 := (g5 ε (by simp [hcandε])).2
    rw [hval] at e1 g4
    apply le_antisymm _ e1
    rw [g4]
    rcases hin _ g3 with e | e | e
    · rw [e]; nlinarith
    · rw [e]; nlinarith
    · rw [e]

/-- **C103 (magnitudes).** With a root finder of accuracy `ε`, `computeMinMaxMagnitude` still returns true, and
both reported values are magnitudes at the reported times of the reported segments. No magnitude on the
trajectory exceeds the reported maximum by more than `L ε`, where `L` bounds the magnitude of the next
derivative; with two or more dimensions none lies below the reported minimum by more than that. -/
theorem C103_magnitude (rf : RootFinder ℝ) {ε : ℝ} (hε : 0 ≤ ε) (hrf : Approx ε rf)
    (tr : Trajectory ℝ) (h : tr.WF)
    (hne : tr.segments ≠ []) (k : ℕ) (hk : k < tr.N) (hk2 : k + 1 < 22) (ds : List ℕ) (hds0 : ds ≠ [])
    (hds : ∀ d ∈ ds, d < tr.D)
    (hfin : ∀ s ∈ tr.segments, ∀ t ∈ Icc 0 s.time, magnitude s.polys ds k t < dblMax)
    (L : ℝ) (hL : ∀ s ∈ tr.segments, ∀ t ∈ Icc 0 s.time, magnitude s.polys ds (k + 1) t ≤ L)
    (mn0 mx0 : Extremum ℝ) :
    ∃ mn mx, tr.computeMinMaxMagnitude rf Real.sqrt k (ds.map fun (d : ℕ) => (d : ℤ)) mn0 mx0 =
        .ok (true, mn, mx) ∧
      (∀ s ∈ tr.segments, ∀ t ∈ Icc 0 s.time, magnitude s.polys ds k t ≤ mx.value + L * ε) ∧
      (2 ≤ ds.length → ∀ s ∈ tr.segments, ∀ t ∈ Icc 0 s.time,
        mn.value - L * ε ≤ magnitude s.polys ds k t) ∧
      (∃ hj : mx.segmentIdx < tr.segments.length, mx.time ∈ Icc 0 tr.segments[mx.segmentIdx].time ∧
        mx.value = magnitude tr.segments[mx.segmentIdx].polys ds k mx.time) ∧
      (∃ hj : mn.segmentIdx < tr.segments.length, mn.time ∈ Icc 0 tr.segments[mn.segmentIdx].time ∧
        mn.value = magnitude tr.segments[mn.segmentIdx].polys ds k mn.time) :=
  maxMagnitude_near rf hε hrf tr h hne k hk hk2 ds hds0 hds
    (fun s hs => hfin s hs 0 ⟨le_rfl, h.nonneg s hs⟩) L hL mn0 mx0

/-- **C103 (limits).** With a root finder of accuracy `ε`, `scaleSegmentTimesToMeetConstraints` still slows the
trajectory down by one factor `c ≥ 1` and changes nothing else. If it returns true, the acceleration exceeds
`1.001 a_max` by at most `J ε`, where `J` bounds the jerk of the given trajectory, and the speed exceeds
`1.001 v_max` by at most `ε` times the acceleration just bounded. -/
theorem C103_limits (rf : RootFinder ℝ) {ε : ℝ} (hε : 0 ≤ ε) (hrf : Approx ε rf) (tr : Trajectory ℝ)
    (h : tr.WF) (hne : tr.segments ≠ []) (hD : 0 < tr.D) (hN : 3 ≤ tr.N)
    (hfin : ∀ s ∈ tr.segments, ∀ t ∈ Icc 0 s.time,
      magnitude s.polys (List.range tr.D) 1 t < dblMax ∧
      magnitude s.polys (List.range tr.D) 2 t < dblMax)
    (vMax aMax : ℝ) (hv : 0 < vMax) (ha : 0 < aMax)
    (J : ℝ) (hJ : ∀ s ∈ tr.segments, ∀ t ∈ Icc 0 s.time, magnitude s.polys (List.range tr.D) 3 t ≤ J) :
    ∃ b r c, tr.scaleToMeetConstraints rf Real.sqrt vMax aMax = .ok (b, r) ∧ 1 ≤ c ∧
      r.getSegmentTimes = tr.getSegmentTimes.map (· * c) ∧ r.maxTime = tr.maxTime * c ∧
      (∀ t (k : ℕ), r.evaluate (c * t) k = (fun v => v.map (· / c ^ k)) <$> tr.evaluate t k) ∧
      (b = true →
        (∀ t ∈ Icc 0 r.maxTime, ∃ v, r.evaluate t 1 = .ok v ∧ v.length = tr.D ∧
          Real.sqrt (v.map (· ^ 2)).sum ≤
            (1 + 1 / 1000) * vMax + ((1 + 1 / 1000) * aMax + J * ε) * ε) ∧
        (∀ t ∈ Icc 0 r.maxTime, ∃ a, r.evaluate t 2 = .ok a ∧ a.length = tr.D ∧
          Real.sqrt (a.map (· ^ 2)).sum ≤ (1 + 1 / 1000) * aMax + J * ε)) := by
  obtain ⟨b, r, c, h1, h2, h3⟩ := scaleLoop_near rf hε hrf tr hD hN hfin vMax aMax hv ha dblMax J
    (fun s hs t ht => (hfin s hs t ht).2.le) hJ 20 tr 1 (Slowed.refl h hne)
  refine ⟨b, r, c, h1, h2.one, h2.times, h2.total, h2.eval, ?_⟩
  intro hb
  have h9 := h3 hb
  constructor <;> intro t ht
  · obtain ⟨s, hs, x, hx, e⟩ := evaluate_local r h2.wf h2.ne 1 t ht.1 ht.2
    have hlen : (valuesAt s.polys 1 x).length = tr.D := by
      rw [← h2.D, ← h2.wf.dims s hs]; simp [valuesAt, Segment.D]
    refine ⟨_, by simpa using e, hlen, ?_⟩
    have := (h9 s hs x hx).1
    unfold magnitude at this
    rwa [map_range_getD _ _ hlen] at this
  · obtain ⟨s, hs, x, hx, e⟩ := evaluate_local r h2.wf h2.ne 2 t ht.1 ht.2
    have hlen : (valuesAt s.polys 2 x).length = tr.D := by
      rw [← h2.D, ← h2.wf.dims s hs]; simp [valuesAt, Segment.D]
    refine ⟨_, by simpa using e, hlen, ?_⟩
    have := (h9 s hs x hx).2
    unfold magnitude at this
    rwa [map_range_getD _ _ hlen] at this

/-- **C103 (limits, success).** If the accuracy is good enough for the trajectory - `ε` times the largest
acceleration is at most a thousandth of the speed limit and `ε` times the largest jerk at most a thousandth
of the acceleration limit - `scaleSegmentTimesToMeetConstraints` returns true. -/
theorem C103_success (rf : RootFinder ℝ) {ε : ℝ} (hε : 0 ≤ ε) (hrf : Approx ε rf) (tr : Trajectory ℝ)
    (h : tr.WF) (hne : tr.segments ≠ []) (hD : 0 < tr.D) (hN : 3 ≤ tr.N)
    (hfin : ∀ s ∈ tr.segments, ∀ t ∈ Icc 0 s.time,
      magnitude s.polys (List.range tr.D) 1 t < dblMax ∧
      magnitude s.polys (List.range tr.D) 2 t < dblMax)
    (vMax aMax : ℝ) (hv : 0 < vMax) (ha : 0 < aMax) (A J : ℝ)
    (hA : ∀ s ∈ tr.segments, ∀ t ∈ Icc 0 s.time, magnitude s.polys (List.range tr.D) 2 t ≤ A)
    (hJ : ∀ s ∈ tr.segments, ∀ t ∈ Icc 0 s.time, magnitude s.polys (List.range tr.D) 3 t ≤ J)
    (hAv : A * ε ≤ vMax / 1000) (hJa : J * ε ≤ aMax / 1000) :
    ∃ r, tr.scaleToMeetConstraints rf Real.sqrt vMax aMax = .ok (true, r) :=
  scaleToMeet_accurate rf hε hrf tr h hne hD hN hfin vMax aMax hv ha A J hA hJ hAv hJa

/-- The hypotheses are met by a root finder that is off by a billionth and the two-segment example. -/
example : Approx (1 / 10 ^ 9) (shifted (1 / 10 ^ 9)) ∧ exTrR.WF ∧ exTrR.segments ≠ [] ∧ 0 < exTrR.D ∧
    3 ≤ exTrR.N ∧ (∀ s ∈ exTrR.segments, ∀ t ∈ Icc 0 s.time,
      magnitude s.polys (List.range exTrR.D) 1 t < dblMax ∧
      magnitude s.polys (List.range exTrR.D) 2 t < dblMax) ∧
    (∀ s ∈ exTrR.segments, ∀ t ∈ Icc 0 s.time, magnitude s.polys (List.range exTrR.D) 3 t ≤ 0) := by
  refine ⟨shifted_approx (by norm_num), exTrR_wf, by simp [exTrR], by simp [exTrR], by simp [exTrR],
    exTrR_magnitudes, ?_⟩
  intro s hs t _
  have h3 : ∀ d < s.polys.length, (valuesAt s.polys 3 t).getD d 0 = 0 := by
    intro d hd
    rw [← segValue_eq_valuesAt]
    simp only [segValue, List.getD_eq_getElem?_getD, List.getElem?_map]
    rw [List.getElem?_eq_getElem hd]
    simp only [Option.map_some, Option.getD_some, derivAt]
    have hN : s.polys[d].coeffs.length = 3 := by
      have := (exTrR_wf.wf s hs).polysN _ (List.getElem_mem hd)
      have h2 := exTrR_wf.coeffs s hs
      unfold Poly.N at this
      rw [this, h2]
      rfl
    have : derivative^[3] (ofCoeffs s.polys[d].coeffs) = 0 := by
      ext m
      rw [coeff_iterate_zero _ _ _ (by omega)]
      simp
    rw [this, eval_zero]
  have hD : s.polys.length = 2 := exTrR_wf.dims s hs
  unfold magnitude
  have e : List.range exTrR.D = [0, 1] := rfl
  rw [e]
  simp only [List.map_cons, List.map_nil, h3 0 (by omega), h3 1 (by omega)]
  norm_num

end Verif
