import Verif.Proofs.Magnitude
import Verif.Proofs.TrajectoryReal

/- Helper lemmas: magnitudes under time scaling and `scaleSegmentTimesToMeetConstraints`. -/
set_option linter.unusedSectionVars false

namespace Verif

open Polynomial Spec Set

theorem magnitude_scaleTime (s : Segment ℝ) (ds : List ℕ) (c : ℝ) (hc : 0 < c) (k : ℕ) (t : ℝ) :
    magnitude (s.scaleTime c).polys ds k (c * t) = magnitude s.polys ds k t / c ^ k := by
  unfold magnitude
  rw [← segValue_eq_valuesAt, ← segValue_eq_valuesAt, segValue_scaleTime s c hc.ne']
  have : (ds.map fun d => (((segValue s k t).map (· / c ^ k)).getD d 0) ^ 2) =
      ds.map fun d => ((segValue s k t).getD d 0) ^ 2 * (1 / (c ^ k) ^ 2) := by
    apply List.map_congr_left
    intro d _
    by_cases hd : d < (segValue s k t).length
    · simp [List.getD_eq_getElem?_getD, hd, div_eq_mul_inv, mul_pow]
    · simp [List.getD_eq_getElem?_getD, hd]
  rw [this, List.sum_map_mul_right, Real.sqrt_mul' _ (by positivity), Real.sqrt_div (by norm_num),
    Real.sqrt_one, Real.sqrt_sq (by positivity), mul_one_div]

theorem map_range_getD (v : List ℝ) (n : ℕ) (h : v.length = n) :
    ((List.range n).map fun d => (v.getD d 0) ^ 2) = v.map (· ^ 2) := by
  apply List.ext_getElem
  · simp [h]
  · intro i h1 h2
    have hi : i < v.length := by simpa using h2
    simp [List.getD_eq_getElem?_getD, hi]

/-- Every value at a time of the trajectory is the value of some segment at a time of that segment. -/
theorem evaluate_local (tr : Trajectory ℝ) (h : tr.WF) (hne : tr.segments ≠ []) (k : ℕ) (t : ℝ)
    (h0 : 0 ≤ t) (h1 : t ≤ tr.maxTime) :
    ∃ s ∈ tr.segments, ∃ x ∈ Icc 0 s.time, tr.evaluate t k = .ok (valuesAt s.polys k x) := by
  have hpos : 0 < tr.segments.length := List.length_pos_iff.mpr hne
  rcases h1.eq_or_lt with rfl | h1
  · refine ⟨_, List.getElem_mem (show tr.segments.length - 1 < tr.segments.length by omega), _,
      ⟨?_, le_rfl⟩, ?_⟩
    · exact h.nonneg _ (List.getElem_mem _)
    · rw [evaluate_end tr h hpos, segment_evaluate_ok _ (h.wf _ (List.getElem_mem _)),
        segValue_eq_valuesAt]
  · obtain ⟨i, hi, ha, hb⟩ := exists_segment tr h t h0 h1
    have := times_getElem tr i hi
    refine ⟨_, List.getElem_mem hi, t - startTime tr.getSegmentTimes i, ⟨by linarith, by linarith⟩, ?_⟩
    rw [evaluate_inside tr h i hi t ha hb, segment_evaluate_ok _ (h.wf _ (List.getElem_mem _)),
      segValue_eq_valuesAt]

theorem asInts_range (D : ℕ) : ((List.range D).map fun (i : ℕ) => (i : ℤ)) = asInts (List.range D) := rfl

/-- The maximum over the whole trajectory. -/
theorem maxMagnitude_ok (rf : RootFinder ℝ) (hrf : Complete rf) (tr : Trajectory ℝ) (h : tr.WF)
    (hne : tr.segments ≠ []) (k : ℕ) (hk : k < tr.N) (hk2 : k + 1 < 22) (ds : List ℕ) (hds0 : ds ≠ [])
    (hds : ∀ d ∈ ds, d < tr.D)
    (hfin : ∀ s ∈ tr.segments, ∀ t ∈ Icc 0 s.time, magnitude s.polys ds k t < dblMax)
    (mn0 mx0 : Extremum ℝ) :
    ∃ mn mx, tr.computeMinMaxMagnitude rf Real.sqrt k (asInts ds) mn0 mx0 = .ok (true, mn, mx) ∧
      (∀ s ∈ tr.segments, ∀ t ∈ Icc 0 s.time, magnitude s.polys ds k t ≤ mx.value) ∧
      (2 ≤ ds.length → ∀ s ∈ tr.segments, ∀ t ∈ Icc 0 s.time,
        mn.value ≤ magnitude s.polys ds k t) ∧
      (∀ s ∈ tr.segments, mn.value ≤ magnitude s.polys ds k 0 ∧
        mn.value ≤ magnitude s.polys ds k s.time) ∧
      (∃ hj : mx.segmentIdx < tr.segments.length, mx.time ∈ Icc 0 tr.segments[mx.segmentIdx].time ∧
        mx.value = magnitude tr.segments[mx.segmentIdx].polys ds k mx.time) ∧
      (∃ hj : mn.segmentIdx < tr.segments.length, mn.time ∈ Icc 0 tr.segments[mn.segmentIdx].time ∧
        mn.value = magnitude tr.segments[mn.segmentIdx].polys ds k mn.time) := by
  obtain ⟨mn, mx, h1, h2, h3, h4, h5, h6, h7, h8⟩ := minMaxMagnitudeLoop_ok rf hrf k hk2 ds hds0
    tr.segments (fun s hs => ⟨h.wf s hs, by rw [h.coeffs s hs]; exact hk,
      fun d hd => by rw [h.dims s hs]; exact hds d hd, h.nonneg s hs⟩) hfin 0
    { mn0 with value := dblMax } { mx0 with value := -dblMax }
  have hpos : 0 < tr.segments.length := List.length_pos_iff.mpr hne
  have hs0 := List.getElem_mem hpos
  have hdm : (0 : ℝ) < dblMax := lt_trans (by norm_num) dblMax_gt
  refine ⟨mn, mx, h1, h4, h5, h6, ?_, ?_⟩
  · rcases h7 with h7 | ⟨j, hj, e1, e2, e3⟩
    · have := h4 _ hs0 0 ⟨le_rfl, h.nonneg _ hs0⟩
      rw [h7] at this
      have hn := magnitude_nonneg tr.segments[0].polys ds k 0
      simp only at this
      linarith
    · have e : mx.segmentIdx = j := by omega
      simp only [e]
      exact ⟨hj, e2, e3⟩
  · rcases h8 with h8 | ⟨j, hj, e1, e2, e3⟩
    · have := (h6 _ hs0).1
      rw [h8] at this
      have hn := hfin _ hs0 0 ⟨le_rfl, h.nonneg _ hs0⟩
      simp only at this
      linarith
    · have e : mn.segmentIdx = j := by omega
      simp only [e]
      exact ⟨hj, e2, e3⟩

/-- Finite speeds and accelerations. -/
def FiniteVA (tr : Trajectory ℝ) : Prop :=
  ∀ s ∈ tr.segments, ∀ t ∈ Icc 0 s.time,
    magnitude s.polys (List.range tr.D) 1 t < dblMax ∧ magnitude s.polys (List.range tr.D) 2 t < dblMax

theorem maxVA_ok (rf : RootFinder ℝ) (hrf : Complete rf) (tr : Trajectory ℝ) (h : tr.WF)
    (hne : tr.segments ≠ []) (hD : 0 < tr.D) (hN : 3 ≤ tr.N) (hfin : FiniteVA tr) :
    ∃ v a, tr.maxVelocityAndAcceleration rf Real.sqrt = .ok (true, v, a) ∧ 0 ≤ v ∧ 0 ≤ a ∧
      (∀ s ∈ tr.segments, ∀ t ∈ Icc 0 s.time, magnitude s.polys (List.range tr.D) 1 t ≤ v ∧
        magnitude s.polys (List.range tr.D) 2 t ≤ a) ∧
      (∃ s ∈ tr.segments, ∃ t ∈ Icc 0 s.time, v = magnitude s.polys (List.range tr.D) 1 t) ∧
      (∃ s ∈ tr.segments, ∃ t ∈ Icc 0 s.time, a = magnitude s.polys (List.range tr.D) 2 t) := by
  have hr : List.range tr.D ≠ [] := by
    intro h0; have := congrArg List.length h0; simp at this; omega
  obtain ⟨mn1, mx1, a1, a2, _, _, ⟨a3, a4, a5⟩, _⟩ := maxMagnitude_ok rf hrf tr h hne 1 (by omega)
    (by norm_num) (List.range tr.D) hr (fun d hd => List.mem_range.mp hd)
    (fun s hs t ht => (hfin s hs t ht).1) Extremum.zero Extremum.zero
  obtain ⟨mn2, mx2, b1, b2, _, _, ⟨b3, b4, b5⟩, _⟩ := maxMagnitude_ok rf hrf tr h hne 2 (by omega)
    (by norm_num) (List.range tr.D) hr (fun d hd => List.mem_range.mp hd)
    (fun s hs t ht => (hfin s hs t ht).2) Extremum.zero Extremum.zero
  refine ⟨mx1.value, mx2.value, ?_, ?_, ?_, ?_, ?_, ?_⟩
  · unfold Trajectory.maxVelocityAndAcceleration
    simp only [asInts_range]
    have e1 : tr.computeMinMaxMagnitude rf Real.sqrt 1 (asInts (List.range tr.D)) Extremum.zero
      Extremum.zero = .ok (true, mn1, mx1) := a1
    have e2 : tr.computeMinMaxMagnitude rf Real.sqrt 2 (asInts (List.range tr.D)) Extremum.zero
      Extremum.zero = .ok (true, mn2, mx2) := b1
    rw [e1, e2]
    rfl
  · rw [a5]; exact magnitude_nonneg _ _ _ _
  · rw [b5]; exact magnitude_nonneg _ _ _ _
  · intro s hs t ht
    exact ⟨a2 s hs t ht, b2 s hs t ht⟩
  · exact ⟨_, List.getElem_mem a3, _, a4, a5⟩
  · exact ⟨_, List.getElem_mem b3, _, b4, b5⟩

theorem scaleCore_WF (tr : Trajectory ℝ) (h : tr.WF) (c : ℝ) (hc : 0 < c) : (tr.scaleCore c).WF := by
  have hb := book_scaleCore c (tr := tr) ⟨h.total, fun s hs => ⟨h.dims s hs, h.coeffs s hs⟩⟩
  refine ⟨fun s hs => (hb.2 s hs).1, fun s hs => (hb.2 s hs).2, hb.1, ?_, ?_⟩
  · intro s hs
    obtain ⟨s', hs', rfl⟩ := List.mem_map.mp hs
    exact segment_WF_scaleTime (h.wf s' hs') c
  · intro s hs
    obtain ⟨s', hs', rfl⟩ := List.mem_map.mp hs
    exact mul_nonneg (h.nonneg s' hs') hc.le

/-- Magnitudes of the scaled trajectory are magnitudes of the original one divided by the power. -/
theorem scaleCore_magnitude (tr : Trajectory ℝ) (c : ℝ) (hc : 0 < c) (s : Segment ℝ)
    (hs : s ∈ (tr.scaleCore c).segments) (t : ℝ) (ht : t ∈ Icc 0 s.time) (ds : List ℕ) (k : ℕ) :
    ∃ s' ∈ tr.segments, ∃ x ∈ Icc 0 s'.time,
      magnitude s.polys ds k t = magnitude s'.polys ds k x / c ^ k := by
  obtain ⟨s', hs', rfl⟩ := List.mem_map.mp hs
  have hT : (s'.scaleTime c).time = s'.time * c := rfl
  rw [hT] at ht
  refine ⟨s', hs', t / c, ⟨div_nonneg ht.1 hc.le, by rw [div_le_iff₀ hc]; exact ht.2⟩, ?_⟩
  rw [← magnitude_scaleTime s' ds c hc]
  congr 1
  field_simp

theorem scaleToMeet_ok (rf : RootFinder ℝ) (hrf : Complete rf) (tr : Trajectory ℝ) (h : tr.WF)
    (hne : tr.segments ≠ []) (hD : 0 < tr.D) (hN : 3 ≤ tr.N) (hfin : FiniteVA tr)
    (vMax aMax : ℝ) (hv : 0 < vMax) (ha : 0 < aMax) :
    ∃ r c, tr.scaleToMeetConstraints rf Real.sqrt vMax aMax = .ok (true, r) ∧ 1 ≤ c ∧ r.WF ∧
      r.segments ≠ [] ∧ r.D = tr.D ∧
      r.getSegmentTimes = tr.getSegmentTimes.map (· * c) ∧ r.maxTime = tr.maxTime * c ∧
      (∀ t (k : ℕ), r.evaluate (c * t) k = (fun v => v.map (· / c ^ k)) <$> tr.evaluate t k) ∧
      (∀ s ∈ r.segments, ∀ t ∈ Icc 0 s.time,
        magnitude s.polys (List.range tr.D) 1 t ≤ (1 + 1 / 1000) * vMax ∧
        magnitude s.polys (List.range tr.D) 2 t ≤ (1 + 1 / 1000) * aMax) ∧
      (c = 1 ∨ (∃ s ∈ tr.segments, ∃ t ∈ Icc 0 s.time,
          magnitude s.polys (List.range tr.D) 1 t = c * vMax) ∨
        ∃ s ∈ tr.segments, ∃ t ∈ Icc 0 s.time,
          magnitude s.polys (List.range tr.D) 2 t = c ^ 2 * aMax) := by
  obtain ⟨v, a, h1, hv0, ha0, h2, hva, haa⟩ := maxVA_ok rf hrf tr h hne hD hN hfin
  unfold Trajectory.scaleToMeetConstraints
  by_cases hin : v / vMax ≤ 1 + 1 / 1000 ∧ a / aMax ≤ 1 + 1 / 1000
  · refine ⟨tr, 1, ?_, le_rfl, h, hne, rfl, by simp, by simp, ?_, ?_, .inl rfl⟩
    · rw [scaleToMeetLoop, h1, Res.ok_bind]
      simp only
      rw [if_pos hin]; rfl
    · intro t k
      rw [one_mul]
      cases tr.evaluate t k <;> simp
    · intro s hs t ht
      obtain ⟨g1, g2⟩ := h2 s hs t ht
      rw [div_le_iff₀ hv, div_le_iff₀ ha] at hin
      exact ⟨le_trans g1 hin.1, le_trans g2 hin.2⟩
  · set c := max 1 (max (v / vMax) (Real.sqrt (a / aMax))) with hcdef
    have hc1 : 1 ≤ c := le_max_left _ _
    have hc : 0 < c := by linarith
    have hcv : v / vMax ≤ c := le_trans (le_max_left _ _) (le_max_right _ _)
    have hca : Real.sqrt (a / aMax) ≤ c := le_trans (le_max_right _ _) (le_max_right _ _)
    have hca2 : a / aMax ≤ c ^ 2 := by
      have h0 : 0 ≤ a / aMax := div_nonneg ha0 ha.le
      calc a / aMax = Real.sqrt (a / aMax) ^ 2 := (Real.sq_sqrt h0).symm
        _ ≤ c ^ 2 := pow_le_pow_left₀ (Real.sqrt_nonneg _) hca 2
    rw [div_le_iff₀ hv] at hcv
    rw [div_le_iff₀ ha] at hca2
    have hwf := scaleCore_WF tr h c hc
    have hne' : (tr.scaleCore c).segments ≠ [] := by
      simpa [Trajectory.scaleCore] using hne
    have hmag : ∀ s ∈ (tr.scaleCore c).segments, ∀ t ∈ Icc 0 s.time,
        magnitude s.polys (List.range tr.D) 1 t ≤ vMax ∧
        magnitude s.polys (List.range tr.D) 2 t ≤ aMax := by
      intro s hs t ht
      obtain ⟨s1, hs1, x1, hx1, e1⟩ := scaleCore_magnitude tr c hc s hs t ht (List.range tr.D) 1
      obtain ⟨s2, hs2, x2, hx2, e2⟩ := scaleCore_magnitude tr c hc s hs t ht (List.range tr.D) 2
      rw [e1, e2, div_le_iff₀ (by positivity), div_le_iff₀ (by positivity)]
      have g1 := (h2 s1 hs1 x1 hx1).1
      have g2 := (h2 s2 hs2 x2 hx2).2
      constructor
      · linarith [pow_one c]
      · linarith
    have hfin' : FiniteVA (tr.scaleCore c) := by
      intro s hs t ht
      have hDD : (tr.scaleCore c).D = tr.D := rfl
      rw [hDD]
      obtain ⟨s1, hs1, x1, hx1, e1⟩ := scaleCore_magnitude tr c hc s hs t ht (List.range tr.D) 1
      obtain ⟨s2, hs2, x2, hx2, e2⟩ := scaleCore_magnitude tr c hc s hs t ht (List.range tr.D) 2
      rw [e1, e2]
      have b1 := (hfin s1 hs1 x1 hx1).1
      have b2 := (hfin s2 hs2 x2 hx2).2
      constructor
      · exact lt_of_le_of_lt (div_le_self (magnitude_nonneg _ _ _ _) (one_le_pow₀ hc1)) b1
      · exact lt_of_le_of_lt (div_le_self (magnitude_nonneg _ _ _ _) (one_le_pow₀ hc1)) b2
    obtain ⟨v', a', k1, _, _, _, ⟨s1, hs1, x1, hx1, e1⟩, ⟨s2, hs2, x2, hx2, e2⟩⟩ :=
      maxVA_ok rf hrf (tr.scaleCore c) hwf hne' hD hN hfin'
    refine ⟨tr.scaleCore c, c, ?_, hc1, hwf, hne', rfl, scaleCore_times tr c, ?_,
      fun t k => evaluate_scaleCore tr h.wf c hc t k, ?_, ?_⟩
    · rw [scaleToMeetLoop, h1, Res.ok_bind]
      simp only
      rw [if_neg hin, scaleToMeetLoop, k1, Res.ok_bind]
      simp only
      rw [if_pos]
      · rfl
      · have m1 := (hmag s1 hs1 x1 hx1).1
        have m2 := (hmag s2 hs2 x2 hx2).2
        have e1' : v' = magnitude s1.polys (List.range tr.D) 1 x1 := e1
        have e2' : a' = magnitude s2.polys (List.range tr.D) 2 x2 := e2
        rw [← e1'] at m1
        rw [← e2'] at m2
        rw [div_le_iff₀ hv, div_le_iff₀ ha]
        constructor <;> nlinarith
    · rw [hwf.total, scaleCore_times, List.sum_map_mul_right, h.total]; simp
    · intro s hs t ht
      obtain ⟨g1, g2⟩ := hmag s hs t ht
      constructor <;> nlinarith
    · rcases max_choice 1 (max (v / vMax) (Real.sqrt (a / aMax))) with hm | hm
      · exact .inl (hcdef.trans hm)
      · rcases max_choice (v / vMax) (Real.sqrt (a / aMax)) with hm' | hm'
        · have e : c = v / vMax := by rw [hcdef, hm, hm']
          obtain ⟨s, hs, t, ht, he⟩ := hva
          refine .inr (.inl ⟨s, hs, t, ht, ?_⟩)
          rw [← he, e]
          field_simp
        · have e : c = Real.sqrt (a / aMax) := by rw [hcdef, hm, hm']
          obtain ⟨s, hs, t, ht, he⟩ := haa
          refine .inr (.inr ⟨s, hs, t, ht, ?_⟩)
          rw [← he, e, Real.sq_sqrt (div_nonneg ha0 ha.le)]
          field_simp

end Verif
