import Verif.Proofs.MagnitudeAny

/- Magnitudes of derivatives of an order not below the number of coefficients, and scaling of trajectories of one
dimension with few coefficients. -/
namespace Verif

open Polynomial Spec Set

set_option linter.unusedSectionVars false

/-- What the scaling needs to know of `computeMaxVelocityAndAcceleration`: the two numbers are upper bounds, each
attained or negative. -/
def MaxVA (rf : RootFinder ℝ) (tr : Trajectory ℝ) : Prop :=
  ∃ v a, tr.maxVelocityAndAcceleration rf Real.sqrt = .ok (true, v, a) ∧
    (∀ s ∈ tr.segments, ∀ t ∈ Icc 0 s.time, magnitude s.polys (List.range tr.D) 1 t ≤ max v 0 ∧
      magnitude s.polys (List.range tr.D) 2 t ≤ max a 0) ∧
    (v < 0 ∨ ∃ s ∈ tr.segments, ∃ t ∈ Icc 0 s.time, v = magnitude s.polys (List.range tr.D) 1 t) ∧
    (a < 0 ∨ ∃ s ∈ tr.segments, ∃ t ∈ Icc 0 s.time, a = magnitude s.polys (List.range tr.D) 2 t)

theorem scaleToMeet_of (rf : RootFinder ℝ) (tr : Trajectory ℝ) (h : tr.WF)
    (hne : tr.segments ≠ []) (hfin : FiniteVA tr)
    (hmax : ∀ tr' : Trajectory ℝ, tr'.WF → tr'.segments ≠ [] → tr'.D = tr.D → tr'.N = tr.N → FiniteVA tr' →
      MaxVA rf tr')
    (vMax aMax : ℝ) (hv : 0 < vMax) (ha : 0 < aMax) :
    ∃ r c, tr.scaleToMeetConstraints rf Real.sqrt vMax aMax = .ok (true, r) ∧ 1 ≤ c ∧ r.WF ∧
      r.segments ≠ [] ∧ r.D = tr.D ∧
      r.getSegmentTimes = tr.getSegmentTimes.map (· * c) ∧ r.maxTime = tr.maxTime * c ∧
      (∀ t (k : ℕ), r.evaluate (c * t) k = (fun v => v.map (· / c ^ k)) <$> tr.evaluate t k) ∧
      (∀ s ∈ r.segments, ∀ t ∈ Icc 0 s.time,
        magnitude s.polys (List.range tr.D) 1 t ≤ (1 + 1 / 1000) * vMax ∧
        magnitude s.polys (List.range tr.D) 2 t ≤ (1 + 1 / 1000) * aMax) ∧
      (c = 1 ∨ (∃ s ∈ tr.segments, ∃ t ∈ Icc 0 s.time,
          magnitude s.polys (List.range tr.D) 1 t = c * vMax) ∨
        ∃ s ∈ tr.segments, ∃ t ∈ Icc 0 s.time,
          magnitude s.polys (List.range tr.D) 2 t = c ^ 2 * aMax) := by
  obtain ⟨v, a, h1, h2, hva, haa⟩ := hmax tr h hne rfl rfl hfin
  unfold Trajectory.scaleToMeetConstraints
  by_cases hin : v / vMax ≤ 1 + 1 / 1000 ∧ a / aMax ≤ 1 + 1 / 1000
  · refine ⟨tr, 1, ?_, le_rfl, h, hne, rfl, by simp, by simp, ?_, ?_, .inl rfl⟩
    · rw [scaleToMeetLoop, h1, Res.ok_bind]
      simp only
      rw [if_pos hin]; rfl
    · intro t k
      rw [one_mul]
      cases tr.evaluate t k <;> simp
    · intro s hs t ht
      obtain ⟨g1, g2⟩ := h2 s hs t ht
      rw [div_le_iff₀ hv, div_le_iff₀ ha] at hin
      exact ⟨le_trans g1 (max_le hin.1 (by positivity)), le_trans g2 (max_le hin.2 (by positivity))⟩
  · set c := max 1 (max (v / vMax) (Real.sqrt (a / aMax))) with hcdef
    have hc1 : 1 ≤ c := le_max_left _ _
    have hc : 0 < c := by linarith
    have hcv : v / vMax ≤ c := le_trans (le_max_left _ _) (le_max_right _ _)
    have hca : Real.sqrt (a / aMax) ≤ c := le_trans (le_max_right _ _) (le_max_right _ _)
    have hca2 : a / aMax ≤ c ^ 2 := by
      rcases lt_or_ge (a / aMax) 0 with h0 | h0
      · exact le_trans h0.le (by positivity)
      calc a / aMax = Real.sqrt (a / aMax) ^ 2 := (Real.sq_sqrt h0).symm
        _ ≤ c ^ 2 := pow_le_pow_left₀ (Real.sqrt_nonneg _) hca 2
    rw [div_le_iff₀ hv] at hcv
    rw [div_le_iff₀ ha] at hca2
    have hwf := scaleCore_WF tr h c hc
    have hne' : (tr.scaleCore c).segments ≠ [] := by
      simpa [Trajectory.scaleCore] using hne
    have hmag : ∀ s ∈ (tr.scaleCore c).segments, ∀ t ∈ Icc 0 s.time,
        magnitude s.polys (List.range tr.D) 1 t ≤ vMax ∧
        magnitude s.polys (List.range tr.D) 2 t ≤ aMax := by
      intro s hs t ht
      obtain ⟨s1, hs1, x1, hx1, e1⟩ := scaleCore_magnitude tr c hc s hs t ht (List.range tr.D) 1
      obtain ⟨s2, hs2, x2, hx2, e2⟩ := scaleCore_magnitude tr c hc s hs t ht (List.range tr.D) 2
      rw [e1, e2, div_le_iff₀ (by positivity), div_le_iff₀ (by positivity)]
      have g1 := (h2 s1 hs1 x1 hx1).1
      have g2 := (h2 s2 hs2 x2 hx2).2
      constructor
      · refine le_trans g1 (max_le ?_ (by positivity))
        linarith [pow_one c]
      · refine le_trans g2 (max_le ?_ (by positivity))
        linarith
    have hfin' : FiniteVA (tr.scaleCore c) := by
      intro s hs t ht
      have hDD : (tr.scaleCore c).D = tr.D := rfl
      rw [hDD]
      obtain ⟨s1, hs1, x1, hx1, e1⟩ := scaleCore_magnitude tr c hc s hs t ht (List.range tr.D) 1
      obtain ⟨s2, hs2, x2, hx2, e2⟩ := scaleCore_magnitude tr c hc s hs t ht (List.range tr.D) 2
      rw [e1, e2]
      have b1 := (hfin s1 hs1 x1 hx1).1
      have b2 := (hfin s2 hs2 x2 hx2).2
      constructor
      · exact lt_of_le_of_lt (div_le_self (magnitude_nonneg _ _ _ _) (one_le_pow₀ hc1)) b1
      · exact lt_of_le_of_lt (div_le_self (magnitude_nonneg _ _ _ _) (one_le_pow₀ hc1)) b2
    obtain ⟨v', a', k1, _, w1, w2⟩ := hmax (tr.scaleCore c) hwf hne' rfl rfl hfin'
    refine ⟨tr.scaleCore c, c, ?_, hc1, hwf, hne', rfl, scaleCore_times tr c, ?_,
      fun t k => evaluate_scaleCore tr h.wf c hc t k, ?_, ?_⟩
    · rw [scaleToMeetLoop, h1, Res.ok_bind]
      simp only
      rw [if_neg hin, scaleToMeetLoop, k1, Res.ok_bind]
      simp only
      rw [if_pos]
      · rfl
      · rw [div_le_iff₀ hv, div_le_iff₀ ha]
        constructor
        · rcases w1 with w1 | ⟨s1, hs1, x1, hx1, e1⟩
          · nlinarith
          · have m1 := (hmag s1 hs1 x1 hx1).1
            have e1' : v' = magnitude s1.polys (List.range tr.D) 1 x1 := e1
            rw [← e1'] at m1
            nlinarith
        · rcases w2 with w2 | ⟨s2, hs2, x2, hx2, e2⟩
          · nlinarith
          · have m2 := (hmag s2 hs2 x2 hx2).2
            have e2' : a' = magnitude s2.polys (List.range tr.D) 2 x2 := e2
            rw [← e2'] at m2
            nlinarith
    · rw [hwf.total, scaleCore_times, List.sum_map_mul_right, h.total]; simp
    · intro s hs t ht
      obtain ⟨g1, g2⟩ := hmag s hs t ht
      constructor <;> nlinarith
    · rcases max_choice 1 (max (v / vMax) (Real.sqrt (a / aMax))) with hm | hm
      · exact .inl (hcdef.trans hm)
      · rcases max_choice (v / vMax) (Real.sqrt (a / aMax)) with hm' | hm'
        · have e : c = v / vMax := by rw [hcdef, hm, hm']
          rcases hva with hva | ⟨s, hs, t, ht, he⟩
          · have : v / vMax < 0 := div_neg_of_neg_of_pos hva hv
            linarith
          refine .inr (.inl ⟨s, hs, t, ht, ?_⟩)
          rw [← he, e]
          field_simp
        · have e : c = Real.sqrt (a / aMax) := by rw [hcdef, hm, hm']
          rcases haa with haa | ⟨s, hs, t, ht, he⟩
          · have : Real.sqrt (a / aMax) = 0 := Real.sqrt_eq_zero_of_nonpos (div_neg_of_neg_of_pos haa ha).le
            linarith
          refine .inr (.inr ⟨s, hs, t, ht, ?_⟩)
          have ha0 : 0 ≤ a := by rw [he]; exact magnitude_nonneg _ _ _ _
          rw [← he, e, Real.sq_sqrt (div_nonneg ha0 ha.le)]
          field_simp


/-- With one dimension and an order not below the number of coefficients nothing is found. -/
theorem minMaxMagnitude_short (rf : RootFinder ℝ) (tr : Trajectory ℝ) (h : tr.WF) (hD : 0 < tr.D) (k : ℕ)
    (hk : tr.N ≤ k) (d : ℕ) (hd : d < tr.D) (mn0 mx0 : Extremum ℝ) :
    tr.computeMinMaxMagnitude rf Real.sqrt k [(d : ℤ)] mn0 mx0 =
      .ok (true, { mn0 with value := dblMax }, { mx0 with value := -dblMax }) := by
  refine minMaxMagnitudeLoop_none rf k _ tr.segments h.nonneg (fun s hs => ?_) 0 _ _ rfl rfl
  have hl : d < s.polys.length := by
    have := h.dims s hs
    unfold Segment.D at this
    omega
  unfold Segment.candidateTimes
  dsimp only
  rw [if_neg (by omega), Int.toNat_natCast, Res.at'_of_lt hl, Res.ok_bind]
  unfold Poly.computeMinMaxCandidates
  rw [if_pos]
  have h1 : (s.polys[d]'hl).N = s.N := (h.wf s hs).polysN _ (List.getElem_mem _)
  rw [h1, h.coeffs s hs]
  omega

/-- The derivatives of an order not below the number of coefficients vanish. -/
theorem magnitude_short (tr : Trajectory ℝ) (h : tr.WF) (k : ℕ) (hk : tr.N ≤ k) (ds : List ℕ) (s : Segment ℝ)
    (hs : s ∈ tr.segments) (t : ℝ) : magnitude s.polys ds k t = 0 := by
  unfold magnitude
  have e : ∀ d, (valuesAt s.polys k t).getD d 0 = 0 := by
    intro d
    by_cases hd : d < s.polys.length
    · have h1 : (s.polys[d]'hd).coeffs.length = s.N := (h.wf s hs).polysN _ (List.getElem_mem _)
      rw [← segValue_eq_valuesAt s]
      unfold segValue
      rw [List.getD_eq_getElem?_getD, List.getElem?_map, List.getElem?_eq_getElem hd, Option.map_some,
        Option.getD_some, derivAt_eq_sum]
      refine Finset.sum_eq_zero fun i hi => ?_
      rw [Finset.mem_range, h1, h.coeffs s hs] at hi
      rw [Nat.descFactorial_of_lt (by omega)]
      simp
    · rw [List.getD_eq_getElem?_getD, List.getElem?_eq_none, Option.getD_none]
      unfold valuesAt
      rw [List.length_map]
      omega
  have : (ds.map fun d => (valuesAt s.polys k t).getD d 0 ^ 2).sum = 0 := by
    rw [List.sum_eq_zero]
    intro x hx
    obtain ⟨d, _, rfl⟩ := List.mem_map.mp hx
    rw [e]; norm_num
  rw [this, Real.sqrt_zero]

theorem maxVA_short (rf : RootFinder ℝ) (hrf : Complete rf) (tr : Trajectory ℝ) (h : tr.WF)
    (hne : tr.segments ≠ []) (hD : tr.D = 1) (hN : tr.N ≤ 2) (hfin : FiniteVA tr) : MaxVA rf tr := by
  have hdm : (0 : ℝ) < dblMax := lt_trans (by norm_num) dblMax_gt
  have hr : List.range tr.D = [0] := by rw [hD]; rfl
  have ea := minMaxMagnitude_short rf tr h (by omega) 2 hN 0 (by omega) Extremum.zero Extremum.zero
  simp only [Nat.cast_ofNat, Nat.cast_zero] at ea
  by_cases h1 : tr.N ≤ 1
  · have ev := minMaxMagnitude_short rf tr h (by omega) 1 h1 0 (by omega) Extremum.zero Extremum.zero
    simp only [Nat.cast_one, Nat.cast_zero] at ev
    refine ⟨-dblMax, -dblMax, ?_, ?_, .inl (by linarith), .inl (by linarith)⟩
    · unfold Trajectory.maxVelocityAndAcceleration
      simp only [hr, List.map_cons, List.map_nil, Nat.cast_zero]
      rw [ev, ea]
      rfl
    · intro s hs t _
      rw [magnitude_short tr h 1 h1 _ s hs, magnitude_short tr h 2 hN _ s hs]
      exact ⟨le_max_right _ _, le_max_right _ _⟩
  · obtain ⟨mn1, mx1, a1, a2, _, _, ⟨a3, a4, a5⟩, _⟩ := maxMagnitude_ok rf hrf tr h hne 1 (by omega)
      (by norm_num) [0] (by simp) (by simp [hD])
      (fun s hs t ht => by have := (hfin s hs t ht).1; rwa [hr] at this) Extremum.zero Extremum.zero
    refine ⟨mx1.value, -dblMax, ?_, ?_, .inr ⟨_, List.getElem_mem a3, _, a4, by rw [hr]; exact a5⟩,
      .inl (by linarith)⟩
    · unfold Trajectory.maxVelocityAndAcceleration
      simp only [hr, List.map_cons, List.map_nil, Nat.cast_zero]
      have e1 : tr.computeMinMaxMagnitude rf Real.sqrt 1 [0] Extremum.zero
        Extremum.zero = .ok (true, mn1, mx1) := a1
      rw [e1, ea]
      rfl
    · intro s hs t ht
      rw [magnitude_short tr h 2 hN _ s hs, hr]
      exact ⟨le_trans (a2 s hs t ht) (le_max_left _ _), le_max_right _ _⟩

end Verif
