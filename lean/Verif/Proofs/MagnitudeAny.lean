import Verif.Proofs.MagnitudeScale

/- What `computeMinMaxMagnitude` delivers whatever the root finder does. -/
set_option linter.unusedSectionVars false

namespace Verif

open Spec Polynomial Set

theorem candidateTimes_any (rf : RootFinder ℝ) (s : Segment ℝ) (h : s.WF) (k : ℕ)
    (hk : k < s.N) (hk2 : k + 1 < 22) (ds : List ℕ) (hne : ds ≠ []) (hds : ∀ d ∈ ds, d < s.D)
    {a b : ℝ} (hab : a ≤ b) :
    ∃ rest, s.candidateTimes rf k a b (asInts ds) = .ok (true, a :: b :: rest) ∧
      (∀ t ∈ a :: b :: rest, t ∈ Icc a b) ∧ ((∀ c, (rf c).2 = []) → rest = []) := by
  match ds, hne with
  | [d], _ =>
    have hd : d < s.polys.length := hds d (by simp)
    have hmem := List.getElem_mem hd
    have hkk : k + 1 < kMaxConvolutionSize := by simpa [kMaxConvolutionSize] using hk2
    obtain ⟨c, cand, _, hdc, hcand, hmemc⟩ := computeMinMaxCandidates_ok rf s.polys[d]
      (h.poly_small hmem) k (by rw [h.polysN _ hmem]; exact hk) hkk hab
    refine ⟨cand, ?_, ?_, ?_⟩
    · simp only [asInts, List.map_cons, List.map_nil, Segment.candidateTimes]
      rw [if_neg (by omega), Int.toNat_natCast, Res.at'_of_lt hd, Res.ok_bind, hcand]
    · apply cand_inside hab
      intro x hx
      exact ⟨((hmemc x).mp hx).1, ((hmemc x).mp hx).2.1⟩
    · intro h0
      apply List.eq_nil_iff_forall_not_mem.mpr
      intro x hx
      obtain ⟨-, -, im, h1, -⟩ := (hmemc x).mp hx
      rw [h0] at h1
      simp at h1
  | d1 :: d2 :: ds, _ =>
    obtain ⟨c, hc, lc, ec⟩ := convolvedLoop_ok s h k hk hk2 (d1 :: d2 :: ds) hds
      (List.replicate ((s.N - k) + (s.N - k - 1) - 1) 0) (by simp)
    obtain ⟨cand, hcand, hmemc⟩ := candidates_some hab (rf c).2
    refine ⟨cand, ?_, ?_, ?_⟩
    · simp only [asInts, List.map_cons, Segment.candidateTimes]
      rw [if_neg (by omega)]
      have e1 : ((s.N : ℤ) - k).toNat = s.N - k := by omega
      have e2 : ((s.N : ℤ) - k - 1).toNat = s.N - k - 1 := by omega
      have e3 : ((s.N : ℤ) - k + ((s.N : ℤ) - k - 1) - 1).toNat =
          (s.N - k) + (s.N - k - 1) - 1 := by omega
      rw [e1, e2, e3]
      simp only [asInts, List.map_cons] at hc
      rw [hc, Res.ok_bind]
      simp only [Poly.computeMinMaxCandidates, Poly.getRoots, Poly.getCoefficients]
      rw [if_neg (by simp [Poly.N])]
      simp [hcand]
    · apply cand_inside hab
      intro x hx
      exact ⟨((hmemc x).mp hx).1, ((hmemc x).mp hx).2.1⟩
    · intro h0
      apply List.eq_nil_iff_forall_not_mem.mpr
      intro x hx
      obtain ⟨-, -, im, h1, -⟩ := (hmemc x).mp hx
      rw [h0] at h1
      simp at h1

theorem magnitudeCandidates_any (rf : RootFinder ℝ) (s : Segment ℝ) (h : s.WF)
    (k : ℕ) (hk : k < s.N) (hk2 : k + 1 < 22) (ds : List ℕ) (hne : ds ≠ [])
    (hds : ∀ d ∈ ds, d < s.D) {a b : ℝ} (hab : a ≤ b) :
    ∃ rest, s.magnitudeCandidates rf Real.sqrt k a b (asInts ds) =
        .ok (true, (a :: b :: rest).map fun t => ⟨t, magnitude s.polys ds k t, 0⟩) ∧
      (∀ t ∈ a :: b :: rest, t ∈ Icc a b) ∧ ((∀ c, (rf c).2 = []) → rest = []) := by
  obtain ⟨rest, h1, h2, h3⟩ := candidateTimes_any rf s h k hk hk2 ds hne hds hab
  refine ⟨rest, ?_, h2, h3⟩
  unfold Segment.magnitudeCandidates
  rw [h1, Res.ok_bind]
  rw [Res.mapM_ok (g := fun t => (⟨t, magnitude s.polys ds k t, 0⟩ : Extremum ℝ))]
  · rfl
  · intro t _
    rw [squares_ok s h ds hds, Res.ok_bind, zero_add, magnitude_eq s ds hds]
    rfl

theorem minMaxMagnitudeLoop_any (rf : RootFinder ℝ) (k : ℕ) (hk2 : k + 1 < 22)
    (ds : List ℕ) (hne : ds ≠ []) (segs : List (Segment ℝ))
    (hw : ∀ s ∈ segs, s.WF ∧ k < s.N ∧ (∀ d ∈ ds, d < s.D) ∧ 0 ≤ s.time)
    (hfin : ∀ s ∈ segs, magnitude s.polys ds k 0 < dblMax)
    (i : ℕ) (mn0 mx0 : Extremum ℝ) :
    ∃ mn mx, minMaxMagnitudeLoop rf Real.sqrt k (asInts ds) segs i mn0 mx0 = .ok (true, mn, mx) ∧
      mx0.value ≤ mx.value ∧ mn.value ≤ mn0.value ∧
      (∀ s ∈ segs, mn.value ≤ magnitude s.polys ds k 0 ∧ mn.value ≤ magnitude s.polys ds k s.time ∧
        magnitude s.polys ds k 0 ≤ mx.value ∧ magnitude s.polys ds k s.time ≤ mx.value) ∧
      (mx = mx0 ∨ ∃ j, ∃ hj : j < segs.length, mx.segmentIdx = i + j ∧
        mx.time ∈ Icc 0 segs[j].time ∧ mx.value = magnitude segs[j].polys ds k mx.time ∧
        ((∀ c, (rf c).2 = []) → mx.time = 0 ∨ mx.time = segs[j].time)) ∧
      (mn = mn0 ∨ ∃ j, ∃ hj : j < segs.length, mn.segmentIdx = i + j ∧
        mn.time ∈ Icc 0 segs[j].time ∧ mn.value = magnitude segs[j].polys ds k mn.time) := by
  induction segs generalizing i mn0 mx0 with
  | nil =>
    exact ⟨mn0, mx0, rfl, le_rfl, le_rfl, by simp, Or.inl rfl, Or.inl rfl⟩
  | cons s ss ih =>
    obtain ⟨ws, hks, hdss, hT⟩ := hw s (by simp)
    obtain ⟨rest, hcand, hin, hnil⟩ := magnitudeCandidates_any rf s ws k hks hk2 ds hne hdss hT
    have hf : -dblMax < magnitude s.polys ds k 0 ∧ magnitude s.polys ds k 0 < dblMax := by
      refine ⟨?_, hfin s (by simp)⟩
      have h1 := magnitude_nonneg s.polys ds k 0
      have h2 : (0 : ℝ) < dblMax := lt_trans (by norm_num) dblMax_gt
      linarith
    obtain ⟨tm, htm, tM, htM, hsel, hbound⟩ := selectMinMaxMagnitude_ok
      (fun t => magnitude s.polys ds k t) hT (0 :: s.time :: rest) hin 0 (by simp) hf
      Extremum.zero Extremum.zero
    set mn1 : Extremum ℝ := if magnitude s.polys ds k tm < mn0.value then
      ⟨tm, magnitude s.polys ds k tm, i⟩ else mn0 with hmn1
    set mx1 : Extremum ℝ := if magnitude s.polys ds k tM > mx0.value then
      ⟨tM, magnitude s.polys ds k tM, i⟩ else mx0 with hmx1
    obtain ⟨mn, mx, hrun, g1, g2, g5, g6, g7⟩ := ih (fun x hx => hw x (by simp [hx]))
      (fun x hx => hfin x (by simp [hx])) (i + 1) mn1 mx1
    have c1 : mn1.value ≤ mn0.value := by
      rw [hmn1]; split
      · exact le_of_lt (by assumption)
      · exact le_rfl
    have c2 : mn1.value ≤ magnitude s.polys ds k tm := by
      rw [hmn1]; split
      · exact le_rfl
      · exact not_lt.mp (by assumption)
    have c3 : mx0.value ≤ mx1.value := by
      rw [hmx1]; split
      · exact le_of_lt (by assumption)
      · exact le_rfl
    have c4 : magnitude s.polys ds k tM ≤ mx1.value := by
      rw [hmx1]; split
      · exact le_rfl
      · exact not_lt.mp (by assumption)
    refine ⟨mn, mx, ?_, le_trans c3 g1, le_trans g2 c1, ?_, ?_, ?_⟩
    · simp only [minMaxMagnitudeLoop, hcand, Res.ok_bind, hsel, Bool.not_true]
      exact hrun
    · intro x hx
      rcases List.mem_cons.mp hx with rfl | hx
      · have b0 := hbound 0 (by simp)
        have b1 := hbound x.time (by simp)
        exact ⟨le_trans (le_trans g2 c2) b0.1, le_trans (le_trans g2 c2) b1.1,
          le_trans b0.2 (le_trans c4 g1), le_trans b1.2 (le_trans c4 g1)⟩
      · exact g5 x hx
    · rcases g6 with g6 | ⟨j, hj, e1, e2, e3, e4⟩
      · rw [hmx1] at g6
        split at g6
        · right
          refine ⟨0, by simp, ?_, ?_, ?_, ?_⟩
          · rw [g6]; rfl
          · rw [g6]; exact hin tM htM
          · rw [g6]; rfl
          · intro h0
            rw [hnil h0] at htM
            rw [g6]
            simpa using htM
        · left; exact g6
      · right
        refine ⟨j + 1, by simpa using hj, by rw [e1]; omega, by simpa using e2, by simpa using e3,
          by simpa using e4⟩
    · rcases g7 with g7 | ⟨j, hj, e1, e2, e3⟩
      · rw [hmn1] at g7
        split at g7
        · right
          refine ⟨0, by simp, ?_, ?_, ?_⟩
          · rw [g7]; rfl
          · rw [g7]; exact hin tm htm
          · rw [g7]; rfl
        · left; exact g7
      · right
        refine ⟨j + 1, by simpa using hj, by rw [e1]; omega, by simpa using e2, by simpa using e3⟩

/-- The loop never returns false if no duration is negative. -/
theorem minMaxMagnitudeLoop_flag (rf : RootFinder ℝ) (k : ℤ) (dims : List ℤ) (segs : List (Segment ℝ))
    (hT : ∀ s ∈ segs, 0 ≤ s.time) (i : ℕ) (mn0 mx0 : Extremum ℝ) {r : Bool × Extremum ℝ × Extremum ℝ}
    (h : minMaxMagnitudeLoop rf Real.sqrt k dims segs i mn0 mx0 = .ok r) : r.1 = true := by
  induction segs generalizing i mn0 mx0 with
  | nil => unfold minMaxMagnitudeLoop at h; cases h; rfl
  | cons s ss ih =>
    unfold minMaxMagnitudeLoop at h
    rw [Res.bind_eq_ok] at h
    obtain ⟨c, hc, h⟩ := h
    have hc1 : c.1 = true := by
      unfold Segment.magnitudeCandidates at hc
      rw [Res.bind_eq_ok] at hc
      obtain ⟨ct, -, hc⟩ := hc
      rw [Res.bind_eq_ok] at hc
      obtain ⟨es, -, hc⟩ := hc
      cases hc
      rfl
    rw [hc1] at h
    have hsel : (selectMinMaxMagnitude 0 s.time c.2 Extremum.zero Extremum.zero).1 = true := by
      unfold selectMinMaxMagnitude
      rw [if_neg (not_lt.mpr (hT s (by simp)))]
    dsimp only at h
    rw [hsel] at h
    simp only [Bool.not_true, Bool.false_eq_true, if_false] at h
    exact ih (fun x hx => hT x (by simp [hx])) _ _ _ h

/-- Segments without candidates leave the outputs as they are. -/
theorem minMaxMagnitudeLoop_none (rf : RootFinder ℝ) (k : ℤ) (dims : List ℤ) (segs : List (Segment ℝ))
    (hT : ∀ s ∈ segs, 0 ≤ s.time)
    (hc : ∀ s ∈ segs, s.candidateTimes rf k 0 s.time dims = .ok (false, [])) (i : ℕ)
    (mn0 mx0 : Extremum ℝ) (hmn : mn0.value = dblMax) (hmx : mx0.value = -dblMax) :
    minMaxMagnitudeLoop rf Real.sqrt k dims segs i mn0 mx0 = .ok (true, mn0, mx0) := by
  induction segs generalizing i with
  | nil => rfl
  | cons s ss ih =>
    unfold minMaxMagnitudeLoop Segment.magnitudeCandidates
    rw [hc s (by simp)]
    simp only [Res.ok_bind, List.mapM_nil, Res.pure_eq, Bool.not_true, Bool.false_eq_true, if_false,
      selectMinMaxMagnitude, if_neg (not_lt.mpr (hT s (by simp))), List.foldl_nil, Extremum.zero, hmn, hmx,
      lt_irrefl, gt_iff_lt]
    exact ih (fun x hx => hT x (by simp [hx])) (fun x hx => hc x (by simp [hx])) (i + 1)

end Verif
