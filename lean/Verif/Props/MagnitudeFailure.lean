import Verif.Proofs.MagnitudeAny
import Verif.Props.Magnitude

/-
Property C85: failures of `computeMinMaxMagnitude` and `computeMaxVelocityAndAcceleration` are reported, and what
is reported is genuine. `Spec.magnitude` is the norm of a derivative.
-/
set_option linter.unusedSectionVars false

namespace Verif

open Spec Set

/-! ### C85 failures of the search for extrema -/

/-- **C85**, partial. Whatever the root finder returns, for existing dimensions the reported minimum and maximum
are the magnitudes at the reported times of the reported segments, and the magnitudes at both ends of every
segment lie between them. Missing: nothing is reported if the root finder fails (`C85_root_failure_false`) or the
dimensions do not exist (`C85_no_dimensions_false`, `C85_out_of_range_false`). -/
theorem C85_attained_partial (rf : RootFinder ℝ) (tr : Trajectory ℝ) (h : tr.WF) (hne : tr.segments ≠ [])
    (k : ℕ) (hk : k < tr.N) (hk2 : k + 1 < 22) (ds : List ℕ) (hds0 : ds ≠ []) (hds : ∀ d ∈ ds, d < tr.D)
    (hfin : ∀ s ∈ tr.segments, magnitude s.polys ds k 0 < dblMax) (mn0 mx0 : Extremum ℝ) :
    ∃ mn mx, tr.computeMinMaxMagnitude rf Real.sqrt k (ds.map fun (d : ℕ) => (d : ℤ)) mn0 mx0 =
        .ok (true, mn, mx) ∧
      (∃ hj : mx.segmentIdx < tr.segments.length, mx.time ∈ Icc 0 tr.segments[mx.segmentIdx].time ∧
        mx.value = magnitude tr.segments[mx.segmentIdx].polys ds k mx.time) ∧
      (∃ hj : mn.segmentIdx < tr.segments.length, mn.time ∈ Icc 0 tr.segments[mn.segmentIdx].time ∧
        mn.value = magnitude tr.segments[mn.segmentIdx].polys ds k mn.time) ∧
      ∀ s ∈ tr.segments, mn.value ≤ magnitude s.polys ds k 0 ∧ mn.value ≤ magnitude s.polys ds k s.time ∧
        magnitude s.polys ds k 0 ≤ mx.value ∧ magnitude s.polys ds k s.time ≤ mx.value := by
  obtain ⟨mn, mx, h1, h2, h3, h4, h5, h6⟩ := minMaxMagnitudeLoop_any rf k hk2 ds hds0
    tr.segments (fun s hs => ⟨h.wf s hs, by rw [h.coeffs s hs]; exact hk,
      fun d hd => by rw [h.dims s hs]; exact hds d hd, h.nonneg s hs⟩) hfin 0
    { mn0 with value := dblMax } { mx0 with value := -dblMax }
  have hpos : 0 < tr.segments.length := List.length_pos_iff.mpr hne
  have hs0 := List.getElem_mem hpos
  have hdm : (0 : ℝ) < dblMax := lt_trans (by norm_num) dblMax_gt
  refine ⟨mn, mx, h1, ?_, ?_, h4⟩
  · rcases h5 with h5 | ⟨j, hj, e1, e2, e3, -⟩
    · have := (h4 _ hs0).2.2.1
      rw [h5] at this
      have hn := magnitude_nonneg tr.segments[0].polys ds k 0
      simp only at this
      linarith
    · have e : mx.segmentIdx = j := by omega
      simp only [e]
      exact ⟨hj, e2, e3⟩
  · rcases h6 with h6 | ⟨j, hj, e1, e2, e3⟩
    · have := (h4 _ hs0).1
      rw [h6] at this
      have hn := hfin _ hs0
      simp only at this
      linarith
    · have e : mn.segmentIdx = j := by omega
      simp only [e]
      exact ⟨hj, e2, e3⟩

example : exTrR.WF ∧ exTrR.segments ≠ [] ∧ 1 < exTrR.N ∧ ([0, 1] : List ℕ) ≠ [] ∧
    (∀ d ∈ ([0, 1] : List ℕ), d < exTrR.D) ∧
    ∀ s ∈ exTrR.segments, magnitude s.polys [0, 1] 1 0 < dblMax :=
  ⟨exTrR_wf, by simp [exTrR], by simp [exTrR], by simp, by simp [exTrR], fun s hs =>
    (exTrR_magnitudes s hs 0 ⟨le_rfl, exTrR_wf.nonneg s hs⟩).1⟩

/-- **C85**, refuted: `computeMinMaxMagnitude` never returns false, for no arguments and no root finder, unless a
duration is negative. -/
theorem C85_flag_false (rf : RootFinder ℝ) (tr : Trajectory ℝ) (h : tr.WF) (k : ℤ) (dims : List ℤ)
    (mn0 mx0 : Extremum ℝ) {r : Bool × Extremum ℝ × Extremum ℝ}
    (hr : tr.computeMinMaxMagnitude rf Real.sqrt k dims mn0 mx0 = .ok r) : r.1 = true :=
  minMaxMagnitudeLoop_flag rf k dims tr.segments h.nonneg 0 _ _ hr

/-- **C85**, refuted: without dimensions (for every trajectory) the call returns true and reports the largest
`double` as minimum and the lowest as maximum. -/
theorem C85_no_dimensions_false (rf : RootFinder ℝ) (tr : Trajectory ℝ) (h : tr.WF) (k : ℤ)
    (mn0 mx0 : Extremum ℝ) :
    tr.computeMinMaxMagnitude rf Real.sqrt k [] mn0 mx0 =
      .ok (true, { mn0 with value := dblMax }, { mx0 with value := -dblMax }) :=
  minMaxMagnitudeLoop_none rf k [] tr.segments h.nonneg (fun _ _ => rfl) 0 _ _ rfl rfl

/-- **C85**, refuted: so it does for several dimensions the first of which does not exist. -/
theorem C85_out_of_range_false (rf : RootFinder ℝ) (tr : Trajectory ℝ) (h : tr.WF) (k : ℕ) (hk : k < tr.N)
    (d d' : ℤ) (ds : List ℤ) (hd : d < 0 ∨ d ≥ tr.D) (mn0 mx0 : Extremum ℝ) :
    tr.computeMinMaxMagnitude rf Real.sqrt k (d :: d' :: ds) mn0 mx0 =
      .ok (true, { mn0 with value := dblMax }, { mx0 with value := -dblMax }) := by
  refine minMaxMagnitudeLoop_none rf k _ tr.segments h.nonneg (fun s hs => ?_) 0 _ _ rfl rfl
  unfold Segment.candidateTimes
  have hN := h.coeffs s hs
  dsimp only
  rw [if_neg (by omega), convolvedLoop, if_pos (by rw [h.dims s hs]; exact hd)]
  rfl

/-- **C85**, refuted: for a single dimension that does not exist the behaviour is undefined. -/
theorem C85_single_out_of_range_false (rf : RootFinder ℝ) (tr : Trajectory ℝ) (h : tr.WF)
    (hne : tr.segments ≠ []) (k d : ℤ) (hd : d < 0 ∨ d ≥ tr.D) (mn0 mx0 : Extremum ℝ) :
    tr.computeMinMaxMagnitude rf Real.sqrt k [d] mn0 mx0 = .ub := by
  unfold Trajectory.computeMinMaxMagnitude
  match hs : tr.segments with
  | [] => exact absurd hs hne
  | s :: ss =>
    have hD : s.polys.length = tr.D := h.dims s (by rw [hs]; simp)
    unfold minMaxMagnitudeLoop Segment.magnitudeCandidates Segment.candidateTimes
    dsimp only
    by_cases hd0 : d < 0
    · rw [if_pos hd0]
      rfl
    · rw [if_neg hd0, Res.at'_of_ge (by omega)]
      rfl

/-- **C85**, refuted: if the root finder reports failure (and no roots), nobody notices: when velocity and
acceleration at the ends of the segments are within the limits, `scaleSegmentTimesToMeetConstraints` returns true
and changes nothing. -/
theorem C85_root_failure_false (rf : RootFinder ℝ) (hrf : ∀ c, rf c = (false, [])) (tr : Trajectory ℝ)
    (h : tr.WF) (hne : tr.segments ≠ []) (hD : 0 < tr.D) (hN : 3 ≤ tr.N) {vMax aMax : ℝ} (hv : 0 < vMax)
    (ha : 0 < aMax) (hv2 : vMax < dblMax) (ha2 : aMax < dblMax)
    (hends : ∀ s ∈ tr.segments, ∀ t, t = 0 ∨ t = s.time →
      magnitude s.polys (List.range tr.D) 1 t ≤ vMax ∧ magnitude s.polys (List.range tr.D) 2 t ≤ aMax) :
    tr.scaleToMeetConstraints rf Real.sqrt vMax aMax = .ok (true, tr) := by
  have hnil : ∀ c, (rf c).2 = [] := fun c => by rw [hrf]
  have hr0 : List.range tr.D ≠ [] := by simp; omega
  have hrd : ∀ d ∈ List.range tr.D, d < tr.D := by simp
  have hdm : (0 : ℝ) < dblMax := lt_trans (by norm_num) dblMax_gt
  have key : ∀ k : ℕ, k < tr.N → k + 1 < 22 → ∀ b : ℝ, 0 < b → b < dblMax →
      (∀ s ∈ tr.segments, ∀ t, t = 0 ∨ t = s.time → magnitude s.polys (List.range tr.D) k t ≤ b) →
      ∃ mn mx, tr.computeMinMaxMagnitude rf Real.sqrt k (asInts (List.range tr.D)) Extremum.zero
        Extremum.zero = .ok (true, mn, mx) ∧ mx.value ≤ b := by
    intro k hk hk2 b hb0 hb hb2
    obtain ⟨mn, mx, h1, -, -, -, h5, -⟩ := minMaxMagnitudeLoop_any rf k hk2 (List.range tr.D) hr0
      tr.segments (fun s hs => ⟨h.wf s hs, by rw [h.coeffs s hs]; exact hk,
        fun d hd => by rw [h.dims s hs]; exact hrd d hd, h.nonneg s hs⟩)
      (fun s hs => lt_of_le_of_lt (hb2 s hs 0 (.inl rfl)) hb) 0
      { (Extremum.zero : Extremum ℝ) with value := dblMax }
      { (Extremum.zero : Extremum ℝ) with value := -dblMax }
    refine ⟨mn, mx, h1, ?_⟩
    rcases h5 with h5 | ⟨j, hj, -, -, e3, e4⟩
    · rw [h5]
      dsimp only
      linarith
    · rw [e3]
      exact hb2 _ (List.getElem_mem hj) _ (e4 hnil)
  have h1N : tr.N ≤ 22 := by
    obtain ⟨s, hs⟩ := List.exists_mem_of_ne_nil _ hne
    rw [← h.coeffs s hs]
    exact (h.wf s hs).small
  obtain ⟨mn1, mx1, e1, b1⟩ := key 1 (by omega) (by omega) vMax hv hv2 fun s hs t ht => (hends s hs t ht).1
  obtain ⟨mn2, mx2, e2, b2⟩ := key 2 (by omega) (by omega) aMax ha ha2 fun s hs t ht => (hends s hs t ht).2
  have hva : tr.maxVelocityAndAcceleration rf Real.sqrt = .ok (true, mx1.value, mx2.value) := by
    unfold Trajectory.maxVelocityAndAcceleration
    dsimp only
    rw [asInts_range]
    have e1' : tr.computeMinMaxMagnitude rf Real.sqrt 1 (asInts (List.range tr.D)) Extremum.zero
        Extremum.zero = .ok (true, mn1, mx1) := e1
    have e2' : tr.computeMinMaxMagnitude rf Real.sqrt 2 (asInts (List.range tr.D)) Extremum.zero
        Extremum.zero = .ok (true, mn2, mx2) := e2
    rw [e1', Res.ok_bind, e2', Res.ok_bind, Res.pure_eq]
    rfl
  unfold Trajectory.scaleToMeetConstraints
  rw [scaleToMeetLoop, hva, Res.ok_bind]
  dsimp only
  have q1 : mx1.value / vMax ≤ 1 := by rw [div_le_one hv]; exact b1
  have q2 : mx2.value / aMax ≤ 1 := by rw [div_le_one ha]; exact b2
  rw [if_pos ⟨by linarith, by linarith⟩]
  rfl

/-- From rest at 0 to rest at 1/3 in one second: the velocity is `2 t (1 - t)`. -/
noncomputable def exRest : Trajectory ℝ := ⟨1, 4, 1, [⟨[⟨[0, 0, 1, -2 / 3]⟩], 1, 4⟩]⟩

/-- Non-vacuity of `C85_root_failure_false`, and the violation: with the limit 1/10 the speed is 1/2 at half
time. -/
example : exRest.WF ∧ exRest.segments ≠ [] ∧ 0 < exRest.D ∧ 3 ≤ exRest.N ∧
    (∀ s ∈ exRest.segments, ∀ t, t = 0 ∨ t = s.time →
      magnitude s.polys (List.range exRest.D) 1 t ≤ 1 / 10 ∧
      magnitude s.polys (List.range exRest.D) 2 t ≤ 2) ∧
    ∃ s ∈ exRest.segments, ∃ t ∈ Icc 0 s.time, (1 : ℝ) / 10 < magnitude s.polys (List.range exRest.D) 1 t := by
  have hm : ∀ k t, magnitude [⟨[0, 0, 1, -2 / 3]⟩] (List.range 1) k t =
      |derivAt [0, 0, 1, -2 / 3] k t| := by
    intro k t
    have e := segValue_eq_valuesAt ⟨[⟨[0, 0, 1, -2 / 3]⟩], 1, 4⟩ k t
    unfold magnitude
    rw [← e]
    simp [segValue, List.range_succ, Real.sqrt_sq_eq_abs]
  have d1 : ∀ t : ℝ, derivAt [0, 0, 1, -2 / 3] 1 t = 2 * t - 2 * t ^ 2 := by
    intro t
    simp [derivAt, ofCoeffs, Finset.sum_range_succ]
    ring
  have d2 : ∀ t : ℝ, derivAt [0, 0, 1, -2 / 3] 2 t = 2 - 4 * t := by
    intro t
    simp [derivAt, ofCoeffs, Finset.sum_range_succ]
    ring
  refine ⟨⟨?_, ?_, ?_, ?_, ?_⟩, by simp [exRest], by simp [exRest], by simp [exRest], ?_, ?_⟩
  · simp [exRest, Segment.D]
  · simp [exRest]
  · simp [exRest, Trajectory.getSegmentTimes]
  · intro s hs
    simp only [exRest, List.mem_cons, List.not_mem_nil, or_false] at hs
    subst hs
    exact ⟨by simp [Poly.N], by simp⟩
  · simp [exRest]
  · intro s hs t ht
    simp only [exRest, List.mem_cons, List.not_mem_nil, or_false] at hs
    subst hs
    show magnitude [⟨[0, 0, 1, -2 / 3]⟩] (List.range 1) 1 t ≤ _ ∧
      magnitude [⟨[0, 0, 1, -2 / 3]⟩] (List.range 1) 2 t ≤ _
    rw [hm, hm, d1, d2]
    rcases ht with rfl | rfl <;> norm_num
  · refine ⟨_, List.mem_singleton_self _, 1 / 2, by norm_num, ?_⟩
    show _ < magnitude [⟨[0, 0, 1, -2 / 3]⟩] (List.range 1) 1 (1 / 2)
    rw [hm, d1]
    norm_num

end Verif
