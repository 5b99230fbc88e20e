import Verif.Proofs.MagnitudeScale
import Verif.Props.Polynomial
import Verif.Props.Trajectory
import Mathlib.Algebra.Polynomial.Roots

/-
Properties C18 and C19: magnitudes over a trajectory and scaling to meet limits.

`Spec.magnitude ps ds k t` is the Euclidean norm of the components `ds` of the vector of `k`-th
derivatives at `t` of the real functions of the polynomials `ps`.
-/
namespace Verif

open Polynomial Spec Set

/-! ### C19 computeMinMaxMagnitude -/

/-- **C19 (maximum, any number of dimensions).** `computeMinMaxMagnitude` returns true, and the
maximum it reports is the magnitude at the reported time of the reported segment and bounds the
magnitude at every time of every segment. The reported minimum is also attained where it is
reported, but is not claimed to be a bound here: with one dimension it need not be, see
`C19_single_minimum_false`. -/
theorem C19_maximum_partial (rf : RootFinder ℝ) (hrf : Complete rf) (tr : Trajectory ℝ) (h : tr.WF)
    (hne : tr.segments ≠ []) (k : ℕ) (hk : k < tr.N) (hk2 : k + 1 < 22) (ds : List ℕ) (hds0 : ds ≠ [])
    (hds : ∀ d ∈ ds, d < tr.D)
    (hfin : ∀ s ∈ tr.segments, ∀ t ∈ Icc 0 s.time, magnitude s.polys ds k t < dblMax)
    (mn0 mx0 : Extremum ℝ) :
    ∃ mn mx, tr.computeMinMaxMagnitude rf Real.sqrt k (ds.map fun (d : ℕ) => (d : ℤ)) mn0 mx0 =
        .ok (true, mn, mx) ∧
      (∀ s ∈ tr.segments, ∀ t ∈ Icc 0 s.time, magnitude s.polys ds k t ≤ mx.value) ∧
      (∃ hj : mx.segmentIdx < tr.segments.length, mx.time ∈ Icc 0 tr.segments[mx.segmentIdx].time ∧
        mx.value = magnitude tr.segments[mx.segmentIdx].polys ds k mx.time) ∧
      (∃ hj : mn.segmentIdx < tr.segments.length, mn.time ∈ Icc 0 tr.segments[mn.segmentIdx].time ∧
        mn.value = magnitude tr.segments[mn.segmentIdx].polys ds k mn.time) := by
  obtain ⟨mn, mx, h1, h2, _, _, h3, h4⟩ := maxMagnitude_ok rf hrf tr h hne k hk hk2 ds hds0 hds hfin
    mn0 mx0
  exact ⟨mn, mx, h1, h2, h3, h4⟩

/-- **C19 (at least two dimensions).** `computeMinMaxMagnitude` returns true, the reported minimum
and maximum are the magnitudes at the reported times of the reported segments, and they bound the
magnitude at every time of every segment. -/
theorem C19_several_dimensions (rf : RootFinder ℝ) (hrf : Complete rf) (tr : Trajectory ℝ) (h : tr.WF)
    (hne : tr.segments ≠ []) (k : ℕ) (hk : k < tr.N) (hk2 : k + 1 < 22) (ds : List ℕ)
    (hds2 : 2 ≤ ds.length) (hds : ∀ d ∈ ds, d < tr.D)
    (hfin : ∀ s ∈ tr.segments, ∀ t ∈ Icc 0 s.time, magnitude s.polys ds k t < dblMax)
    (mn0 mx0 : Extremum ℝ) :
    ∃ mn mx, tr.computeMinMaxMagnitude rf Real.sqrt k (ds.map fun (d : ℕ) => (d : ℤ)) mn0 mx0 =
        .ok (true, mn, mx) ∧
      (∀ s ∈ tr.segments, ∀ t ∈ Icc 0 s.time,
        mn.value ≤ magnitude s.polys ds k t ∧ magnitude s.polys ds k t ≤ mx.value) ∧
      (∃ hj : mx.segmentIdx < tr.segments.length, mx.time ∈ Icc 0 tr.segments[mx.segmentIdx].time ∧
        mx.value = magnitude tr.segments[mx.segmentIdx].polys ds k mx.time) ∧
      (∃ hj : mn.segmentIdx < tr.segments.length, mn.time ∈ Icc 0 tr.segments[mn.segmentIdx].time ∧
        mn.value = magnitude tr.segments[mn.segmentIdx].polys ds k mn.time) := by
  obtain ⟨mn, mx, h1, h2, h5, _, h3, h4⟩ := maxMagnitude_ok rf hrf tr h hne k hk hk2 ds
    (by rintro rfl; simp at hds2) hds hfin mn0 mx0
  exact ⟨mn, mx, h1, fun s hs t ht => ⟨h5 hds2 s hs t ht, h2 s hs t ht⟩, h3, h4⟩

/-- One segment, one dimension, `x(t) = t - 1` for 2 seconds. -/
def exCross : Trajectory ℝ := ⟨1, 2, 2, [⟨[⟨[-1, 1]⟩], 2, 2⟩]⟩

theorem exCross_wf : exCross.WF := by
  refine ⟨?_, ?_, ?_, ?_, ?_⟩
  · simp [exCross, Segment.D]
  · simp [exCross]
  · norm_num [exCross, Trajectory.getSegmentTimes]
  · intro s hs
    simp only [exCross, List.mem_cons, List.not_mem_nil, or_false] at hs
    subst hs
    exact ⟨by simp [Poly.N], by simp⟩
  · simp [exCross]

/-- **C19 is false for one dimension.** For `x(t) = t - 1` on `[0, 2]` the distance from the origin is
0 at time 1, but the reported minimum is 1, whatever (correct) roots the root finder returns for
the constant derivative polynomial 1: none is real. -/
theorem C19_single_minimum_false (rf : RootFinder ℝ) (hroots : (rf [1, 0]).2 = []) :
    ∃ mn mx, exCross.computeMinMaxMagnitude rf Real.sqrt 0 [0] Extremum.zero Extremum.zero =
        .ok (true, mn, mx) ∧ mn.value = 1 ∧
      magnitude exCross.segments[0].polys [0] 0 1 = 0 := by
  have hdm : (10 : ℝ) ^ 15 < dblMax := dblMax_gt
  have hdm1 : (1 : ℝ) < dblMax := lt_trans (by norm_num) hdm
  have hdm2 : -dblMax < (1 : ℝ) := by linarith
  have h20 : ¬ (2 : ℝ) < 0 := by norm_num
  have hb : (baseCoeff 1 1 : ℝ) = 1 := by
    rw [baseCoeff_eq (by norm_num [kMaxConvolutionSize])]; norm_num
  have hb0 : ∀ j < 22, (baseCoeff 0 j : ℝ) = 1 := by
    intro j hj
    rw [baseCoeff_eq (by simpa [kMaxConvolutionSize] using hj)]; norm_num
  refine ⟨⟨0, 1, 0⟩, ⟨0, 1, 0⟩, ?_, rfl, ?_⟩
  · have hc : exCross.segments = [⟨[⟨[-1, 1]⟩], 2, 2⟩] := rfl
    have hcand : (⟨[⟨[-1, 1]⟩], 2, 2⟩ : Segment ℝ).magnitudeCandidates rf Real.sqrt 0 0 2 [0] =
        .ok (true, [⟨0, 1, 0⟩, ⟨2, 1, 0⟩]) := by
      simp [Segment.magnitudeCandidates, Segment.candidateTimes, Poly.computeMinMaxCandidates,
        Poly.getRoots, Poly.getCoefficients, hroots, hb, Res.at', Poly.N, Res.check,
        kMaxConvolutionSize, Segment.squares, selectMinMaxCandidatesFromRoots, h20, Poly.evaluate,
        List.mapM_cons, Poly.evalCore, hornerDown, hb0]
      norm_num
    unfold Trajectory.computeMinMaxMagnitude
    rw [hc, minMaxMagnitudeLoop, hcand]
    simp [selectMinMaxMagnitude, Extremum.stdMin, Extremum.stdMax, Extremum.zero, minMaxMagnitudeLoop,
      h20, hdm1, hdm2]
  · simp [magnitude, exCross, valuesAt, curve, iteratedDeriv_zero, Finset.sum_range_succ]

example : exCross.WF ∧ exCross.segments ≠ [] ∧ ([0] : List ℕ) ≠ [] ∧ 0 < exCross.N :=
  ⟨exCross_wf, by simp [exCross], by simp, by simp [exCross]⟩

/-- Speeds and accelerations of the example trajectory. -/
theorem exTrR_magnitudes : ∀ s ∈ exTrR.segments, ∀ t ∈ Icc 0 s.time,
    magnitude s.polys [0, 1] 1 t < dblMax ∧ magnitude s.polys [0, 1] 2 t < dblMax := by
  intro s hs t ht
  simp only [exTrR, List.mem_cons, List.not_mem_nil, or_false] at hs
  have hq : ∀ x : ℝ, x ≤ 10 ^ 4 → √x < dblMax := by
    intro x hx
    refine lt_of_le_of_lt (Real.sqrt_le_sqrt hx) (lt_of_le_of_lt ?_ dblMax_gt)
    rw [show (10 : ℝ) ^ 4 = (10 ^ 2) ^ 2 by norm_num, Real.sqrt_sq (by norm_num)]; norm_num
  unfold magnitude
  rcases hs with rfl | rfl
  · rw [← segValue_eq_valuesAt ⟨[⟨[0, 1, 0]⟩, ⟨[1, 0, 1]⟩], 2, 3⟩,
      ← segValue_eq_valuesAt ⟨[⟨[0, 1, 0]⟩, ⟨[1, 0, 1]⟩], 2, 3⟩]
    have h1 := ht.1
    have h2 := ht.2
    constructor <;> refine hq _ ?_ <;> simp [segValue, derivAt, ofCoeffs, Finset.sum_range_succ] <;> nlinarith
  · rw [← segValue_eq_valuesAt ⟨[⟨[2, 1, 0]⟩, ⟨[5, 4, 0]⟩], 1, 3⟩,
      ← segValue_eq_valuesAt ⟨[⟨[2, 1, 0]⟩, ⟨[5, 4, 0]⟩], 1, 3⟩]
    constructor <;> refine hq _ ?_ <;> norm_num [segValue, derivAt, ofCoeffs, Finset.sum_range_succ]

example : ∃ rf : RootFinder ℝ, Complete rf ∧ exTrR.WF ∧ 2 ≤ ([0, 1] : List ℕ).length ∧
    (∀ d ∈ ([0, 1] : List ℕ), d < exTrR.D) ∧
    ∀ s ∈ exTrR.segments, ∀ t ∈ Icc 0 s.time, magnitude s.polys [0, 1] 1 t < dblMax := by
  obtain ⟨rf, hrf⟩ := complete_rootFinder_exists
  exact ⟨rf, hrf, exTrR_wf, by simp, by simp [exTrR], fun s hs t ht => (exTrR_magnitudes s hs t ht).1⟩

/-- The trajectory `exTr` with a table for `sqrt`: the squared speeds are 1 at time 0 of segment 0
and 17 in segment 1. The candidates of segment 0 use the (only) root 0 of the derivative. -/
example : exTr.computeMinMaxMagnitude (fun _ => (true, [(0, 0)])) (fun x => if x = 1 then 1 else 4) 1
    [0, 1] ⟨7, 7, 7⟩ ⟨7, 7, 7⟩ = .ok (true, ⟨0, 1, 0⟩, ⟨2, 4, 0⟩) := by decide +kernel

/-! ### C18 scaleSegmentTimesToMeetConstraints -/

/-- **C18.** For positive limits `scaleSegmentTimesToMeetConstraints` returns true, and the trajectory
afterwards is the old one slowed down by a factor `c ≥ 1` (never sped up), the same for all
segments, with speed and acceleration at every time at most the limits times `1 + 10^-3`. It is not slowed
down more than needed: if `c` is not 1, one of the limits is reached exactly. Missing: fewer than three
coefficients, for which the claim is false unless there is only one dimension (`C18_short_false`,
`C18_lines_false`, `C18_one_dimension`). -/
theorem C18_meets_limits_partial (rf : RootFinder ℝ) (hrf : Complete rf) (tr : Trajectory ℝ) (h : tr.WF)
    (hne : tr.segments ≠ []) (hD : 0 < tr.D) (hN : 3 ≤ tr.N)
    (hfin : ∀ s ∈ tr.segments, ∀ t ∈ Icc 0 s.time,
      magnitude s.polys (List.range tr.D) 1 t < dblMax ∧
      magnitude s.polys (List.range tr.D) 2 t < dblMax)
    (vMax aMax : ℝ) (hv : 0 < vMax) (ha : 0 < aMax) :
    ∃ r c, tr.scaleToMeetConstraints rf Real.sqrt vMax aMax = .ok (true, r) ∧ 1 ≤ c ∧
      r.getSegmentTimes = tr.getSegmentTimes.map (· * c) ∧ r.maxTime = tr.maxTime * c ∧
      (∀ t (k : ℕ), r.evaluate (c * t) k = (fun v => v.map (· / c ^ k)) <$> tr.evaluate t k) ∧
      (∀ t ∈ Icc 0 r.maxTime, ∃ v, r.evaluate t 1 = .ok v ∧ v.length = tr.D ∧
        Real.sqrt (v.map (· ^ 2)).sum ≤ (1 + 1 / 1000) * vMax) ∧
      (∀ t ∈ Icc 0 r.maxTime, ∃ a, r.evaluate t 2 = .ok a ∧ a.length = tr.D ∧
        Real.sqrt (a.map (· ^ 2)).sum ≤ (1 + 1 / 1000) * aMax) ∧
      (c = 1 ∨ (∃ s ∈ tr.segments, ∃ t ∈ Icc 0 s.time,
          magnitude s.polys (List.range tr.D) 1 t = c * vMax) ∨
        ∃ s ∈ tr.segments, ∃ t ∈ Icc 0 s.time,
          magnitude s.polys (List.range tr.D) 2 t = c ^ 2 * aMax) := by
  obtain ⟨r, c, h1, h2, h3, h4, h5, h6, h7, h8, h9, h10⟩ :=
    scaleToMeet_ok rf hrf tr h hne hD hN hfin vMax aMax hv ha
  refine ⟨r, c, h1, h2, h6, h7, h8, ?_, ?_, h10⟩ <;> intro t ht
  · obtain ⟨s, hs, x, hx, e⟩ := evaluate_local r h3 h4 1 t ht.1 ht.2
    have hlen : (valuesAt s.polys 1 x).length = tr.D := by
      rw [← h5, ← h3.dims s hs]; simp [valuesAt, Segment.D]
    refine ⟨_, by simpa using e, hlen, ?_⟩
    have := (h9 s hs x hx).1
    unfold magnitude at this
    rwa [map_range_getD _ _ hlen] at this
  · obtain ⟨s, hs, x, hx, e⟩ := evaluate_local r h3 h4 2 t ht.1 ht.2
    have hlen : (valuesAt s.polys 2 x).length = tr.D := by
      rw [← h5, ← h3.dims s hs]; simp [valuesAt, Segment.D]
    refine ⟨_, by simpa using e, hlen, ?_⟩
    have := (h9 s hs x hx).2
    unfold magnitude at this
    rwa [map_range_getD _ _ hlen] at this

/-- **C18**, three or more coefficients. A trajectory within the limits (up to the tolerance `10^-3`) is left as
it is. -/
theorem C18_within_limits_partial (rf : RootFinder ℝ) (hrf : Complete rf) (tr : Trajectory ℝ) (h : tr.WF)
    (hne : tr.segments ≠ []) (hD : 0 < tr.D) (hN : 3 ≤ tr.N)
    (vMax aMax : ℝ) (hv : 0 < vMax) (ha : 0 < aMax)
    (hv2 : (1 + 1 / 1000) * vMax < dblMax) (ha2 : (1 + 1 / 1000) * aMax < dblMax)
    (hin : ∀ s ∈ tr.segments, ∀ t ∈ Icc 0 s.time,
      magnitude s.polys (List.range tr.D) 1 t ≤ (1 + 1 / 1000) * vMax ∧
      magnitude s.polys (List.range tr.D) 2 t ≤ (1 + 1 / 1000) * aMax) :
    tr.scaleToMeetConstraints rf Real.sqrt vMax aMax = .ok (true, tr) := by
  obtain ⟨v, a, h1, _, _, _, ⟨s1, hs1, t1, ht1, e1⟩, ⟨s2, hs2, t2, ht2, e2⟩⟩ :=
    maxVA_ok rf hrf tr h hne hD hN (fun s hs t ht => by
      obtain ⟨g1, g2⟩ := hin s hs t ht
      constructor <;> linarith)
  unfold Trajectory.scaleToMeetConstraints
  rw [scaleToMeetLoop, h1, Res.ok_bind]
  simp only
  rw [if_pos]
  · rfl
  · rw [div_le_iff₀ hv, div_le_iff₀ ha]
    exact ⟨e1 ▸ (hin s1 hs1 t1 ht1).1, e2 ▸ (hin s2 hs2 t2 ht2).2⟩

example : ∃ rf : RootFinder ℝ, Complete rf ∧ exTrR.WF ∧ exTrR.segments ≠ [] ∧ 0 < exTrR.D ∧
    3 ≤ exTrR.N ∧ (∀ s ∈ exTrR.segments, ∀ t ∈ Icc 0 s.time,
      magnitude s.polys (List.range exTrR.D) 1 t < dblMax ∧
      magnitude s.polys (List.range exTrR.D) 2 t < dblMax) := by
  obtain ⟨rf, hrf⟩ := complete_rootFinder_exists
  exact ⟨rf, hrf, exTrR_wf, by simp [exTrR], by simp [exTrR], by simp [exTrR], exTrR_magnitudes⟩

/-- One dimension `x(t) = t^2` for 2 s, limits 2 and 8 (top speed 4): slowed down by the factor 2. -/
example : (⟨1, 3, 2, [⟨[⟨[0, 0, 1]⟩], 2, 3⟩]⟩ : Trajectory ℚ).scaleToMeetConstraints
    (fun _ => (true, [])) (fun x => if x = 16 then 4 else if x = 4 then 2 else if x = 1/4 then 1/2 else x)
    2 8 = .ok (true, ⟨1, 3, 4, [⟨[⟨[0, 0, 1/4]⟩], 4, 3⟩]⟩) := by decide +kernel

end Verif
