import Verif.Proofs.TrajectoryAppend
import Mathlib.Tactic.NormNum

/-
Properties C08 - C17 and C21: classes `Segment` and `Trajectory`.

`Spec.startTime durations i` is the sum of the first `i` durations, `Spec.valuesAt ps k t` the list
of `k`-th derivatives at `t` of the real functions of the polynomials `ps`.
-/
namespace Verif

open Polynomial Spec Set

variable {K : Type}

/-! Example trajectories. -/

/-- Two segments with 2 dimensions: durations 2 and 1. -/
def exTr : Trajectory ℚ :=
  ⟨2, 3, 3, [⟨[⟨[0, 1, 0]⟩, ⟨[1, 0, 1]⟩], 2, 3⟩, ⟨[⟨[2, 1, 0]⟩, ⟨[5, 4, 0]⟩], 1, 3⟩]⟩

/-- The same over the reals. -/
def exTrR : Trajectory ℝ :=
  ⟨2, 3, 3, [⟨[⟨[0, 1, 0]⟩, ⟨[1, 0, 1]⟩], 2, 3⟩, ⟨[⟨[2, 1, 0]⟩, ⟨[5, 4, 0]⟩], 1, 3⟩]⟩

theorem exTr_wf : exTr.WF :=
  ⟨by decide, by decide, by decide +kernel, by
    intro s hs
    exact ⟨by revert s; decide, by revert s; decide⟩, by decide +kernel⟩

theorem exTrR_wf : exTrR.WF := by
  refine ⟨?_, ?_, ?_, ?_, ?_⟩
  · simp [exTrR, Segment.D]
  · simp [exTrR]
  · norm_num [exTrR, Trajectory.getSegmentTimes]
  · intro s hs
    simp only [exTrR, List.mem_cons, List.not_mem_nil, or_false] at hs
    rcases hs with rfl | rfl <;>
      exact ⟨by simp [Poly.N], by simp⟩
  · simp [exTrR]

/-! ### C08 bookkeeping -/

/-- **C08.** After any history of operations that return normally, the duration is the sum of the
segment times, which are listed in order, `K()` is their number, and all segments have the `D` and
`N` of the trajectory. -/
theorem C08_bookkeeping [Field K] [LinearOrder K] [IsStrictOrderedRing K] (tr : Trajectory K)
    (h : Reachable tr) :
    tr.maxTime = tr.getSegmentTimes.sum ∧
    tr.K' = tr.getSegmentTimes.length ∧
    (∀ i, (h1 : i < tr.segments.length) → tr.getSegmentTimes[i]? = some tr.segments[i].time) ∧
    (∀ s ∈ tr.segments, s.D = tr.D ∧ s.N = tr.N) := by
  have := reachable_book h
  refine ⟨this.1, by simp [Trajectory.K', Trajectory.getSegmentTimes], ?_, this.2⟩
  intro i h1
  simp [Trajectory.getSegmentTimes, h1]

/-- **C08.** `setSegments` succeeds exactly for a non-empty list of segments with the same `D` and
`N`, and otherwise aborts. -/
theorem C08_setSegments [Field K] [LinearOrder K] [IsStrictOrderedRing K]
    (segs : List (Segment K)) :
    ((∃ r, Trajectory.setSegments segs = .ok r) ↔
      segs ≠ [] ∧ ∃ D N, ∀ s ∈ segs, s.D = D ∧ s.N = N) ∧
    ((∀ r, Trajectory.setSegments segs ≠ .ok r) → Trajectory.setSegments segs = .abort) := by
  constructor
  · constructor
    · rintro ⟨r, h⟩
      rw [setSegments_ok_iff] at h
      exact ⟨h.1, r.D, r.N, h.2.1⟩
    · rintro ⟨h, D, N, h2⟩
      exact ⟨⟨D, N, (segs.map (·.time)).sum, segs⟩, (setSegments_ok_iff _ _).mpr ⟨h, h2, rfl, rfl⟩⟩
  · have loop : ∀ (D N : ℕ) (l : List (Segment K)) (m : K),
        (∃ r, addSegmentsLoop D N l m = .ok r) ∨ addSegmentsLoop D N l m = .abort := by
      intro D N l
      induction l with
      | nil => intro m; exact Or.inl ⟨m, rfl⟩
      | cons s ss ih =>
        intro m
        unfold addSegmentsLoop
        by_cases h1 : s.D = D
        · by_cases h2 : s.N = N
          · simpa [h1, h2] using ih (m + s.time)
          · right; simp [h1, h2]
        · right; simp [h1]
    intro h
    cases segs with
    | nil => rfl
    | cons s ss =>
      unfold Trajectory.setSegments Trajectory.addSegments at *
      rcases loop s.D s.N (s :: ss) 0 with ⟨r, hr⟩ | hr
      · simp only [hr] at h
        exact absurd rfl (h _)
      · simp only [hr]; rfl

example : Reachable ((exTr.scaleSegmentTimes 2).2.offset [1, 1]).2 :=
  .offset _ (.scale _ (.setSegments (segs := exTr.segments) (by decide +kernel)))
example : ((exTr.scaleSegmentTimes 2).2.offset [1, 1]).2.maxTime = 6 := by decide +kernel
example : Trajectory.setSegments [⟨[⟨[0, 1]⟩], 2, 2⟩, ⟨[⟨[0, 1, 0]⟩], (2 : ℚ), 3⟩] = .abort := by
  decide +kernel

/-! ### C09 evaluate picks the right segment -/

/-- **C09.** At a time in `[S_i, S_{i+1})` the value is the derivative of segment `i` at the time
since the start `S_i` of that segment (so at an interior vertex the later segment is used). -/
theorem C09_inside (tr : Trajectory ℝ) (h : tr.WF) (i : ℕ) (hi : i < tr.segments.length) (t : ℝ)
    (h1 : startTime tr.getSegmentTimes i ≤ t) (h2 : t < startTime tr.getSegmentTimes (i + 1))
    (k : ℕ) :
    tr.evaluate t k =
      .ok (valuesAt tr.segments[i].polys k (t - startTime tr.getSegmentTimes i)) := by
  rw [evaluate_inside tr h i hi t h1 h2, segment_evaluate_ok _ (h.wf _ (List.getElem_mem _)),
    segValue_eq_valuesAt]

/-- **C09.** The intervals of the previous theorem cover `[0, getMaxTime())`, each time being in
exactly one of them. -/
theorem C09_partition (tr : Trajectory ℝ) (h : tr.WF) (t : ℝ) (h0 : 0 ≤ t) (h1 : t < tr.maxTime) :
    ∃! i, i < tr.segments.length ∧ startTime tr.getSegmentTimes i ≤ t ∧
      t < startTime tr.getSegmentTimes (i + 1) := by
  obtain ⟨i, hi, ha, hb⟩ := exists_segment tr h t h0 h1
  refine ⟨i, ⟨hi, ha, hb⟩, ?_⟩
  rintro j ⟨_, hja, hjb⟩
  by_contra hne
  rcases Nat.lt_or_gt_of_ne hne with hlt | hlt
  · have := startTime_mono _ h.times_nonneg (show j + 1 ≤ i by omega)
    linarith
  · have := startTime_mono _ h.times_nonneg (show i + 1 ≤ j by omega)
    linarith

/-- **C09.** At the final time the last segment is used, at its end. -/
theorem C09_end (tr : Trajectory ℝ) (h : tr.WF) (hne : tr.segments ≠ []) (k : ℕ) :
    tr.evaluate tr.maxTime k =
      .ok (valuesAt (tr.segments.getLast hne).polys k (tr.segments.getLast hne).time) := by
  have hpos : 0 < tr.segments.length := List.length_pos_iff.mpr hne
  rw [evaluate_end tr h hpos, segment_evaluate_ok _ (h.wf _ (List.getElem_mem _)),
    segValue_eq_valuesAt, List.getLast_eq_getElem]

/-- **C09.** After the final time the result is the zero vector of the trajectory's dimension. -/
theorem C09_after (tr : Trajectory ℝ) (h : tr.WF) (t : ℝ) (ht : tr.maxTime < t) (k : ℤ) :
    tr.evaluate t k = .ok (List.replicate tr.D 0) := evaluate_after tr h t ht k

/-- **C09**, outside the documented range: a negative time extrapolates the first segment. -/
theorem C09_before (tr : Trajectory ℝ) (h : tr.WF) (hne : 0 < tr.segments.length) (t : ℝ)
    (ht : t < 0) (k : ℕ) :
    tr.evaluate t k = .ok (valuesAt tr.segments[0].polys k t) := by
  rw [evaluate_before tr h hne t ht, segment_evaluate_ok _ (h.wf _ (List.getElem_mem _)),
    segValue_eq_valuesAt]

example : exTr.evaluate 1 0 = .ok [1, 2] := by decide +kernel
example : exTr.evaluate 2 1 = .ok [1, 4] := by decide +kernel
example : exTr.evaluate 3 0 = .ok [3, 9] := by decide +kernel
example : exTr.evaluate 4 0 = .ok [0, 0] := by decide +kernel
example : exTrR.WF ∧ 1 < exTrR.segments.length ∧ startTime exTrR.getSegmentTimes 1 ≤ (5/2 : ℝ) ∧
    (5/2 : ℝ) < startTime exTrR.getSegmentTimes 2 :=
  ⟨exTrR_wf, by simp [exTrR], by norm_num [startTime, exTrR, Trajectory.getSegmentTimes],
    by norm_num [startTime, exTrR, Trajectory.getSegmentTimes]⟩

/-! ### C10 derivatives -/

/-- **C10.** Strictly inside a segment, each reported component of the `k`-th derivative is
differentiable in time and its derivative is the reported `(k+1)`-th derivative. -/
theorem C10_derivative (tr : Trajectory ℝ) (h : tr.WF) (i : ℕ) (hi : i < tr.segments.length) (t : ℝ)
    (h1 : startTime tr.getSegmentTimes i < t) (h2 : t < startTime tr.getSegmentTimes (i + 1))
    (k d : ℕ) (hd : d < tr.D) :
    HasDerivAt (fun x => component (tr.evaluate x k) d)
      (component (tr.evaluate t (k + 1 : ℕ)) d) t := by
  have hd' : d < tr.segments[i].polys.length := by
    have := h.dims _ (List.getElem_mem hi)
    unfold Segment.D at this; omega
  have hval : ∀ x, startTime tr.getSegmentTimes i < x → x < startTime tr.getSegmentTimes (i + 1) →
      ∀ m : ℕ, component (tr.evaluate x m) d =
        derivAt tr.segments[i].polys[d].coeffs m (x - startTime tr.getSegmentTimes i) := by
    intro x hx1 hx2 m
    rw [evaluate_inside tr h i hi x hx1.le hx2, segment_evaluate_ok _ (h.wf _ (List.getElem_mem _))]
    exact segValue_getD _ _ _ _ hd'
  rw [hval t h1 h2]
  have hd1 := (hasDerivAt_derivAt tr.segments[i].polys[d].coeffs k
    (t - startTime tr.getSegmentTimes i)).comp t ((hasDerivAt_id t).sub_const _)
  rw [mul_one] at hd1
  refine hd1.congr_of_eventuallyEq ?_
  filter_upwards [Ioo_mem_nhds h1 h2] with x hx
  exact hval x hx.1 hx.2 k

/-- **C10.** If adjacent segments agree in the `k`-th derivative at their common vertex, every
component of the `k`-th derivative is continuous on `[0, getMaxTime()]`. -/
theorem C10_continuous (tr : Trajectory ℝ) (h : tr.WF) (hne : tr.segments ≠ []) (k : ℕ)
    (hj : tr.JoinsAt k) (d : ℕ) (hd : d < tr.D) :
    ContinuousOn (fun t => component (tr.evaluate t k) d) (Icc 0 tr.maxTime) := by
  have hpos : 0 < tr.segments.length := List.length_pos_iff.mpr hne
  have := continuousOn_prefix tr h k hj d hd tr.segments.length le_rfl hpos
  rwa [← getSegmentTimes_length, startTime_length, ← h.total] at this

/-- **C10.** On that interval every evaluation returns a vector with `D` entries, so `component`
never falls back to its default. -/
theorem C10_returns (tr : Trajectory ℝ) (h : tr.WF) (hne : tr.segments ≠ []) (k : ℕ) (t : ℝ)
    (h0 : 0 ≤ t) (h1 : t ≤ tr.maxTime) :
    ∃ v, tr.evaluate t k = .ok v ∧ v.length = tr.D := by
  have hpos : 0 < tr.segments.length := List.length_pos_iff.mpr hne
  rcases h1.eq_or_lt with rfl | h1
  · refine ⟨_, by rw [evaluate_end tr h hpos, segment_evaluate_ok _ (h.wf _ (List.getElem_mem _))], ?_⟩
    rw [segValue_length, h.dims _ (List.getElem_mem _)]
  · obtain ⟨i, hi, ha, hb⟩ := exists_segment tr h t h0 h1
    refine ⟨_, by
      rw [evaluate_inside tr h i hi t ha hb, segment_evaluate_ok _ (h.wf _ (List.getElem_mem _))], ?_⟩
    rw [segValue_length, h.dims _ (List.getElem_mem _)]

theorem exTrR_joins : exTrR.JoinsAt 0 := by
  intro i hi
  have : i = 0 := by simp [exTrR] at hi; omega
  subst this
  norm_num [exTrR, valuesAt, curve, Finset.sum_range_succ]

example : exTrR.WF ∧ exTrR.segments ≠ [] ∧ exTrR.JoinsAt 0 :=
  ⟨exTrR_wf, by simp [exTrR], exTrR_joins⟩

/-! ### C11, C12 evaluateRange -/

/-- **C11**, partial: when `t_start` is the start `S_i` of a segment and adjacent segments agree in
the `k`-th derivative, the samples are at `t_start + j dt`, are reported with these times, are the
values of `evaluate` there, and there is one for every `j` with `t_start + j dt` below `t_end` and
inside the trajectory. Missing from the full statement: start times inside a segment (false, see
`C11_times_false`) and vertices with a jump (false, see `C11_jump_false`). -/
theorem C11_evaluateRange_partial (tr : Trajectory ℝ) (h : tr.WF) (k : ℕ) (hj : tr.JoinsAt k)
    (tEnd dt : ℝ) (hdt : 0 < dt) (i : ℕ) (hi : i < tr.segments.length)
    (hpos : 0 < tr.segments[i].time) (hend : startTime tr.getSegmentTimes i ≤ tEnd) :
    ∃ L, (∃ F, ∀ fuel, F ≤ fuel →
        tr.evaluateRange fuel (startTime tr.getSegmentTimes i) tEnd dt k = .ok L) ∧
      (∀ j, (hj : j < L.length) → L[j].1 = startTime tr.getSegmentTimes i + j * dt ∧
        tr.evaluate (startTime tr.getSegmentTimes i + j * dt) k = .ok L[j].2) ∧
      (∀ j : ℕ, j < L.length ↔ startTime tr.getSegmentTimes i + j * dt < tEnd ∧
        startTime tr.getSegmentTimes i + j * dt ≤ tr.maxTime) := by
  obtain ⟨L, hL, hrun⟩ := evaluateRange_ok tr h k (startTime tr.getSegmentTimes i) tEnd dt hdt i hi
    le_rfl (by rw [times_getElem tr i hi]; linarith) hend
  refine ⟨L, hrun, ?_, hL.count⟩
  intro j hj'
  obtain ⟨h1, i', hi', _, h2, h3, h4⟩ := hL.entries j hj'
  exact ⟨h1, by rw [evaluate_closed tr h k hj i' hi' _ h2 h3, h4]⟩

/-- **C11**, what happens in general: the samples are at `t_start + j dt` (in the closed interval of
some segment), but they are reported with the times `S_i + j dt` counted from the start of the first
segment, and it is these shifted times that are compared with `t_end`. -/
theorem C11_evaluateRange_general (tr : Trajectory ℝ) (h : tr.WF) (k : ℕ) (tStart tEnd dt : ℝ)
    (hdt : 0 < dt) (i : ℕ) (hi : i < tr.segments.length)
    (h1 : startTime tr.getSegmentTimes i ≤ tStart)
    (h2 : tStart < startTime tr.getSegmentTimes (i + 1)) (hend : tStart ≤ tEnd) :
    ∃ L, (∃ F, ∀ fuel, F ≤ fuel → tr.evaluateRange fuel tStart tEnd dt k = .ok L) ∧
      (∀ j, (hj : j < L.length) → L[j].1 = startTime tr.getSegmentTimes i + j * dt ∧
        ∃ i', ∃ hi' : i' < tr.segments.length,
          startTime tr.getSegmentTimes i' ≤ tStart + j * dt ∧
          tStart + j * dt ≤ startTime tr.getSegmentTimes (i' + 1) ∧
          L[j].2 = valuesAt tr.segments[i'].polys k
            (tStart + j * dt - startTime tr.getSegmentTimes i')) ∧
      (∀ j : ℕ, j < L.length ↔ startTime tr.getSegmentTimes i + j * dt < tEnd ∧
        tStart + j * dt ≤ tr.maxTime) := by
  obtain ⟨L, hL, hrun⟩ := evaluateRange_ok tr h k tStart tEnd dt hdt i hi h1 h2 hend
  refine ⟨L, hrun, ?_, hL.count⟩
  intro j hj'
  obtain ⟨g1, i', hi', _, g2, g3, g4⟩ := hL.entries j hj'
  exact ⟨g1, i', hi', g2, g3, by rw [g4, segValue_eq_valuesAt]⟩

/-- **C11** is false: one segment `x(t) = t` of duration 2, range `[1, 2)` in steps of 1/2. Instead
of the samples at 1, 3/2 reported as such, there are three, at 1, 3/2, 2, reported as 0, 1/2, 1. -/
theorem C11_times_false :
    ∃ tr : Trajectory ℚ, tr.WF ∧
      tr.evaluateRange 100 1 2 (1/2) 0 = .ok [(0, [1]), (1/2, [3/2]), (1, [2])] ∧
      tr.evaluate 0 0 = .ok [0] := by
  refine ⟨⟨1, 2, 2, [⟨[⟨[0, 1]⟩], 2, 2⟩]⟩, ⟨by decide, by decide, by decide +kernel, ?_, by decide +kernel⟩,
    by decide +kernel, by decide +kernel⟩
  intro s hs
  exact ⟨by revert s; decide, by revert s; decide⟩

/-- **C11** is false in a second way: at an interior vertex with a jump the range sample is the end
of the earlier segment while `evaluate` takes the later segment. -/
theorem C11_jump_false :
    ∃ tr : Trajectory ℚ, tr.WF ∧
      tr.evaluateRange 100 0 2 1 0 = .ok [(0, [0]), (1, [1])] ∧ tr.evaluate 1 0 = .ok [5] := by
  refine ⟨⟨1, 2, 2, [⟨[⟨[0, 1]⟩], 1, 2⟩, ⟨[⟨[5, 1]⟩], 1, 2⟩]⟩,
    ⟨by decide, by decide, by decide +kernel, ?_, by decide +kernel⟩,
    by decide +kernel, by decide +kernel⟩
  intro s hs
  exact ⟨by revert s; decide, by revert s; decide⟩

/-- **C12**, partial: for `0 ≤ t_start < getMaxTime()`, `t_start ≤ t_end` and `dt > 0` the call
terminates normally (so all accesses are inside the list). Missing: `t_start = getMaxTime()`, which
is undefined behaviour (`C12_end_false`). -/
theorem C12_evaluateRange_partial (tr : Trajectory ℝ) (h : tr.WF) (k : ℕ) (tStart tEnd dt : ℝ)
    (hdt : 0 < dt) (h0 : 0 ≤ tStart) (h1 : tStart < tr.maxTime) (hend : tStart ≤ tEnd) :
    ∃ L F, ∀ fuel, F ≤ fuel → tr.evaluateRange fuel tStart tEnd dt k = .ok L := by
  obtain ⟨i, hi, ha, hb⟩ := exists_segment tr h tStart h0 h1
  obtain ⟨L, _, F, hF⟩ := evaluateRange_ok tr h k tStart tEnd dt hdt i hi ha hb hend
  exact ⟨L, F, hF⟩

/-- **C12** is false: for every well-formed trajectory, starting at the final time reads one past
the end of the segment list (whatever the interval and order). -/
theorem C12_end_false (tr : Trajectory ℝ) (h : tr.WF) (fuel : ℕ) (tEnd dt : ℝ) (k : ℤ)  :
    tr.evaluateRange fuel tr.maxTime tEnd dt k = .ub := by
  have hfind := findSegment_none tr.maxTime tr.segments 0 0
    (by
      intro m hm
      rw [zero_add, h.total, ← startTime_length]
      exact startTime_mono _ h.times_nonneg (by rw [getSegmentTimes_length]; omega))
  have htot : (tr.segments.map (·.time)).sum = tr.maxTime := h.total.symm
  unfold Trajectory.evaluateRange
  split
  · rfl
  · simp only [hfind, zero_add, htot, gt_iff_lt, lt_irrefl, if_false]
    rw [Res.at'_of_ge le_rfl]; rfl

example : exTr.evaluateRange 100 0 3 1 0 = .ok [(0, [0, 1]), (1, [1, 2]), (2, [2, 5])] := by
  decide +kernel
example : exTrR.WF ∧ exTrR.JoinsAt 0 ∧ ∃ hi : 1 < exTrR.segments.length,
    0 < (exTrR.segments[1]).time ∧ startTime exTrR.getSegmentTimes 1 ≤ (3 : ℝ) :=
  ⟨exTrR_wf, exTrR_joins, by simp [exTrR], by simp [exTrR], by
    norm_num [startTime, exTrR, Trajectory.getSegmentTimes]⟩
example : exTrR.WF ∧ (0 : ℝ) ≤ 1 ∧ (1 : ℝ) < exTrR.maxTime ∧ (1 : ℝ) ≤ 2 :=
  ⟨exTrR_wf, by norm_num, by norm_num [exTrR], by norm_num⟩
example : exTr.evaluateRange 100 3 3 1 0 = .ub := by decide +kernel

/-! ### C13 single dimension -/

/-- **C13**, partial: for a dimension of a non-empty trajectory the result has one dimension, as many
segments, and segment `i` of the result has component `d` of segment `i` as its polynomial. Missing:
the segment times, which are lost (`C13_duration_false`). -/
theorem C13_single_partial [Field K] [LinearOrder K] [IsStrictOrderedRing K] (tr : Trajectory K)
    (h : tr.WF) (hne : tr.segments ≠ []) (d : ℕ) (hd : d < tr.D) :
    ∃ r, tr.withSingleDimension d = .ok r ∧ r.D = 1 ∧ r.N = tr.N ∧
      r.segments.length = tr.segments.length ∧
      ∀ i, (hi : i < tr.segments.length) → (hr : i < r.segments.length) →
        ∃ hd : d < tr.segments[i].polys.length, r.segments[i].polys = [tr.segments[i].polys[d]] := by
  set g : Segment K → Segment K := fun s => ⟨[s.polys.getD d ⟨[]⟩], 0, tr.N⟩ with hg
  have hmap : (tr.segments.mapM fun s => do
      Res.check ((0 : ℤ) ≤ d)
      let p ← s.get (d : ℤ).toNat
      (Segment.mkZero tr.N 1).set 0 p) = .ok (tr.segments.map g) := by
    apply Res.mapM_ok
    intro s hs
    have hds : d < s.polys.length := by
      have := h.dims s hs
      unfold Segment.D at this; omega
    have hdD : d < s.D := hds
    simp [Segment.get, Segment.set, Segment.mkZero, hdD, Res.at'_of_lt hds, Segment.D, hg,
      List.getD_eq_getElem?_getD, hds]
  refine ⟨⟨1, tr.N, 0, tr.segments.map g⟩, ?_, rfl, rfl, by simp, ?_⟩
  · unfold Trajectory.withSingleDimension
    rw [Res.check_of (by exact_mod_cast hd), Res.ok_bind, hmap, Res.ok_bind, setSegments_ok_iff]
    refine ⟨by simpa using hne, ?_, rfl, ?_⟩
    · intro s hs
      obtain ⟨s', _, rfl⟩ := List.mem_map.mp hs
      exact ⟨by simp [hg, Segment.D], rfl⟩
    · simp [hg, Function.comp_def]
  · intro i hi hr
    have hds : d < tr.segments[i].polys.length := by
      have := h.dims _ (List.getElem_mem hi)
      unfold Segment.D at this; omega
    refine ⟨hds, ?_⟩
    simp [hg, List.getD_eq_getElem?_getD, hds]

/-- **C13 (segments).** `getSegmentWithSingleDimension(d)` succeeds exactly for the dimensions of the segment;
the result has component `d` as its only polynomial, and the time and number of coefficients of the segment. -/
theorem C13_segment (s : Segment K) (d : ℤ) (r : Segment K) :
    s.withSingleDimension d = some r ↔
      ∃ k : ℕ, d = k ∧ ∃ hk : k < s.polys.length, r.polys = [s.polys[k]] ∧ r.time = s.time ∧ r.N = s.N := by
  unfold Segment.withSingleDimension
  constructor
  · intro h
    by_cases hd : d < 0
    · simp [hd] at h
    · rw [if_neg hd] at h
      by_cases hk : d.toNat < s.polys.length
      · rw [List.getElem?_eq_getElem hk] at h
        obtain rfl : _ = r := by simpa using h
        exact ⟨d.toNat, by omega, hk, rfl, rfl, rfl⟩
      · rw [List.getElem?_eq_none (by omega)] at h
        simp at h
  · rintro ⟨k, rfl, hk, h1, h2, h3⟩
    rw [if_neg (by omega), Int.toNat_natCast, List.getElem?_eq_getElem hk]
    cases r
    simp_all

/-- **C13 (segments)**, failure: no segment for a dimension that does not exist. -/
theorem C13_segment_none (s : Segment K) (d : ℤ) :
    s.withSingleDimension d = none ↔ d < 0 ∨ (s.polys.length : ℤ) ≤ d := by
  constructor
  · intro h
    by_contra hc
    push Not at hc
    have hk : d.toNat < s.polys.length := by omega
    rw [(C13_segment s d ⟨[s.polys[d.toNat]], s.time, s.N⟩).mpr ⟨d.toNat, by omega, hk, rfl, rfl, rfl⟩] at h
    simp at h
  · intro hc
    cases h : s.withSingleDimension d with
    | none => rfl
    | some r =>
      obtain ⟨k, rfl, hk, _⟩ := (C13_segment s d r).mp h
      omega

example : (⟨[⟨[1, 2]⟩, ⟨[3, 4]⟩], 5, 2⟩ : Segment ℚ).withSingleDimension 0 = some ⟨[⟨[1, 2]⟩], 5, 2⟩ := by
  decide +kernel

/-- **C13** is false: whatever the trajectory, a returned single-dimension trajectory has duration 0
and all its segment times are 0. -/
theorem C13_duration_false [Field K] [LinearOrder K] [IsStrictOrderedRing K] (tr r : Trajectory K)
    (d : ℤ) (h : tr.withSingleDimension d = .ok r) :
    r.maxTime = 0 ∧ ∀ s ∈ r.segments, s.time = 0 := by
  unfold Trajectory.withSingleDimension at h
  rw [Res.bind_eq_ok] at h
  obtain ⟨_, _, h⟩ := h
  rw [Res.bind_eq_ok] at h
  obtain ⟨segs, h1, h2⟩ := h
  have hz : ∀ (l : List (Segment K)) (segs : List (Segment K)), (l.mapM fun s => do
      Res.check ((0 : ℤ) ≤ d)
      let p ← s.get d.toNat
      (Segment.mkZero tr.N 1).set 0 p) = .ok segs → ∀ s ∈ segs, s.time = 0 := by
    intro l
    induction l with
    | nil =>
      intro segs hs
      simp only [List.mapM_nil, Res.pure_eq, Res.ok.injEq] at hs
      simp [← hs]
    | cons x xs ih =>
      intro segs hs
      rw [List.mapM_cons, Res.bind_eq_ok] at hs
      obtain ⟨y, hy, hs⟩ := hs
      rw [Res.bind_eq_ok] at hs
      obtain ⟨ys, hys, hs⟩ := hs
      simp only [Res.pure_eq, Res.ok.injEq] at hs
      subst hs
      intro s hs'
      rcases List.mem_cons.mp hs' with rfl | hs'
      · rw [Res.bind_eq_ok] at hy
        obtain ⟨_, _, hy⟩ := hy
        rw [Res.bind_eq_ok] at hy
        obtain ⟨p, _, hy⟩ := hy
        simp only [Segment.set, Segment.mkZero, Segment.D] at hy
        simp only [List.length_replicate, zero_lt_one, Res.check_of, Res.ok_bind, Res.pure_eq,
          Res.ok.injEq] at hy
        rw [← hy]
      · exact ih ys hys s hs'
  have := hz _ _ h1
  rw [setSegments_ok_iff] at h2
  obtain ⟨_, _, h3, h4⟩ := h2
  rw [h3]
  refine ⟨?_, this⟩
  rw [h4]
  apply List.sum_eq_zero
  intro x hx
  obtain ⟨s, hs, rfl⟩ := List.mem_map.mp hx
  exact this s hs

example : exTr.withSingleDimension 1 =
    .ok ⟨1, 3, 0, [⟨[⟨[1, 0, 1]⟩], 0, 3⟩, ⟨[⟨[5, 4, 0]⟩], 0, 3⟩]⟩ := by decide +kernel

/-! ### C14 appended dimension -/

/-- **C14**, partial: for trajectories with the same number of segments and the same `N` *or* the same
segment times, the result has the first motion in the first components and the second in the last
ones, each running through its own segment while the new segment (of the longer duration) runs
through: at the fraction `x` of the segment time both are where they were at the fraction `x`.
Missing: different `N` together with different times (false, see `C14_append_false`). -/
theorem C14_append_partial (tr a : Trajectory ℝ) (h : tr.WF) (ha : a.WF)
    (hK : tr.segments.length = a.segments.length) (hne : 0 < tr.segments.length)
    (hN : 0 < tr.N) (hNa : 0 < a.N) (hD : 0 < tr.D) (hDa : 0 < a.D)
    (hcase : tr.N = a.N ∨ tr.getSegmentTimes = a.getSegmentTimes) :
    ∃ r, tr.withAppendedDimension a = .ok (some r) ∧ r.D = tr.D + a.D ∧ r.N = max tr.N a.N ∧
      r.segments.length = tr.segments.length ∧
      ∀ i, (hi : i < tr.segments.length) → (hj : i < a.segments.length) →
        (hr : i < r.segments.length) →
        r.segments[i].time = max tr.segments[i].time a.segments[i].time ∧
        r.segments[i].D = tr.D + a.D ∧
        ∀ x, valuesAt r.segments[i].polys 0 (x * r.segments[i].time) =
          valuesAt tr.segments[i].polys 0 (x * tr.segments[i].time) ++
          valuesAt a.segments[i].polys 0 (x * a.segments[i].time) := by
  obtain ⟨r, h1, h2, h3, h4, _, h6⟩ := trajectory_append_ok tr a h ha hK hne hN hNa hD hDa hcase
  refine ⟨r, h1, h2, h3, h4, ?_⟩
  intro i hi hj hr
  have g := h6 i hi hj hr
  have dt : tr.segments[i].polys.length = tr.D := h.dims _ (List.getElem_mem hi)
  have da : a.segments[i].polys.length = a.D := ha.dims _ (List.getElem_mem hj)
  refine ⟨g.time, by unfold Segment.D; rw [g.D, dt, da], ?_⟩
  intro x
  simp only [← segValue_eq_valuesAt]
  have gD := g.D
  apply List.ext_getElem
  · simp [segValue, gD]
  · intro d hd1 hd2
    simp only [segValue, List.length_map] at hd1
    by_cases hd : d < tr.segments[i].polys.length
    · rw [List.getElem_append_left (by simpa [segValue] using hd)]
      simp only [segValue, List.getElem_map]
      exact g.first d hd hd1 x
    · rw [List.getElem_append_right (by simpa [segValue] using hd)]
      simp only [segValue, List.getElem_map, List.length_map]
      have := g.second (d - tr.segments[i].polys.length) (by omega) (by omega) x
      rw [← this]
      congr 3
      omega

/-- **C14** is false when both `N` and the times differ: appending `y = t` on [0, 2] to `x = t` (with
three coefficients) on [0, 1] gives a segment of duration 2 in which `x` runs to 2 instead of 1. -/
theorem C14_append_false :
    ∃ tr a r : Trajectory ℚ, tr.WF ∧ a.WF ∧ tr.withAppendedDimension a = .ok (some r) ∧
      tr.evaluate 1 0 = .ok [1] ∧ a.evaluate 2 0 = .ok [2] ∧ r.maxTime = 2 ∧
      r.evaluate 2 0 = .ok [2, 2] := by
  refine ⟨⟨1, 3, 1, [⟨[⟨[0, 1, 0]⟩], 1, 3⟩]⟩, ⟨1, 2, 2, [⟨[⟨[0, 1]⟩], 2, 2⟩]⟩,
    ⟨2, 3, 2, [⟨[⟨[0, 1, 0]⟩, ⟨[0, 1, 0]⟩], 2, 3⟩]⟩, ⟨by decide, by decide, by decide +kernel, ?_, by decide +kernel⟩,
    ⟨by decide, by decide, by decide +kernel, ?_, by decide +kernel⟩,
    by decide +kernel, by decide +kernel, by decide +kernel, by decide +kernel, by decide +kernel⟩
  all_goals
    intro s hs
    exact ⟨by revert s; decide, by revert s; decide⟩

/-- **C14**, different numbers of segments abort. -/
theorem C14_append_mismatch (tr a : Trajectory ℝ) (hN : 0 < tr.N) (hNa : 0 < a.N) (hD : 0 < tr.D)
    (hDa : 0 < a.D) (hK : tr.segments.length ≠ a.segments.length) :
    tr.withAppendedDimension a = .abort := by
  unfold Trajectory.withAppendedDimension
  rw [if_neg (by omega), if_neg (by omega), Res.check_of_not hK]; rfl

example : exTrR.WF ∧ exTrR.segments.length = exTrR.segments.length ∧ 0 < exTrR.segments.length ∧
    0 < exTrR.N ∧ 0 < exTrR.D ∧ exTrR.N = exTrR.N :=
  ⟨exTrR_wf, rfl, by simp [exTrR], by simp [exTrR], by simp [exTrR], rfl⟩
example : (exTr.withAppendedDimension (exTr.scaleSegmentTimes 2).2 >>= fun
    | some r => r.evaluate 2 0
    | none => .ub) = .ok [1, 2, 1, 2] := by decide +kernel

/-! ### C15 concatenation -/

/-- **C15.** `addTrajectories` returns true exactly when all listed trajectories have the `D` and `N`
of the first. -/
theorem C15_flag [Field K] [LinearOrder K] [IsStrictOrderedRing K] (tr : Trajectory K)
    (ts : List (Trajectory K)) (hw : ∀ t ∈ ts, t.WF) :
    ∃ b r, tr.addTrajectories ts = .ok (b, r) ∧
      (b = true ↔ ∀ t ∈ ts, t.D = tr.D ∧ t.N = tr.N) := by
  by_cases h : ∀ t ∈ ts, t.D = tr.D ∧ t.N = tr.N
  · refine ⟨true, _, addTrajectoriesLoop_true tr.D tr.N ts tr ⟨rfl, rfl⟩ ?_, by simpa using h⟩
    intro t ht
    exact ⟨(h t ht).1, (h t ht).2, fun s hs => ⟨(hw t ht).dims s hs, (hw t ht).coeffs s hs⟩⟩
  · have hbad : ∃ t ∈ ts, t.D ≠ tr.D ∨ t.N ≠ tr.N := by
      by_contra hc
      push Not at hc
      exact h hc
    obtain ⟨r, hr⟩ := addTrajectoriesLoop_false tr.D tr.N ts tr ⟨rfl, rfl⟩
      (fun t ht s hs => ⟨(hw t ht).dims s hs, (hw t ht).coeffs s hs⟩) hbad
    exact ⟨false, r, hr, by simp [h]⟩

/-- **C15.** When it returns true, the result is well-formed, its segments are those of this
trajectory followed by those of the listed ones in order, its duration is the sum of the durations,
at a time inside part `i` (`parts = this :: list`) it has the value of that part at the time since
the start of the part, and at its end the end value of the last part. -/
theorem C15_concatenation [Field K] [LinearOrder K] [IsStrictOrderedRing K] (tr : Trajectory K)
    (ts : List (Trajectory K)) (h : tr.WF) (hw : ∀ t ∈ ts, t.WF) (m : Trajectory K)
    (hm : tr.addTrajectories ts = .ok (true, m)) :
    m.WF ∧ m.D = tr.D ∧ m.N = tr.N ∧
    m.segments = ((tr :: ts).map (·.segments)).flatten ∧
    m.maxTime = ((tr :: ts).map (·.maxTime)).sum ∧
    (∀ i, (hi : i < (tr :: ts).length) → ∀ t k,
      startTime ((tr :: ts).map (·.maxTime)) i ≤ t →
      t < startTime ((tr :: ts).map (·.maxTime)) (i + 1) →
      m.evaluate t k = (tr :: ts)[i].evaluate (t - startTime ((tr :: ts).map (·.maxTime)) i) k) ∧
    (∀ parts last, tr :: ts = parts ++ [last] → last.segments ≠ [] → ∀ k,
      m.evaluate m.maxTime k = last.evaluate last.maxTime k) := by
  have hall : ∀ t ∈ ts, t.D = tr.D ∧ t.N = tr.N := by
    obtain ⟨b, r, h1, h2⟩ := C15_flag tr ts hw
    rw [hm] at h1
    simp only [Res.ok.injEq, Prod.mk.injEq] at h1
    exact h2.mp h1.1.symm
  have hts : ∀ t ∈ ts, t.D = tr.D ∧ t.N = tr.N ∧ ∀ s ∈ t.segments, s.D = t.D ∧ s.N = t.N :=
    fun t ht => ⟨(hall t ht).1, (hall t ht).2,
      fun s hs => ⟨(hw t ht).dims s hs, (hw t ht).coeffs s hs⟩⟩
  have hres := addTrajectoriesLoop_true tr.D tr.N ts tr ⟨rfl, rfl⟩ hts
  unfold Trajectory.addTrajectories at hm
  rw [hm] at hres
  simp only [Res.ok.injEq, Prod.mk.injEq, true_and] at hres
  have hwp : ∀ p ∈ tr :: ts, p.WF := by
    intro p hp
    rcases List.mem_cons.mp hp with rfl | hp
    · exact h
    · exact hw p hp
  have hmax : tr.maxTime + (ts.map fun t => t.getSegmentTimes.sum).sum =
      ((tr :: ts).map (·.maxTime)).sum := by
    rw [List.map_cons, List.sum_cons]
    congr 2
    apply List.map_congr_left
    intro t ht
    exact (hw t ht).total.symm
  have hseg : tr.segments ++ (ts.map (·.segments)).flatten =
      ((tr :: ts).map (·.segments)).flatten := by simp
  rw [hmax, hseg] at hres
  subst hres
  have hmem : ∀ s ∈ ((tr :: ts).map (·.segments)).flatten, ∃ p ∈ tr :: ts, s ∈ p.segments := by
    intro s hs
    obtain ⟨l, hl, hs⟩ := List.mem_flatten.mp hs
    obtain ⟨p, hp, rfl⟩ := List.mem_map.mp hl
    exact ⟨p, hp, hs⟩
  have hDN : ∀ p ∈ tr :: ts, p.D = tr.D ∧ p.N = tr.N := by
    intro p hp
    rcases List.mem_cons.mp hp with rfl | hp
    · exact ⟨rfl, rfl⟩
    · exact hall p hp
  refine ⟨⟨?_, ?_, ?_, ?_, ?_⟩, rfl, rfl, rfl, rfl, ?_, ?_⟩
  · intro s hs
    obtain ⟨p, hp, hs⟩ := hmem s hs
    rw [(hwp p hp).dims s hs]; exact (hDN p hp).1
  · intro s hs
    obtain ⟨p, hp, hs⟩ := hmem s hs
    rw [(hwp p hp).coeffs s hs]; exact (hDN p hp).2
  · simp only [Trajectory.getSegmentTimes, List.map_flatten, List.sum_flatten, List.map_map]
    congr 1
    apply List.map_congr_left
    intro p hp
    exact (hwp p hp).total
  · intro s hs
    obtain ⟨p, hp, hs⟩ := hmem s hs
    exact (hwp p hp).wf s hs
  · intro s hs
    obtain ⟨p, hp, hs⟩ := hmem s hs
    exact (hwp p hp).nonneg s hs
  · intro i hi t k h1 h2
    exact evaluate_flatten _ _ _ _ hwp i hi t h1 h2 k
  · intro parts last hpl hlast k
    rw [hpl] at hwp ⊢
    exact evaluate_flatten_end _ _ parts (fun p hp => hwp p (by simp [hp])) last
      (hwp last (by simp)) (List.length_pos_iff.mpr hlast) k _

/-- **C15**, passing the trajectory itself as the output argument loses its own segments: they do not
appear in the result, and the call reports false as soon as a listed trajectory has a dimension. -/
theorem C15_aliased [Field K] [LinearOrder K] [IsStrictOrderedRing K] (tr t : Trajectory K)
    (ts : List (Trajectory K)) (ht : t.D ≠ 0 ∨ t.N ≠ 0) :
    tr.addTrajectoriesAliased (t :: ts) = .ok (false, Trajectory.empty) := by
  simp [Trajectory.addTrajectoriesAliased, addTrajectoriesLoop, ht]

example : exTr.addTrajectories [exTr] = .ok (true, ⟨2, 3, 6, exTr.segments ++ exTr.segments⟩) := by
  decide +kernel
example : exTr.WF ∧ (∀ t ∈ [exTr], t.WF) := ⟨exTr_wf, by simpa using exTr_wf⟩
example : exTr.addTrajectories [⟨3, 3, 0, []⟩] = .ok (false, exTr) := by decide +kernel

/-! ### C16 offset -/

/-- **C16.** An offset that is too short is refused without a change. -/
theorem C16_refused [Field K] [LinearOrder K] (tr : Trajectory K) (o : List K)
    (ho : o.length < min tr.D 3) : tr.offset o = (false, tr) := if_pos ho

/-- **C16.** Otherwise positions 0..min(D,3)-1 are shifted by the offset at every time, and all other
components, all derivatives and all segment times are unchanged. -/
theorem C16_offset [Field K] [LinearOrder K] [IsStrictOrderedRing K] (tr : Trajectory K) (h : tr.WF)
    (hN : 0 < tr.N) (o : List K) (ho : min tr.D 3 ≤ o.length) :
    (tr.offset o).1 = true ∧ (tr.offset o).2.WF ∧
    (tr.offset o).2.getSegmentTimes = tr.getSegmentTimes ∧
    (tr.offset o).2.maxTime = tr.maxTime ∧
    (tr.offset o).2.D = tr.D ∧ (tr.offset o).2.N = tr.N ∧
    ∀ t k, t ≤ tr.maxTime → tr.segments ≠ [] →
      ∃ v w, tr.evaluate t (k : ℕ) = .ok v ∧ (tr.offset o).2.evaluate t (k : ℕ) = .ok w ∧
        v.length = tr.D ∧ w.length = tr.D ∧
        ∀ d, d < tr.D → w.getD d 0 = v.getD d 0 + if k = 0 ∧ d < 3 then o.getD d 0 else 0 := by
  have hseg : ∀ s ∈ tr.segments, min s.D 3 ≤ o.length := by
    intro s hs; rw [h.dims s hs]; exact ho
  have hoff : tr.offset o = (true, { tr with segments := tr.segments.map fun s => (s.offset o).2 }) := by
    unfold Trajectory.offset
    rw [if_neg (by omega), offsetLoop_ok o _ hseg]
  have hbook := book_offset o (tr := tr) ⟨h.total, fun s hs => ⟨h.dims s hs, h.coeffs s hs⟩⟩
  rw [hoff] at hbook ⊢
  have htimes : (tr.segments.map fun s => (s.offset o).2).map (·.time) = tr.segments.map (·.time) := by
    simp [Function.comp_def, offset_time]
  have hwf : (⟨tr.D, tr.N, tr.maxTime, tr.segments.map fun s => (s.offset o).2⟩ : Trajectory K).WF := by
    refine ⟨fun s hs => (hbook.2 s hs).1, fun s hs => (hbook.2 s hs).2, hbook.1, ?_, ?_⟩
    · intro s hs
      obtain ⟨s', hs', rfl⟩ := List.mem_map.mp hs
      exact segment_WF_offset (h.wf s' hs') o (hseg s' hs')
    · intro s hs
      obtain ⟨s', hs', rfl⟩ := List.mem_map.mp hs
      rw [offset_time]; exact h.nonneg s' hs'
  refine ⟨rfl, hwf, htimes, rfl, rfl, rfl, ?_⟩
  intro t k ht hne
  have hpos : 0 < tr.segments.length := List.length_pos_iff.mpr hne
  simp only
  unfold Trajectory.evaluate
  simp only [findSegment_congr t _ _ 0 0 htimes, List.length_map]
  set r := findSegment t tr.segments 0 0 with hr
  have hle : ¬ t > r.2 := by
    by_cases hlt : r.1 < tr.segments.length
    · have := findSegment_lt t tr.segments 0 0 (by rw [← hr]; simpa using hlt)
      rw [← hr] at this
      exact not_lt.mpr this.le
    · have hnone : r.2 = (tr.segments.map (·.time)).sum := by
        have aux : ∀ (l : List (Segment K)) (acc : K) (i : ℕ),
            i + l.length ≤ (findSegment t l acc i).1 →
            (findSegment t l acc i).2 = acc + (l.map (·.time)).sum := by
          intro l
          induction l with
          | nil => intro acc i _; simp [findSegment]
          | cons x xs ih =>
            intro acc i hh
            rw [findSegment_cons] at hh ⊢
            split at hh
            · simp at hh
            · next hc =>
              rw [if_neg hc, ih _ _ (by simp at hh; omega)]
              simp [add_assoc]
        have := aux tr.segments 0 0 (by rw [← hr]; omega)
        rw [hr, this, zero_add]
      have htot : (tr.segments.map (·.time)).sum = tr.maxTime := h.total.symm
      rw [hnone, htot]
      exact not_lt.mpr ht
  rw [if_neg hle, if_neg hle]
  set i := if r.1 ≥ tr.segments.length then tr.segments.length - 1 else r.1 with hi
  have hlt : i < tr.segments.length := by rw [hi]; split <;> omega
  rw [Res.at'_of_lt hlt, Res.at'_of_lt (by simpa using hlt)]
  simp only [Res.ok_bind, List.getElem_map, offset_time]
  have hws := h.wf _ (List.getElem_mem hlt)
  have hos := hseg _ (List.getElem_mem hlt)
  refine ⟨_, _, segment_evaluate_ok _ hws _ _,
    segment_evaluate_ok _ (segment_WF_offset hws o hos) _ _, ?_, ?_, ?_⟩
  · rw [segValue_length, h.dims _ (List.getElem_mem hlt)]
  · rw [segValue_length, offset_D, h.dims _ (List.getElem_mem hlt)]
  · intro d hd
    refine segValue_offset _ hws o hos ?_ k _ d ?_
    · rw [h.coeffs _ (List.getElem_mem hlt)]; exact hN
    · have := h.dims _ (List.getElem_mem hlt)
      unfold Segment.D at this
      omega

example : exTr.WF ∧ 0 < exTr.N ∧ min exTr.D 3 ≤ ([10, 20] : List ℚ).length ∧ exTr.segments ≠ [] :=
  ⟨exTr_wf, by decide, by decide, by decide⟩
example : (exTr.offset [10, 20]).2.evaluate 1 0 = .ok [11, 22] := by decide +kernel
example : exTr.offset [10] = (false, exTr) := by decide +kernel

/-! ### C17 time scaling -/

/-- **C17.** Factors below 1e-6 are refused without a change. -/
theorem C17_refused [Field K] [LinearOrder K] (tr : Trajectory K) (c : K) (hc : c < 1 / 10 ^ 6) :
    tr.scaleSegmentTimes c = (false, tr) := if_pos hc

/-- **C17.** Otherwise all segment times and the duration are multiplied by the factor and the `k`-th
derivative at the scaled time is the original one divided by the `k`-th power of the factor. -/
theorem C17_scaling [Field K] [LinearOrder K] [IsStrictOrderedRing K] (tr : Trajectory K) (h : tr.WF)
    (c : K) (hc : 1 / 10 ^ 6 ≤ c) :
    (tr.scaleSegmentTimes c).1 = true ∧
    (tr.scaleSegmentTimes c).2.WF ∧
    (tr.scaleSegmentTimes c).2.getSegmentTimes = tr.getSegmentTimes.map (· * c) ∧
    (tr.scaleSegmentTimes c).2.maxTime = tr.maxTime * c ∧
    ∀ t k, (tr.scaleSegmentTimes c).2.evaluate (c * t) (k : ℕ) =
      (fun v => v.map (· / c ^ k)) <$> tr.evaluate t (k : ℕ) := by
  have hpos : 0 < c := lt_of_lt_of_le (by positivity) hc
  have hs : tr.scaleSegmentTimes c = (true, tr.scaleCore c) := if_neg (not_lt.mpr hc)
  rw [hs]
  have hb := book_scaleCore c (tr := tr) ⟨h.total, fun s hs => ⟨h.dims s hs, h.coeffs s hs⟩⟩
  have hmem : ∀ s ∈ (tr.scaleCore c).segments, ∃ s' ∈ tr.segments, s'.scaleTime c = s := by
    intro s hs
    exact List.mem_map.mp hs
  refine ⟨rfl, ⟨fun s hs => (hb.2 s hs).1, fun s hs => (hb.2 s hs).2, hb.1, ?_, ?_⟩,
    scaleCore_times tr c, ?_, fun t k => evaluate_scaleCore tr h.wf c hpos t k⟩
  · intro s hs
    obtain ⟨s', hs', rfl⟩ := hmem s hs
    exact segment_WF_scaleTime (h.wf s' hs') c
  · intro s hs
    obtain ⟨s', hs', rfl⟩ := hmem s hs
    exact mul_nonneg (h.nonneg s' hs') hpos.le
  · rw [hb.1, scaleCore_times, h.total, List.sum_map_mul_right]
    simp

/-- **C17.** Scaling by `a` and then by `b` is scaling by `a b`. -/
theorem C17_composition [Field K] [LinearOrder K] [IsStrictOrderedRing K] (tr : Trajectory K)
    (a b : K) (ha : 1 / 10 ^ 6 ≤ a) (hb : 1 / 10 ^ 6 ≤ b) (hab : 1 / 10 ^ 6 ≤ a * b) :
    ((tr.scaleSegmentTimes a).2.scaleSegmentTimes b).2 = (tr.scaleSegmentTimes (a * b)).2 := by
  unfold Trajectory.scaleSegmentTimes
  rw [if_neg (not_lt.mpr ha), if_neg (not_lt.mpr hb), if_neg (not_lt.mpr hab)]
  simp only [Trajectory.scaleCore, List.map_map, Function.comp_def, scaleTime_scaleTime]

example : exTr.WF ∧ (1 / 10 ^ 6 : ℚ) ≤ 2 := ⟨exTr_wf, by norm_num⟩
example : (exTr.scaleSegmentTimes 2).2.evaluate 2 1 = .ok [1/2, 1] := by decide +kernel
example : exTr.evaluate 1 1 = .ok [1, 2] := by decide +kernel

/-! ### C21 no undefined behaviour in evaluate -/

/-- **C21**, partial: for a non-empty well-formed trajectory, `evaluate` returns a vector with `D`
entries for *every* time (also negative ones and times past the end). Missing: the empty trajectory,
for which it is false (`C21_empty_false`). -/
theorem C21_evaluate_partial (tr : Trajectory ℝ) (h : tr.WF) (hne : tr.segments ≠ []) (t : ℝ) (k : ℕ) :
    ∃ v, tr.evaluate t k = .ok v ∧ v.length = tr.D := by
  have hpos : 0 < tr.segments.length := List.length_pos_iff.mpr hne
  rcases lt_or_ge tr.maxTime t with h1 | h1
  · exact ⟨_, evaluate_after tr h t h1 k, by simp⟩
  · rcases lt_or_ge t 0 with h0 | h0
    · refine ⟨_, by
        rw [evaluate_before tr h hpos t h0, segment_evaluate_ok _ (h.wf _ (List.getElem_mem _))], ?_⟩
      rw [segValue_length, h.dims _ (List.getElem_mem _)]
    · exact C10_returns tr h hne k t h0 h1

/-- **C21**, the empty trajectory: undefined behaviour exactly for `t ≤ 0`; the zero vector of size 0
for positive times. -/
theorem C21_empty_false (t : ℝ) (k : ℤ) :
    (t ≤ 0 → (Trajectory.empty : Trajectory ℝ).evaluate t k = .ub) ∧
    (0 < t → (Trajectory.empty : Trajectory ℝ).evaluate t k = .ok []) := by
  constructor
  · intro ht
    simp [Trajectory.evaluate, Trajectory.empty, findSegment, Res.at', not_lt.mpr ht]
  · intro ht
    simp [Trajectory.evaluate, Trajectory.empty, findSegment, ht]

example : exTrR.WF ∧ exTrR.segments ≠ [] := ⟨exTrR_wf, by simp [exTrR]⟩

end Verif
