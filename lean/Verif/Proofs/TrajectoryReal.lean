import Mathlib.Analysis.Calculus.Deriv.Add
import Mathlib.Analysis.Calculus.Deriv.Comp
import Mathlib.Algebra.Order.Archimedean.Basic
import Verif.Proofs.TrajectoryOps

/- Helper lemmas: real-valued trajectories (derivatives, continuity, range sampling). -/
set_option linter.unusedSectionVars false

namespace Verif

open Polynomial Spec

theorem segValue_getD (s : Segment ℝ) (k : ℕ) (t : ℝ) (d : ℕ) (hd : d < s.polys.length) :
    (segValue s k t).getD d 0 = derivAt s.polys[d].coeffs k t := by
  simp [segValue, List.getD_eq_getElem?_getD, hd]

theorem hasDerivAt_derivAt (c : List ℝ) (k : ℕ) (t : ℝ) :
    HasDerivAt (fun x => derivAt c k x) (derivAt c (k + 1) t) t := by
  unfold derivAt
  have := (derivative^[k] (ofCoeffs c)).hasDerivAt t
  rw [Function.iterate_succ_apply']
  exact this

theorem continuous_derivAt (c : List ℝ) (k : ℕ) : Continuous (fun x => derivAt c k x) :=
  continuous_iff_continuousAt.mpr fun x => (hasDerivAt_derivAt c k x).continuousAt

theorem joins_segValue {tr : Trajectory ℝ} {k : ℕ} (h : tr.JoinsAt k) (i : ℕ)
    (hi : i + 1 < tr.segments.length) :
    segValue (tr.segments[i]'(by omega)) k (tr.segments[i]'(by omega)).time =
      segValue tr.segments[i + 1] k 0 := by
  rw [segValue_eq_valuesAt, segValue_eq_valuesAt]
  exact h i hi

theorem times_getElem (tr : Trajectory ℝ) (i : ℕ) (hi : i < tr.segments.length) :
    startTime tr.getSegmentTimes (i + 1) = startTime tr.getSegmentTimes i + tr.segments[i].time := by
  rw [startTime_succ _ _ (by rw [getSegmentTimes_length]; exact hi)]
  simp [Trajectory.getSegmentTimes]

/-- With agreeing vertices the value at the end of a segment is the end value of that segment. -/
theorem evaluate_at_vertex (tr : Trajectory ℝ) (h : tr.WF) (k : ℕ) (hj : tr.JoinsAt k)
    (i : ℕ) (hi : i < tr.segments.length) :
    tr.evaluate (startTime tr.getSegmentTimes (i + 1)) k =
      .ok (segValue tr.segments[i] k tr.segments[i].time) := by
  obtain ⟨n, hn⟩ : ∃ n, n = tr.segments.length - 1 - i := ⟨_, rfl⟩
  induction n generalizing i with
  | zero =>
    have hi' : i = tr.segments.length - 1 := by omega
    have e : startTime tr.getSegmentTimes (i + 1) = tr.maxTime := by
      rw [h.total, ← startTime_length, getSegmentTimes_length]
      congr 1; omega
    rw [e, evaluate_end tr h (by omega), segment_evaluate_ok _ (h.wf _ (List.getElem_mem _))]
    subst hi'
    rfl
  | succ n ih =>
    have hi1 : i + 1 < tr.segments.length := by omega
    rw [joins_segValue hj i hi1]
    have hst := times_getElem tr (i + 1) hi1
    have hnn : (0 : ℝ) ≤ (tr.segments[i + 1]'hi1).time := h.nonneg _ (List.getElem_mem _)
    rcases hnn.eq_or_lt with h0 | h0
    · have := ih (i + 1) hi1 (by omega)
      rw [hst, ← h0, add_zero] at this
      exact this
    · rw [evaluate_inside tr h (i + 1) hi1 _ le_rfl (by rw [hst]; linarith), sub_self,
        segment_evaluate_ok _ (h.wf _ (List.getElem_mem _))]

/-- With agreeing vertices, evaluation in a closed segment interval is the value of that segment. -/
theorem evaluate_closed (tr : Trajectory ℝ) (h : tr.WF) (k : ℕ) (hj : tr.JoinsAt k)
    (i : ℕ) (hi : i < tr.segments.length) (t : ℝ) (h1 : startTime tr.getSegmentTimes i ≤ t)
    (h2 : t ≤ startTime tr.getSegmentTimes (i + 1)) :
    tr.evaluate t k = .ok (segValue tr.segments[i] k (t - startTime tr.getSegmentTimes i)) := by
  rcases h2.eq_or_lt with h2 | h2
  · rw [h2, evaluate_at_vertex tr h k hj i hi]
    congr 2
    rw [times_getElem tr i hi]; ring
  · rw [evaluate_inside tr h i hi t h1 h2, segment_evaluate_ok _ (h.wf _ (List.getElem_mem _))]

theorem continuousOn_prefix (tr : Trajectory ℝ) (h : tr.WF) (k : ℕ) (hj : tr.JoinsAt k)
    (d : ℕ) (hd : d < tr.D) (n : ℕ) (hn : n ≤ tr.segments.length) (hn0 : 0 < n) :
    ContinuousOn (fun t => component (tr.evaluate t k) d)
      (Set.Icc 0 (startTime tr.getSegmentTimes n)) := by
  have piece : ∀ i, i < tr.segments.length →
      ContinuousOn (fun t => component (tr.evaluate t k) d)
        (Set.Icc (startTime tr.getSegmentTimes i) (startTime tr.getSegmentTimes (i + 1))) := by
    intro i hi
    have hd' : d < tr.segments[i].polys.length := by
      have := h.dims _ (List.getElem_mem hi)
      unfold Segment.D at this; omega
    apply ContinuousOn.congr (f := fun t =>
      derivAt tr.segments[i].polys[d].coeffs k (t - startTime tr.getSegmentTimes i))
    · exact ((continuous_derivAt _ k).comp (continuous_id.sub continuous_const)).continuousOn
    · intro t ht
      simp only [evaluate_closed tr h k hj i hi t ht.1 ht.2, component]
      rw [segValue_getD _ _ _ _ hd']
  induction n with
  | zero => omega
  | succ n ih =>
    rcases Nat.eq_zero_or_pos n with h0 | h0
    · subst h0
      have := piece 0 (by omega)
      rwa [startTime_zero] at this
    · have := (ih (by omega) h0).union_of_isClosed (piece n (by omega)) isClosed_Icc isClosed_Icc
      rwa [Set.Icc_union_Icc_eq_Icc (startTime_nonneg _ h.times_nonneg _)
        (startTime_mono _ h.times_nonneg (Nat.le_succ n))] at this

/-! #### range sampling -/

/-- What the sampling loop delivers when started in segment `i` at the time `tau`, with the reported
time `acc`. -/
structure RangeSpec (tr : Trajectory ℝ) (k : ℕ) (tEnd dt : ℝ) (i : ℕ) (acc tau : ℝ)
    (L : List (ℝ × List ℝ)) : Prop where
  entries : ∀ j, (hj : j < L.length) → L[j].1 = acc + j * dt ∧
    ∃ i', ∃ hi' : i' < tr.segments.length, i ≤ i' ∧
      startTime tr.getSegmentTimes i' ≤ tau + j * dt ∧
      tau + j * dt ≤ startTime tr.getSegmentTimes (i' + 1) ∧
      L[j].2 = segValue tr.segments[i'] k (tau + j * dt - startTime tr.getSegmentTimes i')
  count : ∀ j : ℕ, j < L.length ↔ acc + j * dt < tEnd ∧ tau + j * dt ≤ tr.maxTime

theorem evaluateRangeLoop_ok (tr : Trajectory ℝ) (h : tr.WF) (k : ℕ) (tEnd dt : ℝ) (hdt : 0 < dt)
    (m : ℕ) : ∀ (n i : ℕ) (acc tau : ℝ), n + (tr.segments.length - i) ≤ m →
      i < tr.segments.length → tEnd ≤ acc + n * dt →
      startTime tr.getSegmentTimes i ≤ tau →
      ∃ L, RangeSpec tr k tEnd dt i acc tau L ∧ ∀ fuel, m + 1 ≤ fuel →
        evaluateRangeLoop tr.segments tEnd dt k fuel i acc (tau - startTime tr.getSegmentTimes i) =
          .ok L := by
  induction m with
  | zero => intro n i acc tau h1 h2; omega
  | succ m ih =>
    intro n i acc tau hm hi hn htau
    have hdec : ∀ j : ℕ, 0 ≤ (j : ℝ) * dt := fun j => by positivity
    have hst := times_getElem tr i hi
    by_cases hacc : acc < tEnd
    · -- there is work to do
      by_cases htis : tau - startTime tr.getSegmentTimes i > tr.segments[i].time
      · by_cases hlast : i + 1 ≥ tr.segments.length
        · refine ⟨[], ⟨by simp, ?_⟩, ?_⟩
          · intro j
            have e : startTime tr.getSegmentTimes (i + 1) = tr.maxTime := by
              rw [h.total, ← startTime_length, getSegmentTimes_length]; congr 1; omega
            simp only [List.length_nil, Nat.not_lt_zero, false_iff, not_and, not_le]
            intro _
            have := hdec j
            linarith
          · intro fuel hf
            obtain ⟨f, rfl⟩ : ∃ f, fuel = f + 1 := ⟨fuel - 1, by omega⟩
            simp only [evaluateRangeLoop, if_pos hacc, Res.at'_of_lt hi, Res.ok_bind, if_pos htis,
              if_pos hlast, Res.pure_eq]
        · obtain ⟨L, hL, hrun⟩ := ih n (i + 1) acc tau (by omega) (by omega) hn
            (by rw [hst]; linarith)
          refine ⟨L, ⟨?_, hL.count⟩, ?_⟩
          · intro j hj
            obtain ⟨h1, i', hi', hle, h2⟩ := hL.entries j hj
            exact ⟨h1, i', hi', by omega, h2⟩
          · intro fuel hf
            obtain ⟨f, rfl⟩ : ∃ f, fuel = f + 1 := ⟨fuel - 1, by omega⟩
            simp only [evaluateRangeLoop, if_pos hacc, Res.at'_of_lt hi, Res.ok_bind, if_pos htis,
              if_neg hlast]
            rw [← hrun f (by omega), hst]
            congr 1; ring
      · have hn0 : n ≠ 0 := by
          rintro rfl
          simp at hn; linarith
        obtain ⟨n', rfl⟩ : ∃ n', n = n' + 1 := ⟨n - 1, by omega⟩
        push_cast at hn
        obtain ⟨L, hL, hrun⟩ := ih n' i (acc + dt) (tau + dt) (by omega) hi (by linarith)
          (by linarith)
        refine ⟨(acc, segValue tr.segments[i] k (tau - startTime tr.getSegmentTimes i)) :: L,
          ⟨?_, ?_⟩, ?_⟩
        · intro j hj
          cases j with
          | zero =>
            simp only [List.getElem_cons_zero, Nat.cast_zero, zero_mul, add_zero, true_and]
            exact ⟨i, hi, le_rfl, htau, by rw [hst]; linarith, rfl⟩
          | succ j =>
            simp only [List.getElem_cons_succ]
            obtain ⟨h1, i', hi', hle, h2, h3, h4⟩ := hL.entries j (by simpa using hj)
            have e : tau + dt + (j : ℝ) * dt = tau + ((j + 1 : ℕ) : ℝ) * dt := by push_cast; ring
            rw [e] at h2 h3 h4
            refine ⟨?_, i', hi', hle, h2, h3, h4⟩
            rw [h1]; push_cast; ring
        · intro j
          cases j with
          | zero =>
            simp only [List.length_cons, Nat.zero_lt_succ, Nat.cast_zero, zero_mul, add_zero,
              true_iff]
            refine ⟨hacc, ?_⟩
            have : startTime tr.getSegmentTimes (i + 1) ≤ tr.maxTime := by
              rw [h.total, ← startTime_length]
              exact startTime_mono _ h.times_nonneg (by rw [getSegmentTimes_length]; omega)
            rw [hst] at this
            linarith
          | succ j =>
            have := hL.count j
            simp only [List.length_cons, Nat.add_lt_add_iff_right]
            rw [this]
            have e1 : acc + dt + (j : ℝ) * dt = acc + ((j + 1 : ℕ) : ℝ) * dt := by push_cast; ring
            have e : tau + dt + (j : ℝ) * dt = tau + ((j + 1 : ℕ) : ℝ) * dt := by push_cast; ring
            rw [e1, e]
        · intro fuel hf
          obtain ⟨f, rfl⟩ : ∃ f, fuel = f + 1 := ⟨fuel - 1, by omega⟩
          simp only [evaluateRangeLoop, if_pos hacc, Res.at'_of_lt hi, Res.ok_bind, if_neg htis]
          rw [segment_evaluate_ok _ (h.wf _ (List.getElem_mem _)), Res.ok_bind]
          have e : tau - startTime tr.getSegmentTimes i + dt =
              tau + dt - startTime tr.getSegmentTimes i := by ring
          rw [e, hrun f (by omega)]
          rfl
    · refine ⟨[], ⟨by simp, ?_⟩, ?_⟩
      · intro j
        simp only [List.length_nil, Nat.not_lt_zero, false_iff, not_and, not_le]
        intro h'
        have := hdec j
        exact absurd (by linarith) hacc
      · intro fuel hf
        obtain ⟨f, rfl⟩ : ∃ f, fuel = f + 1 := ⟨fuel - 1, by omega⟩
        simp only [evaluateRangeLoop, if_neg hacc]

theorem evaluateRange_ok (tr : Trajectory ℝ) (h : tr.WF) (k : ℕ) (tStart tEnd dt : ℝ)
    (hdt : 0 < dt) (i : ℕ) (hi : i < tr.segments.length)
    (h1 : startTime tr.getSegmentTimes i ≤ tStart)
    (h2 : tStart < startTime tr.getSegmentTimes (i + 1)) (hend : tStart ≤ tEnd) :
    ∃ L, RangeSpec tr k tEnd dt i (startTime tr.getSegmentTimes i) tStart L ∧
      ∃ F, ∀ fuel, F ≤ fuel → tr.evaluateRange fuel tStart tEnd dt k = .ok L := by
  obtain ⟨n, hn⟩ := Archimedean.arch (tEnd - startTime tr.getSegmentTimes i) hdt
  rw [nsmul_eq_mul] at hn
  obtain ⟨L, hL, hrun⟩ := evaluateRangeLoop_ok tr h k tEnd dt hdt _ n i
    (startTime tr.getSegmentTimes i) tStart le_rfl hi (by linarith) h1
  refine ⟨L, hL, n + (tr.segments.length - i) + 1, fun fuel hf => ?_⟩
  have hfind := findSegment_found tStart tr.segments 0 0 i hi
    (by
      intro m hm
      rw [zero_add]
      exact le_trans (startTime_mono _ h.times_nonneg (by omega)) h1)
    (by rw [zero_add]; exact h2)
  unfold Trajectory.evaluateRange
  rw [if_neg (by
    have : 0 ≤ (tEnd - tStart) / dt := div_nonneg (by linarith) hdt.le
    push Not
    exact ⟨hdt.ne', by linarith⟩)]
  simp only [hfind, zero_add]
  have h2' : tStart < startTime (tr.segments.map (·.time)) (i + 1) := h2
  rw [if_neg (not_lt.mpr h2'.le), Res.at'_of_lt hi, Res.ok_bind]
  have e : startTime (tr.segments.map (·.time)) (i + 1) - tr.segments[i].time =
      startTime tr.getSegmentTimes i := by
    have := times_getElem tr i hi
    change startTime tr.getSegmentTimes (i + 1) - _ = _
    rw [this]; ring
  rw [e]
  exact hrun fuel hf

end Verif
