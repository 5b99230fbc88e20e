import Mathlib.Algebra.Order.BigOperators.Group.List
import Verif.Proofs.PolynomialArith
import Verif.Spec.Trajectory

/- Helper lemmas for segments and trajectories. -/
set_option linter.unusedSectionVars false

namespace Verif

open Polynomial Spec

variable {K : Type}

section Semiring
variable [CommSemiring K]

/-- Specification value of a segment: the derivatives of all its polynomials. -/
noncomputable def segValue (s : Segment K) (k : ℕ) (t : K) : List K :=
  s.polys.map fun p => derivAt p.coeffs k t

theorem Segment.WF.poly_small {s : Segment K} (h : s.WF) {p : Poly K} (hp : p ∈ s.polys) :
    p.N ≤ kMaxConvolutionSize := by
  rw [h.polysN p hp]; exact h.small

theorem segment_evaluate_ok (s : Segment K) (h : s.WF) (t : K) (k : ℕ) :
    s.evaluate t k = .ok (segValue s k t) :=
  Res.mapM_ok fun p hp => evaluate_ok p t k (h.poly_small hp)

theorem segValue_length (s : Segment K) (k : ℕ) (t : K) : (segValue s k t).length = s.D := by
  simp [segValue, Segment.D]

theorem segValue_eq_valuesAt (s : Segment ℝ) (k : ℕ) (t : ℝ) :
    segValue s k t = valuesAt s.polys k t := by
  unfold segValue valuesAt
  apply List.map_congr_left
  intro p _
  rw [iteratedDeriv_curve]

end Semiring

theorem foldl_add_eq_list_sum [AddCommMonoid K] (l : List K) (a : K) :
    l.foldl (· + ·) a = a + l.sum := by
  induction l generalizing a with
  | nil => simp
  | cons x xs ih => simp [ih, add_assoc]

theorem addSegmentsLoop_ok_iff [AddCommMonoid K] (D N : ℕ) (segs : List (Segment K)) (m r : K) :
    addSegmentsLoop D N segs m = .ok r ↔
      (∀ s ∈ segs, s.D = D ∧ s.N = N) ∧ r = m + (segs.map (·.time)).sum := by
  induction segs generalizing m with
  | nil => simp [addSegmentsLoop, eq_comm]
  | cons s ss ih =>
    simp only [addSegmentsLoop]
    by_cases h1 : s.D = D
    · by_cases h2 : s.N = N
      · simp [h1, h2, ih, add_assoc]
      · simp [h1, h2]
    · simp [h1]

theorem addSegments_ok_iff [AddCommMonoid K] (tr r : Trajectory K) (segs : List (Segment K)) :
    tr.addSegments segs = .ok r ↔
      (∀ s ∈ segs, s.D = tr.D ∧ s.N = tr.N) ∧
      r = { tr with maxTime := tr.maxTime + (segs.map (·.time)).sum
                    segments := tr.segments ++ segs } := by
  unfold Trajectory.addSegments
  rw [Res.bind_eq_ok]
  constructor
  · rintro ⟨m, h1, h2⟩
    rw [addSegmentsLoop_ok_iff] at h1
    simp only [Res.pure_eq, Res.ok.injEq] at h2
    refine ⟨h1.1, ?_⟩
    rw [← h2, h1.2]
  · rintro ⟨h1, h2⟩
    exact ⟨_, (addSegmentsLoop_ok_iff _ _ _ _ _).mpr ⟨h1, rfl⟩, by simp [h2]⟩

theorem setSegments_ok_iff [AddCommMonoid K] (r : Trajectory K) (segs : List (Segment K)) :
    Trajectory.setSegments segs = .ok r ↔
      segs ≠ [] ∧ (∀ s ∈ segs, s.D = r.D ∧ s.N = r.N) ∧ r.segments = segs ∧
      r.maxTime = (segs.map (·.time)).sum := by
  cases segs with
  | nil => simp [Trajectory.setSegments]
  | cons s ss =>
    unfold Trajectory.setSegments
    simp only
    rw [addSegments_ok_iff]
    constructor
    · rintro ⟨h1, h2⟩
      subst h2
      exact ⟨by simp, h1, by simp, by simp⟩
    · rintro ⟨_, h1, h2, h3⟩
      have hs := h1 s (by simp)
      refine ⟨?_, ?_⟩
      · intro x hx
        have := h1 x hx
        exact ⟨this.1.trans hs.1.symm, this.2.trans hs.2.symm⟩
      · cases r with
        | mk D N m sg =>
          simp only at h2 h3 hs
          simp only [List.nil_append, Trajectory.mk.injEq, zero_add]
          exact ⟨hs.1.symm, hs.2.symm, h3, h2⟩

section Order
variable [Field K] [LinearOrder K] [IsStrictOrderedRing K]

theorem startTime_succ (l : List K) (i : ℕ) (h : i < l.length) :
    startTime l (i + 1) = startTime l i + l[i] := by
  unfold startTime
  rw [List.sum_take_succ l i h]

theorem startTime_mono (l : List K) (h : ∀ x ∈ l, 0 ≤ x) {i j : ℕ} (hij : i ≤ j) :
    startTime l i ≤ startTime l j := by
  induction j with
  | zero => rw [Nat.le_zero.mp hij]
  | succ j ih =>
    rcases Nat.lt_or_ge i (j + 1) with h' | h'
    · refine le_trans (ih (by omega)) ?_
      by_cases hj : j < l.length
      · rw [startTime_succ l j hj]
        have := h l[j] (List.getElem_mem hj)
        linarith
      · unfold startTime
        rw [List.take_of_length_le (by omega), List.take_of_length_le (by omega)]
    · have : i = j + 1 := by omega
      rw [this]

theorem startTime_zero (l : List K) : startTime l 0 = 0 := by simp [startTime]

theorem startTime_length (l : List K) : startTime l l.length = l.sum := by simp [startTime]

theorem startTime_nonneg (l : List K) (h : ∀ x ∈ l, 0 ≤ x) (i : ℕ) : 0 ≤ startTime l i := by
  have := startTime_mono l h (Nat.zero_le i)
  rwa [startTime_zero] at this

/-- The search stops at the first segment whose end lies after `t`. -/
theorem findSegment_found (t : K) (segs : List (Segment K)) (acc : K) (i0 j : ℕ)
    (hj : j < segs.length)
    (hle : ∀ m, m < j → acc + startTime (segs.map (·.time)) (m + 1) ≤ t)
    (hlt : t < acc + startTime (segs.map (·.time)) (j + 1)) :
    findSegment t segs acc i0 = (i0 + j, acc + startTime (segs.map (·.time)) (j + 1)) := by
  induction segs generalizing acc i0 j with
  | nil => simp at hj
  | cons s ss ih =>
    unfold findSegment
    cases j with
    | zero =>
      simp only [startTime, List.map_cons, List.take_succ_cons, List.take_zero, List.sum_cons,
        List.sum_nil, add_zero] at hlt ⊢
      rw [if_pos hlt]
    | succ j =>
      have h0 := hle 0 (by omega)
      simp only [startTime, List.map_cons, List.take_succ_cons, List.take_zero, List.sum_cons,
        List.sum_nil, add_zero] at h0
      rw [if_neg (not_lt.mpr h0)]
      have key : ∀ m, acc + startTime ((s :: ss).map (·.time)) (m + 1) =
          (acc + s.time) + startTime (ss.map (·.time)) m := by
        intro m
        simp [startTime, add_assoc]
      rw [ih (acc + s.time) (i0 + 1) j (by simpa using hj) ?_ ?_]
      · rw [key]; congr 1; omega
      · intro m hm
        have := hle (m + 1) (by omega)
        rwa [key] at this
      · rwa [key] at hlt

/-- The search runs through when no segment ends after `t`. -/
theorem findSegment_none (t : K) (segs : List (Segment K)) (acc : K) (i0 : ℕ)
    (hle : ∀ m, m < segs.length → acc + startTime (segs.map (·.time)) (m + 1) ≤ t) :
    findSegment t segs acc i0 = (i0 + segs.length, acc + (segs.map (·.time)).sum) := by
  induction segs generalizing acc i0 with
  | nil => simp [findSegment]
  | cons s ss ih =>
    unfold findSegment
    have h0 := hle 0 (by simp)
    simp only [startTime, List.map_cons, List.take_succ_cons, List.take_zero, List.sum_cons,
      List.sum_nil, add_zero] at h0
    rw [if_neg (not_lt.mpr h0)]
    rw [ih]
    · simp only [List.length_cons, List.map_cons, List.sum_cons, Prod.mk.injEq]
      exact ⟨by omega, by ring⟩
    · intro m hm
      have := hle (m + 1) (by simpa using hm)
      simpa [startTime, add_assoc] using this

theorem Trajectory.WF.times_nonneg {tr : Trajectory K} (h : tr.WF) :
    ∀ x ∈ tr.getSegmentTimes, 0 ≤ x := by
  intro x hx
  obtain ⟨s, hs, rfl⟩ := List.mem_map.mp hx
  exact h.nonneg s hs

theorem getSegmentTimes_length (tr : Trajectory K) :
    tr.getSegmentTimes.length = tr.segments.length := by simp [Trajectory.getSegmentTimes]

/-- Evaluation inside segment `i`. -/
theorem evaluate_inside (tr : Trajectory K) (h : tr.WF) (i : ℕ) (hi : i < tr.segments.length)
    (t : K) (h1 : startTime tr.getSegmentTimes i ≤ t)
    (h2 : t < startTime tr.getSegmentTimes (i + 1)) (k : ℤ) :
    tr.evaluate t k = tr.segments[i].evaluate (t - startTime tr.getSegmentTimes i) k := by
  have hfind := findSegment_found t tr.segments 0 0 i hi
    (by
      intro m hm
      rw [zero_add]
      exact le_trans (startTime_mono _ h.times_nonneg (by omega)) h1)
    (by rw [zero_add]; exact h2)
  unfold Trajectory.evaluate
  simp only [hfind, zero_add]
  have h2' : t < startTime (tr.segments.map (·.time)) (i + 1) := h2
  rw [if_neg (not_lt.mpr h2'.le), if_neg (by omega), Res.at'_of_lt hi, Res.ok_bind]
  congr 2
  have := startTime_succ tr.getSegmentTimes i (by rw [getSegmentTimes_length]; exact hi)
  have e : tr.getSegmentTimes[i]'(by rw [getSegmentTimes_length]; exact hi) = tr.segments[i].time := by
    simp [Trajectory.getSegmentTimes]
  rw [e] at this
  change startTime tr.getSegmentTimes (i + 1) - tr.segments[i].time = _
  rw [this]; ring

/-- Evaluation at the end of the trajectory. -/
theorem evaluate_end (tr : Trajectory K) (h : tr.WF) (hne : 0 < tr.segments.length) (k : ℤ) :
    tr.evaluate tr.maxTime k =
      (tr.segments[tr.segments.length - 1]'(by omega)).evaluate
        (tr.segments[tr.segments.length - 1]'(by omega)).time k := by
  have hfind := findSegment_none tr.maxTime tr.segments 0 0
    (by
      intro m hm
      rw [zero_add, h.total, ← startTime_length]
      exact startTime_mono _ h.times_nonneg (by rw [getSegmentTimes_length]; omega))
  unfold Trajectory.evaluate
  simp only [hfind, zero_add]
  have htot : (tr.segments.map (·.time)).sum = tr.maxTime := h.total.symm
  rw [htot, if_neg (lt_irrefl _), if_pos (le_refl _), Res.at'_of_lt (by omega), Res.ok_bind]
  congr 1
  ring

/-- Evaluation after the end of the trajectory. -/
theorem evaluate_after (tr : Trajectory K) (h : tr.WF) (t : K) (ht : tr.maxTime < t) (k : ℤ) :
    tr.evaluate t k = .ok (List.replicate tr.D 0) := by
  have hfind := findSegment_none t tr.segments 0 0
    (by
      intro m hm
      rw [zero_add]
      refine le_trans ?_ ht.le
      rw [h.total, ← startTime_length]
      exact startTime_mono _ h.times_nonneg (by rw [getSegmentTimes_length]; omega))
  unfold Trajectory.evaluate
  simp only [hfind, zero_add]
  have htot : (tr.segments.map (·.time)).sum = tr.maxTime := h.total.symm
  rw [htot, if_pos ht]

/-- Evaluation before time 0 extrapolates the first segment. -/
theorem evaluate_before (tr : Trajectory K) (h : tr.WF) (hne : 0 < tr.segments.length)
    (t : K) (ht : t < 0) (k : ℤ) :
    tr.evaluate t k = tr.segments[0].evaluate t k := by
  have hpos : (0 : K) ≤ (tr.segments[0]'hne).time := h.nonneg _ (List.getElem_mem _)
  have hst : startTime (tr.segments.map (·.time)) (0 + 1) = tr.segments[0].time := by
    rw [startTime_succ _ _ (by simpa using hne), startTime_zero]; simp
  have hfind := findSegment_found t tr.segments 0 0 0 hne
    (by intro m hm; omega)
    (by rw [zero_add, hst]; linarith)
  unfold Trajectory.evaluate
  simp only [hfind, hst, zero_add]
  rw [if_neg (by linarith), if_neg (by omega), Res.at'_of_lt hne, Res.ok_bind]
  congr 1
  ring

/-- Every time in `[0, maxTime)` lies in exactly one segment interval. -/
theorem exists_segment (tr : Trajectory K) (h : tr.WF) (t : K) (h0 : 0 ≤ t) (h1 : t < tr.maxTime) :
    ∃ i, i < tr.segments.length ∧ startTime tr.getSegmentTimes i ≤ t ∧
      t < startTime tr.getSegmentTimes (i + 1) := by
  by_contra hcon
  push Not at hcon
  have : ∀ i, i ≤ tr.segments.length → startTime tr.getSegmentTimes i ≤ t := by
    intro i
    induction i with
    | zero => intro _; rw [startTime_zero]; exact h0
    | succ i ih => intro hi; exact hcon i (by omega) (ih (by omega))
  have := this _ le_rfl
  rw [← getSegmentTimes_length, startTime_length, ← h.total] at this
  linarith

end Order
end Verif
