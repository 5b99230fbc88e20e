import Verif.Proofs.TimeEvaluation

/-
C107: the figures of the benchmark of time allocation methods (`TimeEvaluationNode`) mean what their names say.
-/
namespace Verif

open Spec Set

set_option linter.unusedSectionVars false

/-! ### C107 one trajectory -/

/-- **C107.** `evaluateTrajectory` for a trajectory in space whose adjacent segments agree in the derivatives 0..4, with
a root finder that finds all real roots: the figures mean what their names say (`Figures`: duration, largest speed and
acceleration, violation of the limits, length of the path, distance and area from the straight lines), the name and the
computation time are those given, and the other fields are not changed. If a segment ends where it starts, the area
is NaN. -/
theorem C107_figures (rf : RootFinder ℝ) (hrf : Complete rf) (tr : Trajectory ℝ) (h : tr.WF) (hD : tr.D = 3)
    (hN : 3 ≤ tr.N) (hj : ∀ k ≤ 4, tr.JoinsAt k) (hpos : 0 < tr.maxTime) (hns : tr.maxTime * 10 ^ 9 < 2 ^ 63)
    (hfin : ∀ k : ℕ, k = 1 ∨ k = 2 → ∀ t, 0 ≤ t → t ≤ tr.maxTime → ‖at3 (tr.evaluate t k)‖ < dblMax)
    (c : BenchSettings ℝ) (name : String) (ct : ℝ) (r : BenchResult ℝ) :
    ∃ r', (∃ F, ∀ fuel, F ≤ fuel → evaluateTrajectory fuel rf Real.sqrt c name tr ct r = .ok r') ∧
      Figures tr c.vMax c.aMax r' ∧ r'.methodName = name ∧ r'.computationTime = ct ∧ r'.trialNumber = r.trialNumber ∧
      r'.numSegments = r.numSegments ∧ r'.nominalLength = r.nominalLength ∧ r'.success = r.success ∧ r'.cost = r.cost ∧
      ((∃ s ∈ tr.segments, 0 < s.time ∧ ¬ EndsDiffer s) → r'.area = none) := by
  have hne : tr.segments ≠ [] := by
    intro h0
    rw [h.total] at hpos
    simp [Trajectory.getSegmentTimes, h0] at hpos
  obtain ⟨mn1, mx1, v1, v2⟩ := largest (k := 1) h hne hD rf hrf (by omega) (by omega) (hj 1 (by omega))
    (hfin 1 (Or.inl rfl)) Extremum.zero Extremum.zero
  obtain ⟨mn2, mx2, a1, a2⟩ := largest (k := 2) h hne hD rf hrf (by omega) (by omega) (hj 2 (by omega))
    (hfin 2 (Or.inr rfl)) Extremum.zero Extremum.zero
  rw [Nat.cast_one] at v1 v2
  rw [Nat.cast_ofNat] at a1 a2
  obtain ⟨L, len, ⟨F1, hF1⟩, l1, l2, l3⟩ := length_bounds h hne hD hj hpos hns v2.2 a2.2
  obtain ⟨st', ⟨F2, hF2⟩, d1, d2, d3, d4, d5⟩ := dev_segments tr.segments
    (fun s hs => ⟨h.wf s hs, (h.dims s hs).trans hD, h.nonneg s hs⟩) ⟨[], some 0, 0, some 0⟩ (Or.inr ⟨0, rfl⟩)
  have hV0 : 0 ≤ mx1.value := (norm_nonneg _).trans (v2.2 0 le_rfl hpos.le)
  have segSpeed : ∀ s ∈ tr.segments, ∀ x, 0 ≤ x → x ≤ s.time → ‖at3 (s.evaluate x 1)‖ ≤ mx1.value := by
    intro s hs x x0 x1
    obtain ⟨t, t0, t1, te⟩ := seg_in_traj h hne hD (hj 1 (by omega)) hs (x := x) ⟨x0, x1⟩
    rw [Nat.cast_one] at te
    rw [← te]
    exact v2.2 t t0 t1
  have hdev : ∀ s ∈ tr.segments, EndsDiffer s → ∀ t, 0 ≤ t → t ≤ s.time → devAt s t ≤ st'.maxDist + mx1.value / 100 := by
    intro s hs he t t0 t1
    rcases (h.nonneg s hs).eq_or_lt with h0 | h0
    · exact absurd (by rw [← h0]) he
    · exact devAt_le_samples (h.wf s hs) ((h.dims s hs).trans hD) h0.le (segSpeed s hs) (d2 s hs he) h0 t0 t1
  refine ⟨{ r with
    methodName := name
    trajectoryTime := tr.maxTime
    trajectoryLength := len
    computationTime := ct
    vMax := mx1.value
    aMax := mx2.value
    boundsViolated := decide (mx1.value > c.vMax + 1 / 10 ^ 4 ∨ mx2.value > c.aMax + 1 / 10 ^ 4)
    maxDist := st'.maxDist
    area := st'.area }, ⟨F1 + F2, fun fuel hf => ?_⟩, ⟨rfl, v2, a2, ?_, l2, l3, ?_, hdev, ?_⟩, rfl, rfl, rfl, rfl, rfl,
    rfl, rfl, fun hex => d5 (Or.inr hex)⟩
  · unfold evaluateTrajectory
    rw [hF1 fuel (by omega), Res.ok_bind, Option.getD_some, l1, Res.ok_bind, v1, Res.ok_bind, a1, Res.ok_bind,
      hF2 fuel (by omega), Res.ok_bind]
    rfl
  · rw [decide_eq_true_iff]
    constructor
    · rintro (g | g)
      · obtain ⟨⟨t, t0, t1, te⟩, -⟩ := v2
        exact ⟨t, t0, t1, Or.inl (by rw [show ‖at3 (tr.evaluate t 1)‖ = mx1.value from te]; exact g)⟩
      · obtain ⟨⟨t, t0, t1, te⟩, -⟩ := a2
        exact ⟨t, t0, t1, Or.inr (by rw [show ‖at3 (tr.evaluate t 2)‖ = mx2.value from te]; exact g)⟩
    · rintro ⟨t, t0, t1, g | g⟩
      · exact Or.inl (lt_of_lt_of_le g (v2.2 t t0 t1))
      · exact Or.inr (lt_of_lt_of_le g (a2.2 t t0 t1))
  · rcases d3 with d3 | ⟨s, hs, he, j, hj1, d3⟩
    · exact Or.inl d3
    · exact Or.inr ⟨s, hs, he, j / 100, by positivity, hj1, d3⟩
  · intro hall
    refine ⟨(tr.segments.map trapArea).sum, ?_, ?_⟩
    · have := d4 hall
      simpa using this
    · exact area_bound h hne hD hj v2.2 a2.2 (add_nonneg d1 (by positivity)) fun s hs h0 => hdev s hs (hall s hs h0)

/-- Along the x axis, and a parabola in y, for 2 s. -/
noncomputable def exBenchTr : Trajectory ℝ := ⟨3, 3, 2, [⟨[⟨[0, 1, 0]⟩, ⟨[0, 0, 1]⟩, ⟨[0, 0, 0]⟩], 2, 3⟩]⟩

theorem exBenchTr_wf : exBenchTr.WF where
  dims := by simp [exBenchTr, Segment.D]
  coeffs := by simp [exBenchTr]
  total := by simp [exBenchTr, Trajectory.getSegmentTimes]
  wf := by
    intro s hs
    simp only [exBenchTr, List.mem_singleton] at hs
    subst hs
    exact ⟨by simp [Poly.N], by simp⟩
  nonneg := by simp [exBenchTr]

theorem exBenchTr_values {t : ℝ} (h0 : 0 ≤ t) (h1 : t ≤ 2) :
    at3 (exBenchTr.evaluate t 0) = !₂[t, t ^ 2, 0] ∧ at3 (exBenchTr.evaluate t 1) = !₂[1, 2 * t, 0] ∧
      at3 (exBenchTr.evaluate t 2) = !₂[0, 2, 0] := by
  have hs : (⟨[⟨[0, 1, 0]⟩, ⟨[0, 0, 1]⟩, ⟨[0, 0, 0]⟩], 2, 3⟩ : Segment ℝ).WF := exBenchTr_wf.wf _ (by simp [exBenchTr])
  have e : ∀ k : ℕ, exBenchTr.evaluate t k =
      .ok (segValue ⟨[⟨[0, 1, 0]⟩, ⟨[0, 0, 1]⟩, ⟨[0, 0, 0]⟩], 2, 3⟩ k t) := by
    intro k
    rw [← segment_evaluate_ok _ hs]
    exact alone_evaluate hs rfl (by norm_num) k h0 h1
  have e0 := e 0
  have e1 := e 1
  have e2 := e 2
  rw [Nat.cast_zero] at e0
  rw [Nat.cast_one] at e1
  rw [Nat.cast_ofNat] at e2
  rw [e0, e1, e2]
  refine ⟨?_, ?_, ?_⟩ <;> ext i <;> fin_cases i <;>
    simp [at3, component, segValue, derivAt, ofCoeffs, Finset.sum_range_succ] <;> (norm_num; try ring)

example : ∃ rf : RootFinder ℝ, Complete rf ∧ exBenchTr.WF ∧ exBenchTr.D = 3 ∧ 3 ≤ exBenchTr.N ∧
    (∀ k ≤ 4, exBenchTr.JoinsAt k) ∧ 0 < exBenchTr.maxTime ∧ exBenchTr.maxTime * 10 ^ 9 < 2 ^ 63 ∧
    (∀ k : ℕ, k = 1 ∨ k = 2 → ∀ t, 0 ≤ t → t ≤ exBenchTr.maxTime → ‖at3 (exBenchTr.evaluate t k)‖ < dblMax) ∧
    ∀ s ∈ exBenchTr.segments, 0 < s.time → EndsDiffer s := by
  obtain ⟨rf, hrf⟩ := complete_rootFinder_exists
  refine ⟨rf, hrf, exBenchTr_wf, rfl, le_rfl, fun k _ i hi => absurd hi (by simp [exBenchTr]), by norm_num [exBenchTr],
    by norm_num [exBenchTr], ?_, ?_⟩
  · have hq : ∀ x : ℝ, x ≤ 10 ^ 4 → √x < dblMax := by
      intro x hx
      refine lt_of_le_of_lt (Real.sqrt_le_sqrt hx) (lt_of_le_of_lt ?_ dblMax_gt)
      rw [show (10 : ℝ) ^ 4 = (10 ^ 2) ^ 2 by norm_num, Real.sqrt_sq (by norm_num)]; norm_num
    rintro k (rfl | rfl) t h0 h1
    · rw [Nat.cast_one, (exBenchTr_values h0 h1).2.1, EuclideanSpace.norm_eq]
      refine hq _ ?_
      have : t ≤ 2 := h1
      simp [Fin.sum_univ_three]
      nlinarith
    · rw [Nat.cast_ofNat, (exBenchTr_values h0 h1).2.2, EuclideanSpace.norm_eq]
      refine hq _ ?_
      simp [Fin.sum_univ_three]
      norm_num
  · intro s hs _
    simp only [exBenchTr, List.mem_singleton] at hs
    subst hs
    have h0 := (exBenchTr_values le_rfl (by norm_num : (0 : ℝ) ≤ 2)).1
    have h2 := (exBenchTr_values (by norm_num : (0 : ℝ) ≤ 2) le_rfl).1
    have hw : (⟨[⟨[0, 1, 0]⟩, ⟨[0, 0, 1]⟩, ⟨[0, 0, 0]⟩], 2, 3⟩ : Segment ℝ).WF := exBenchTr_wf.wf _ (by simp [exBenchTr])
    have e := fun t (g0 : (0 : ℝ) ≤ t) (g1 : t ≤ 2) => alone_evaluate hw rfl (by norm_num) 0 g0 g1
    have ea := e 0 le_rfl (by norm_num)
    have eb := e 2 (by norm_num) le_rfl
    rw [Nat.cast_zero] at ea eb
    unfold EndsDiffer
    rw [← ea]
    change at3 (exBenchTr.evaluate 0 0) ≠ at3 (Segment.evaluate _ 2 0)
    rw [← eb]
    change _ ≠ at3 (exBenchTr.evaluate 2 0)
    rw [h0, h2]
    intro hcon
    have := congrFun (congrArg WithLp.ofLp hcon) 0
    simp at this

/-- There and back along the x axis, in 2 s. -/
noncomputable def exLoopTr : Trajectory ℝ := ⟨3, 3, 2, [⟨[⟨[0, 2, -1]⟩, ⟨[0, 0, 0]⟩, ⟨[0, 0, 0]⟩], 2, 3⟩]⟩

/-- **C107 is false for the area if a segment ends where it starts.** There and back along a line, the area should be
zero; but it is NaN: the direction of the line is 0 divided by 0. -/
theorem C107_area_false (rf : RootFinder ℝ) (hrf : Complete rf) (c : BenchSettings ℝ) (name : String) (ct : ℝ)
    (r : BenchResult ℝ) : exLoopTr.WF ∧ (∀ t, 0 ≤ t → t ≤ 2 → at3 (exLoopTr.evaluate t 0) = !₂[2 * t - t ^ 2, 0, 0]) ∧
    ∃ r', (∃ F, ∀ fuel, F ≤ fuel → evaluateTrajectory fuel rf Real.sqrt c name exLoopTr ct r = .ok r') ∧
      r'.area = none := by
  have hw : (⟨[⟨[0, 2, -1]⟩, ⟨[0, 0, 0]⟩, ⟨[0, 0, 0]⟩], 2, 3⟩ : Segment ℝ).WF := ⟨by simp [Poly.N], by simp⟩
  have hwf : exLoopTr.WF :=
    { dims := by simp [exLoopTr, Segment.D]
      coeffs := by simp [exLoopTr]
      total := by simp [exLoopTr, Trajectory.getSegmentTimes]
      wf := by
        intro s hs
        simp only [exLoopTr, List.mem_singleton] at hs
        subst hs
        exact hw
      nonneg := by simp [exLoopTr] }
  have e : ∀ (k : ℕ) {t : ℝ}, 0 ≤ t → t ≤ 2 → exLoopTr.evaluate t k =
      .ok (segValue ⟨[⟨[0, 2, -1]⟩, ⟨[0, 0, 0]⟩, ⟨[0, 0, 0]⟩], 2, 3⟩ k t) := by
    intro k t h0 h1
    rw [← segment_evaluate_ok _ hw]
    exact alone_evaluate hw rfl (by norm_num) k h0 h1
  have hv : ∀ t, 0 ≤ t → t ≤ 2 → at3 (exLoopTr.evaluate t 0) = !₂[2 * t - t ^ 2, 0, 0] := by
    intro t h0 h1
    have := e 0 h0 h1
    rw [Nat.cast_zero] at this
    rw [this]
    ext i
    fin_cases i <;> simp [at3, component, segValue, derivAt, ofCoeffs, Finset.sum_range_succ]
    ring
  refine ⟨hwf, hv, ?_⟩
  have hq : ∀ x : ℝ, x ≤ 10 ^ 4 → √x < dblMax := by
    intro x hx
    refine lt_of_le_of_lt (Real.sqrt_le_sqrt hx) (lt_of_le_of_lt ?_ dblMax_gt)
    rw [show (10 : ℝ) ^ 4 = (10 ^ 2) ^ 2 by norm_num, Real.sqrt_sq (by norm_num)]; norm_num
  obtain ⟨r', hF, -, -, -, -, -, -, -, -, ha⟩ := C107_figures rf hrf exLoopTr hwf rfl le_rfl
    (fun k _ i hi => absurd hi (by simp [exLoopTr])) (by norm_num [exLoopTr]) (by norm_num [exLoopTr]) (by
      rintro k hk t h0 h1
      have h1' : t ≤ 2 := h1
      rw [e k h0 h1, point_ok, point_norm (by simp [segValue])]
      unfold vecNorm
      refine hq _ ?_
      rcases hk with rfl | rfl
      · simp [segValue, derivAt, ofCoeffs, Finset.sum_range_succ]
        nlinarith
      · simp [segValue, derivAt, ofCoeffs, Finset.sum_range_succ]
        norm_num) c name ct r
  refine ⟨r', hF, ha ⟨_, List.mem_singleton.mpr rfl, by norm_num, ?_⟩⟩
  unfold EndsDiffer
  rw [not_not]
  have e0 := segment_evaluate_ok _ hw (0 : ℝ) 0
  have e2 := segment_evaluate_ok _ hw (2 : ℝ) 0
  rw [Nat.cast_zero] at e0 e2
  rw [e0, e2]
  ext i
  fin_cases i <;> simp [at3, component, segValue, derivAt, ofCoeffs, Finset.sum_range_succ]
  norm_num

/-! ### C107 nominal length -/

/-- **C107 (nominal length).** If every vertex has a position of at least three components, the nominal length is the sum
of the distances between consecutive positions (in the first three components). -/
theorem C107_nominal_length_partial (vs : List (Vertex ℝ)) (ps : List (List ℝ))
    (h : List.Forall₂ (fun (v : Vertex ℝ) (p : List ℝ) => v.getConstraint 0 = some p ∧ 3 ≤ p.length) vs ps) :
    nominalLengthLoop Real.sqrt vs 0 =
      .ok (∑ i ∈ Finset.range (ps.length - 1), ‖point (ps.getD (i + 1) []) - point (ps.getD i [])‖) := by
  have hpt : ∀ {p : List ℝ}, 3 ≤ p.length → point (p.take 3) = point p := by
    intro p hp
    match p, hp with
    | a :: b :: c :: _, _ => simp [point]
  have key : ∀ (vs : List (Vertex ℝ)) (ps : List (List ℝ)) (acc : ℝ),
      List.Forall₂ (fun (v : Vertex ℝ) (p : List ℝ) => v.getConstraint 0 = some p ∧ 3 ≤ p.length) vs ps →
      nominalLengthLoop Real.sqrt vs acc =
        .ok (acc + ∑ i ∈ Finset.range (ps.length - 1), ‖point (ps.getD (i + 1) []) - point (ps.getD i [])‖) := by
    intro vs
    induction vs with
    | nil =>
      intro ps acc hf
      cases hf
      simp [nominalLengthLoop]
    | cons v vs ih =>
      intro ps acc hf
      cases hf with
      | cons hv ht =>
        rename_i p ps
        cases ht with
        | nil => simp [nominalLengthLoop]
        | cons hv' ht' =>
          rename_i v' p' vs ps
          unfold nominalLengthLoop
          rw [if_neg (by simp)]
          dsimp only
          rw [hv.1, List.findSome?_cons, hv'.1]
          simp only [Option.getD_some]
          unfold head3
          rw [if_neg (by have := hv'.2; omega), Res.ok_bind, if_neg (by have := hv.2; omega), Res.ok_bind,
            ih (p' :: ps) _ (.cons hv' ht'), ← point_norm (by simp [hv.2, hv'.2]),
            point_sub (by simp [hv'.2]) (by simp [hv.2]), hpt hv'.2, hpt hv.2, Res.ok.injEq]
          simp only [List.length_cons, Nat.add_sub_cancel]
          rw [Finset.sum_range_succ' (n := ps.length)]
          simp only [List.getD_cons_succ, List.getD_cons_zero]
          ring
  rw [key vs ps 0 h, zero_add]

example : List.Forall₂ (fun (v : Vertex ℝ) (p : List ℝ) => v.getConstraint 0 = some p ∧ 3 ≤ p.length)
    [⟨3, [(0, [0, 0, 0])]⟩, ⟨3, [(0, [3, 4, 0])]⟩] [[0, 0, 0], [3, 4, 0]] :=
  .cons ⟨by simp [Vertex.getConstraint, mapFind], by simp⟩ (.cons ⟨by simp [Vertex.getConstraint, mapFind], by simp⟩ .nil)

/-- **C107 is false for the nominal length if a vertex has no position.** The code looks for the next vertex with a
position, but a vertex without one is also used as a start: undefined behaviour, as soon as one before the last has
none. -/
theorem C107_nominal_length_false [Field K] [LinearOrder K] (sq : K → K) (vs : List (Vertex K)) (i : ℕ)
    (hi : i + 1 < vs.length) (h : (vs[i]'(by omega)).getConstraint 0 = none) (acc : K) :
    nominalLengthLoop sq vs acc = .ub := by
  induction vs generalizing i acc with
  | nil => simp at hi
  | cons v vs ih =>
    have hne : vs ≠ [] := by
      rintro rfl
      simp at hi
    unfold nominalLengthLoop
    rw [if_neg (by simpa using hne)]
    dsimp only
    have hh : ∀ v : List K, head3 v = .ub ∨ ∃ e, head3 v = .ok e := by
      intro v
      unfold head3
      by_cases hc : v.length < 3
      · exact Or.inl (if_pos hc)
      · exact Or.inr ⟨_, if_neg hc⟩
    rcases hh ((vs.findSome? (·.getConstraint 0)).getD []) with hs | ⟨e, hs⟩
    · rw [hs]
      rfl
    · rw [hs, Res.ok_bind]
      match i, hi, h with
      | 0, _, h =>
        rw [List.getElem_cons_zero] at h
        rw [h]
        rfl
      | i + 1, hi, h =>
        rcases hh ((v.getConstraint 0).getD []) with hs' | ⟨b, hs'⟩
        · rw [hs']
          rfl
        · rw [hs', Res.ok_bind]
          exact ih i (by simpa using hi) (by simpa using h) _

example : (⟨3, [(1, [0, 0, 0])]⟩ : Vertex ℚ).getConstraint 0 = none := by decide +kernel

/-! ### C107 the rows -/

/-- **C107 (rows).** All methods write to one result object, of which copies are stored. Nevertheless the benchmark adds
exactly one row for each method, in order, and each is what `evaluateTrajectory` makes, for the trajectory, name and
computation time of that method, from an object with only the number of the trial, the number of segments, the
nominal length, and the code and the cost that this method returned: nothing of another method is left in it. -/
theorem C107_rows [Field K] [LinearOrder K] [IsStrictOrderedRing K] [FloorRing K] (fuel : ℕ) (rf : RootFinder K)
    (sq : K → K) (c : BenchSettings K) (trial numSegments : ℤ) (vs : List (Vertex K)) (ms : List (BenchMethod K))
    (old all : List (BenchResult K)) (h : runBenchmark fuel rf sq c trial numSegments vs ms old = .ok all) :
    ∃ rows len, all = old ++ rows ∧ nominalLengthLoop sq vs 0 = .ok len ∧
      List.Forall₂ (fun (m : BenchMethod K) (row : BenchResult K) => ∃ o : ℤ × Trajectory K × K, m.outcome = .ok o ∧
        evaluateTrajectory fuel rf sq c m.name o.2.1 m.timer.getTime
          ⟨trial, "none", numSegments, len, o.1, false, 0, 0, 0, 0, 0, o.2.2, 0, some 0⟩ = .ok row) ms rows := by
  have key : ∀ (ms : List (BenchMethod K)) (r : BenchResult K) (acc all : List (BenchResult K)),
      benchLoop fuel rf sq c ms r acc = .ok all → ∃ rows, all = acc ++ rows ∧
      List.Forall₂ (fun (m : BenchMethod K) (row : BenchResult K) => ∃ o : ℤ × Trajectory K × K, m.outcome = .ok o ∧
        evaluateTrajectory fuel rf sq c m.name o.2.1 m.timer.getTime
          ⟨r.trialNumber, "none", r.numSegments, r.nominalLength, o.1, false, 0, 0, 0, 0, 0, o.2.2, 0, some 0⟩ = .ok row)
        ms rows := by
    intro ms
    induction ms with
    | nil =>
      intro r acc all h
      rw [benchLoop, Res.ok.injEq] at h
      exact ⟨[], by simp [h], .nil⟩
    | cons m ms ih =>
      intro r acc all h
      rw [benchLoop, Res.bind_eq_ok] at h
      obtain ⟨o, ho, h⟩ := h
      rw [Res.bind_eq_ok] at h
      obtain ⟨r1, h1, h⟩ := h
      -- the old figures do not matter
      have hr : evaluateTrajectory fuel rf sq c m.name o.2.1 m.timer.getTime
          ⟨r.trialNumber, "none", r.numSegments, r.nominalLength, o.1, false, 0, 0, 0, 0, 0, o.2.2, 0, some 0⟩ = .ok r1 ∧
          r1.trialNumber = r.trialNumber ∧ r1.numSegments = r.numSegments ∧ r1.nominalLength = r.nominalLength := by
        unfold evaluateTrajectory at h1 ⊢
        rw [Res.bind_eq_ok] at h1
        obtain ⟨path, e1, h1⟩ := h1
        rw [Res.bind_eq_ok] at h1
        obtain ⟨len, e2, h1⟩ := h1
        rw [Res.bind_eq_ok] at h1
        obtain ⟨v, e3, h1⟩ := h1
        rw [Res.bind_eq_ok] at h1
        obtain ⟨a, e4, h1⟩ := h1
        dsimp only at h1
        rw [Res.bind_eq_ok] at h1
        obtain ⟨d, e5, h1⟩ := h1
        rw [Res.pure_eq, Res.ok.injEq] at h1
        rw [e1, Res.ok_bind, e2, Res.ok_bind, e3, Res.ok_bind, e4, Res.ok_bind]
        dsimp only
        rw [e5, Res.ok_bind, ← h1]
        exact ⟨rfl, rfl, rfl, rfl⟩
      obtain ⟨rows, g1, g2⟩ := ih r1 _ _ h
      rw [hr.2.1, hr.2.2.1, hr.2.2.2] at g2
      exact ⟨r1 :: rows, by rw [g1, List.append_assoc, List.singleton_append], .cons ⟨o, ho, hr.1⟩ g2⟩
  unfold runBenchmark at h
  by_cases hv : vs.isEmpty
  · rw [if_pos hv] at h
    exact absurd h (by simp)
  · rw [if_neg hv, Res.bind_eq_ok] at h
    obtain ⟨len, hl, h⟩ := h
    obtain ⟨rows, g1, g2⟩ := key _ _ _ _ h
    exact ⟨rows, len, g1, hl, g2⟩

/-- Two methods: the second row has nothing of the first. (`sqrt` is a table here.) -/
example : (runBenchmark 10 (fun _ => (true, [])) (fun x => x) (⟨1, 2, 3⟩ : BenchSettings ℚ) 7 1
    [⟨3, [(0, [0, 0, 0])]⟩, ⟨3, [(0, [1, 0, 0])]⟩]
    [⟨"a", .ok (1, ⟨3, 3, 2 / 100, [⟨[⟨[0, 1, 0]⟩, ⟨[0, 0, 0]⟩, ⟨[0, 0, 0]⟩], 2 / 100, 3⟩]⟩, 5), ⟨1, 3⟩⟩,
     ⟨"b", .ok (-1, ⟨3, 3, 1 / 100, [⟨[⟨[0, 2, 0]⟩, ⟨[0, 0, 0]⟩, ⟨[0, 0, 0]⟩], 1 / 100, 3⟩]⟩, 6), ⟨3, 4⟩⟩] []).bind
    (fun l => .ok (l.map fun r => (r.methodName, r.success, r.boundsViolated))) =
      .ok [("a", 1, false), ("b", -1, true)] := by
  decide +kernel

/-! ### C107 the drawn path -/

/-- **C107 (drawn path).** Every tenth sample is drawn, in order, unless a coordinate is beyond 100: if none is, point
`i` is the position of sample `10 i + 9`, and no point drawn is ever beyond. -/
theorem C107_drawn_path [Field K] [LinearOrder K] [IsStrictOrderedRing K] [FloorRing K] (path : List (State K)) :
    (∀ p ∈ pathMarkerPoints path, ∀ x ∈ p, -100 ≤ x ∧ x ≤ 100) ∧
    ((∀ s ∈ path, ∀ x ∈ s.position, -100 ≤ x ∧ x ≤ 100) →
      (pathMarkerPoints path).length = path.length / 10 ∧
      ∀ i (hi : 10 * i + 9 < path.length), (pathMarkerPoints path)[i]? = some path[10 * i + 9].position) := by
  refine ⟨?_, fun hb => ?_⟩
  · intro p hp x hx
    unfold pathMarkerPoints at hp
    have := (List.mem_filter.mp hp).2
    simp only [List.all_eq_true, decide_eq_true_eq] at this
    exact this x hx
  · have hall : pathMarkerPoints path = (path.zipIdx.filter fun p => (p.2 + 1) % 10 = 0).map fun p => p.1.position := by
      unfold pathMarkerPoints
      rw [List.filter_eq_self]
      intro p hp
      obtain ⟨q, hq, rfl⟩ := List.mem_map.mp hp
      have hq' := List.mem_filter.mp hq |>.1
      have hm : q.1 ∈ path := by
        have := List.mem_zipIdx' hq'
        rw [this.2]
        exact List.getElem_mem _
      simp only [List.all_eq_true, decide_eq_true_eq]
      exact hb _ hm
    rw [hall]
    clear hall hb
    induction path using List.reverseRecOn with
    | nil => simp
    | append_singleton path s ih =>
      obtain ⟨ih1, ih2⟩ := ih
      rw [List.length_map] at ih1
      rw [List.zipIdx_append, List.filter_append, List.map_append]
      by_cases hc : (path.length + 1) % 10 = 0
      · have hlast : ([s].zipIdx (0 + path.length)).filter (fun p => decide ((p.2 + 1) % 10 = 0)) = [(s, path.length)] := by
          simp [hc]
        rw [hlast]
        refine ⟨by simp [ih1]; omega, fun i hi => ?_⟩
        rw [List.length_append, List.length_singleton] at hi
        rcases Nat.lt_or_ge (10 * i + 9) path.length with hlt | hge
        · rw [List.getElem?_append_left (by rw [List.length_map, ih1]; omega), ih2 i hlt, List.getElem_append_left hlt]
        · have he : 10 * i + 9 = path.length := by omega
          rw [List.getElem?_append_right (by rw [List.length_map, ih1]; omega), List.length_map, ih1,
            show i - path.length / 10 = 0 by omega]
          simp [he]
      · have hlast : ([s].zipIdx (0 + path.length)).filter (fun p => decide ((p.2 + 1) % 10 = 0)) = [] := by
          simp [hc]
        rw [hlast]
        refine ⟨by simp [ih1]; omega, fun i hi => ?_⟩
        rw [List.length_append, List.length_singleton] at hi
        have hlt : 10 * i + 9 < path.length := by omega
        rw [List.map_nil, List.append_nil, ih2 i hlt, List.getElem_append_left hlt]

end Verif
