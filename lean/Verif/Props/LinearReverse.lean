import Verif.Proofs.LinOptReverse
import Verif.Props.LinearAffine

/-
The result of the linear optimiser for a problem run backwards.
-/
namespace Verif

open Spec Set

set_option linter.unusedSectionVars false

/-! ### C92 time reversal -/

theorem joins_of_continuous {h dim : ℕ} {times : List ℝ} {segs : List (Segment ℝ)} {tr : Trajectory ℝ}
    (hsh : Shape (h + h) dim times segs) (hc : Spec.Continuous h dim segs) (hseg : tr.segments = segs) {q : ℕ}
    (hq : q < h) : tr.JoinsAt q := by
  intro i hi
  have hg : ∀ j, (hj : j < tr.segments.length) → segs[j]? = some tr.segments[j] := by
    intro j hj
    rw [← hseg]
    exact List.getElem?_eq_getElem hj
  rw [← segValue_eq_valuesAt, ← segValue_eq_valuesAt]
  have e1 := segValue_cf hsh (hg i (by omega)) q
  have e2 := segValue_cf hsh (hg (i + 1) hi) q
  rw [e1, e2]
  have hlen : tr.segments.length = times.length := by rw [hseg, ← hsh.durations]; simp
  refine List.map_congr_left fun d hd => ?_
  have := (continuous_iff hsh).mp hc i (by omega) q hq d (by simpa using hd)
  rw [← this]
  congr 2
  exact shape_time_getD hsh (hg i (by omega))

theorem startTime_reverse (times : List ℝ) {i : ℕ} (hi : i < times.length) :
    startTime times.reverse i = times.sum - startTime times (times.length - 1 - i) -
      times.getD (times.length - 1 - i) 0 := by
  have h1 := startTime_succ times (times.length - 1 - i) (by omega)
  have h2 : startTime times (times.length - 1 - i + 1) + startTime times.reverse i = times.sum := by
    unfold startTime
    rw [List.take_reverse, List.sum_reverse]
    rw [show times.length - 1 - i + 1 = times.length - i by omega]
    exact List.sum_take_add_sum_drop times _
  have h3 : times.getD (times.length - 1 - i) 0 = times[times.length - 1 - i]'(by omega) := by
    simp [List.getD_eq_getElem?_getD, show times.length - 1 - i < times.length by omega]
  rw [h3]
  linarith

/-- **C92.** Two problems, the second of which has the vertices of the first in reverse order, with the sign of
what is prescribed for odd derivatives changed, and the segment times in reverse order: the second trajectory
is the first run backwards, for all derivatives that are continuous. -/
theorem C92_reversed {h k : ℕ} {times : List ℝ} {inv solve inv' solve'} (hinv : IsInverse inv)
    (hsolve : IsSolver solve) (hinv' : IsInverse inv') (hsolve' : IsSolver solve')
    {vs vs' : List (Vertex ℝ)} {o1 o1' o2 o2' : LinOpt h ℝ}
    (hs1 : Session inv solve vs k times o1) (ho1 : o1.solveLinear solve = .ok o1')
    (hs2 : Session inv' solve' vs' k times.reverse o2) (ho2 : o2.solveLinear solve' = .ok o2')
    (hd : o2.dimension = o1.dimension) (hpin : Pinned k vs) (hrev : List.Forall₂ Reversed vs.reverse vs') :
    ∃ tr1 tr2, o1'.getTrajectory = .ok tr1 ∧ o2'.getTrajectory = .ok tr2 ∧ tr2.maxTime = tr1.maxTime ∧
      ∀ t, 0 ≤ t → t ≤ tr1.maxTime → ∀ q < h, ∃ w, tr1.evaluate (tr1.maxTime - t) q = .ok w ∧
        tr2.evaluate t q = .ok (w.map ((-1) ^ q * ·)) := by
  have s1 := solved_of_session hinv hsolve hs1 ho1
  have s2 := solved_of_session hinv' hsolve' hs2 ho2
  rw [hd] at s2
  obtain ⟨hpos, hne⟩ := problem_pos s1.prob
  have hne' : times.reverse ≠ [] := by simpa using hne
  obtain ⟨tr1, t1, w1, d1, m1, g1, e1⟩ := shape_trajectory s1.shape s1.coeffs hne s1.prob.times_pos s1.prob.small
  obtain ⟨tr2, t2, w2, d2, m2, g2, e2⟩ := shape_trajectory s2.shape s2.coeffs hne' s2.prob.times_pos s2.prob.small
  rw [List.sum_reverse] at m2
  have hvl : vs'.length = vs.length := by rw [← hrev.length_eq, List.length_reverse]
  have hcount : vs.length = times.length + 1 := by have := s1.prob.count; omega
  have hrel : RevRel times.length vs vs' := by
    intro i hi q
    have hr : vs.reverse[i]? = vs[times.length - i]? := by
      rw [List.getElem?_reverse (by omega)]
      congr 1
      omega
    unfold pinAt
    rcases pinAt_forall₂ hrev i with ⟨h1, h2⟩ | ⟨w, w', h1, h2, h3⟩
    · rw [h2, ← hr, h1]; rfl
    · rw [h2, ← hr, h1]; exact h3 q
  have hpin' : Pinned k vs' := by
    obtain ⟨v, hv, hc⟩ := hpin
    obtain ⟨i, hi⟩ := List.getElem?_of_mem (List.mem_reverse.mpr hv)
    rcases pinAt_forall₂ hrev i with ⟨h1, -⟩ | ⟨w, w', h1, h2, h3⟩
    · rw [h1] at hi; cases hi
    · rw [h1, Option.some.injEq] at hi
      subst hi
      refine ⟨w', List.mem_of_getElem? h2, fun q hq => ?_⟩
      obtain ⟨c, hc⟩ := hc q hq
      rw [h3 q, hc]
      exact ⟨_, rfl⟩
  have key := optimum_reversed s1.k_lt (by have := s1.k_lt; omega) hpos hne hcount (by omega) hpin' hrel s1.shape
    s1.meets s1.cont s1.min s2.shape s2.meets s2.cont s2.min
  refine ⟨tr1, tr2, t1, t2, by rw [m1, m2], fun t ht0 ht1 q hq => ?_⟩
  have j1 := joins_of_continuous s1.shape s1.cont g1 hq
  have j2 := joins_of_continuous s2.shape s2.cont g2 hq
  have l1 : tr1.segments.length = times.length := by rw [← getSegmentTimes_length, e1]
  have l2 : tr2.segments.length = times.length := by rw [← getSegmentTimes_length, e2, List.length_reverse]
  have hlen : 0 < times.length := List.length_pos_iff.mpr hne
  -- a segment of the second trajectory that contains `t`
  obtain ⟨i, hi, x, hx0, hx1, rfl⟩ : ∃ i, ∃ hi : i < tr2.segments.length, ∃ x, 0 ≤ x ∧
      x ≤ tr2.segments[i].time ∧ t = startTime tr2.getSegmentTimes i + x := by
    rcases ht1.lt_or_eq with hlt | rfl
    · obtain ⟨i, hi, h1, h2⟩ := exists_segment tr2 w2 t ht0 (by rw [m2, ← m1]; exact hlt)
      rw [times_getElem tr2 i hi] at h2
      exact ⟨i, hi, t - startTime tr2.getSegmentTimes i, by linarith, by linarith, by ring⟩
    · refine ⟨times.length - 1, by omega, tr2.segments[times.length - 1].time,
        w2.nonneg _ (List.getElem_mem _), le_rfl, ?_⟩
      rw [← times_getElem tr2 _ (by omega), m1, show times.length - 1 + 1 = tr2.getSegmentTimes.length by
        rw [getSegmentTimes_length]; omega, startTime_length, e2, List.sum_reverse]
  have hil : i < times.length := by omega
  set j := times.length - 1 - i with hj
  have hjl : j < tr1.segments.length := by omega
  have tj : tr1.segments[j].time = times.getD j 0 :=
    shape_time_getD s1.shape (by rw [← g1]; exact List.getElem?_eq_getElem hjl)
  have ti : tr2.segments[i].time = times.getD j 0 := by
    rw [shape_time_getD s2.shape (i := i) (by rw [← g2]; exact List.getElem?_eq_getElem hi), getD_reverse times hil]
  rw [ti] at hx1
  have eq1 : tr1.maxTime - (startTime tr2.getSegmentTimes i + x) =
      startTime tr1.getSegmentTimes j + (times.getD j 0 - x) := by
    rw [m1, e1, e2, startTime_reverse times hil]
    ring
  rw [eq1, evaluate_in tr1 w1 j1 hjl (by linarith) (by rw [tj]; linarith),
    evaluate_in tr2 w2 j2 hi hx0 (by rw [ti]; exact hx1)]
  refine ⟨_, rfl, ?_⟩
  have c1 : o1'.segments[j]? = some tr1.segments[j] := by rw [← g1]; exact List.getElem?_eq_getElem hjl
  have c2 : o2'.segments[i]? = some tr2.segments[i] := by rw [← g2]; exact List.getElem?_eq_getElem hi
  rw [segValue_cf s1.shape c1, segValue_cf s2.shape c2, List.map_map]
  congr 1
  refine List.map_congr_left fun d hd => ?_
  exact key i hil d (by simpa using hd) q x

/-- The hypotheses are met by a path from rest by way of (1, 1) and its way back. -/
example : ∃ o1 o1' o2 o2' : LinOpt 2 ℝ, IsInverse (exLib 2).inv ∧ IsSolver (exLib 2).solve ∧
    Session (exLib 2).inv (exLib 2).solve (exThree (0, 0) (1, 1) (3, 0)) 1 [1, 2] o1 ∧
    o1.solveLinear (exLib 2).solve = .ok o1' ∧
    Session (exLib 2).inv (exLib 2).solve (exThree (3, 0) (1, 1) (0, 0)) 1 [1, 2].reverse o2 ∧
    o2.solveLinear (exLib 2).solve = .ok o2' ∧ o2.dimension = o1.dimension ∧
    Pinned 1 (exThree (0, 0) (1, 1) (3, 0)) ∧
    List.Forall₂ Reversed (exThree (0, 0) (1, 1) (3, 0)).reverse (exThree (3, 0) (1, 1) (0, 0)) := by
  obtain ⟨o1, o1', a1, a2, a3⟩ := exThree_session (0, 0) (1, 1) (3, 0)
  have hp : Problem 2 2 (exThree (3, 0) (1, 1) (0, 0)) [1, 2].reverse :=
    { exThree_problem (3, 0) (1, 1) (0, 0) with
      times_pos := fun T hT => (exThree_problem (3, 0) (1, 1) (0, 0)).times_pos T (List.mem_reverse.mp hT) }
  obtain ⟨o2, o2', -, b1, b2, b3⟩ := C30_returns (inv := (exLib 2).inv) (solve := (exLib 2).solve) hp 1
    (by norm_num)
  refine ⟨o1, o1', o2, o2', exLib_spec.inv, exLib_spec.solve, a1, a3, b1, b3, by rw [a2, b2],
    exThree_pinned _ _ _, ?_⟩
  have two : ∀ x : ℝ × ℝ, Reversed ⟨2, [(0, [x.1, x.2]), (1, [0, 0])]⟩
      ⟨2, [(0, [x.1, x.2]), (1, [0, 0])]⟩ := by
    intro x m
    unfold Vertex.getConstraint
    rw [mapFind_two]
    split
    · rename_i h0; simp [h0]
    · split <;> simp
  have one : ∀ x : ℝ × ℝ, Reversed ⟨2, [(0, [x.1, x.2])]⟩ ⟨2, [(0, [x.1, x.2])]⟩ := by
    intro x m
    unfold Vertex.getConstraint
    rw [mapFind_one]
    split
    · rename_i h0; simp [h0]
    · rfl
  exact .cons (two (3, 0)) (.cons (one (1, 1)) (.cons (two (0, 0)) .nil))

end Verif
