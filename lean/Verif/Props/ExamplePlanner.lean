import Verif.Proofs.ExamplePlanner

/-
C79, C80: the example planners.
-/
namespace Verif

open Spec Set

set_option linter.unusedSectionVars false

/-! ### C79 the planner for positions -/

/-- **C79**, without the limits and for goals that are not where the vehicle is. The call returns, whatever
NLopt does, and the planned trajectory leads from the present position and velocity of the vehicle to the
goal position and velocity. `vMax / 2^53` is the distance below which the estimated time is not told from
zero. -/
theorem C79_plan_partial {lib : NlLib 5 ℝ} (hl : LibSpec lib) (v : Vehicle ℝ) (goalPos goalVel : List ℝ)
    (hp : v.position.length = 3) (hv : v.velocity.length = 3) (hq : goalPos.length = 3)
    (hw : goalVel.length = 3) (vMax aMax : ℝ) (hvm : 0 < vMax) (ham : 0 < aMax)
    (hfar : vMax / 2 ^ 53 ≤ distance v.position goalPos) :
    ∃ o, planSetup lib 3 v.position v.velocity goalPos goalVel vMax aMax = .ok o ∧
      ∀ run, RunOf lib false o run →
        ∃ tr, planTrajectory lib run v vMax aMax goalPos goalVel = .ok tr ∧ tr.D = 3 ∧
          GoesFromTo tr v.position v.velocity goalPos goalVel := by
  obtain ⟨o, h1, h2⟩ := planOptimize_ok hl 3 (by norm_num) _ _ _ _ hp hv hq hw vMax aMax hvm ham hfar
  refine ⟨o, h1, fun run hrun => ?_⟩
  obtain ⟨tr, h3, -, h5, -, h7, -⟩ := h2 run hrun
  refine ⟨tr, ?_, h5, h7⟩
  unfold planTrajectory
  rw [h1, Res.ok_bind, h3]

/-- **C79 is false for a goal at the present position**: for all parameters and velocities the program is
aborted, since the estimated time is 0. -/
theorem C79_same_position_false {lib : NlLib 5 ℝ} (hsq : lib.sq = Real.sqrt) (hex : lib.ex = Real.exp)
    (run : NlRun ℝ) (v : Vehicle ℝ) (goalVel : List ℝ) (hp : v.position.length = 3)
    (hv : v.velocity.length = 3) (hw : goalVel.length = 3) (vMax aMax : ℝ) (hvm : 0 < vMax)
    (ham : 0 < aMax) :
    planTrajectory lib run v vMax aMax v.position goalVel = .abort := by
  obtain ⟨s, e, h1, h2, h3, h4, h5, h6, h7⟩ := planVertices_ok 3 v.position v.velocity v.position goalVel
    hp hv hp hw
  have hs0 : s.getConstraint 0 = some v.position := h6 0 (by norm_num)
  have he0 : e.getConstraint 0 = some v.position := h7 0 (by norm_num)
  obtain ⟨ts, t1, t2, t3⟩ := C27_times_partial 3 [s, e] (by simp) (by
    intro x hx
    simp only [List.mem_cons, List.not_mem_nil, or_false] at hx
    rcases hx with rfl | rfl
    · exact ⟨_, hs0, hp⟩
    · exact ⟨_, he0, hp⟩) vMax aMax 6.5 hvm ham (by norm_num)
  have hts : ∃ T, ts = [T] := by
    match ts, t2 with
    | [T], _ => exact ⟨T, rfl⟩
  obtain ⟨T, rfl⟩ := hts
  obtain ⟨-, -, t4⟩ := t3 0 (by simp) (by simp) _ _ hs0 he0
  have hd : distance v.position v.position = 0 := by
    unfold distance
    simp
  have hT : T = 0 := by
    simp only [List.getElem_cons_zero] at t4
    rw [t4, hd]
    ring
  obtain ⟨s', f1, -⟩ := filterVertex_ok 5 3 s h2 h3
  obtain ⟨e', f2, -⟩ := filterVertex_ok 5 3 e h4 h5
  have hset : (NlOpt.new 3 NlParams.default : NlOpt 5 ℝ).setupFromVertices lib [s, e] [0] 4 = .abort := by
    unfold NlOpt.setupFromVertices LinOpt.setupFromVertices LinOpt.updateSegmentTimes
    rw [Res.check_of (by norm_num), Res.ok_bind, if_neg (by simp)]
    dsimp only
    rw [Res.check_of (by simp), Res.ok_bind]
    have hm : [s, e].mapM (filterVertex 5 (NlOpt.new 3 NlParams.default : NlOpt 5 ℝ).lin.dimension) =
        .ok [s', e'] := by
      have f1' : filterVertex 5 (NlOpt.new 3 NlParams.default : NlOpt 5 ℝ).lin.dimension s = .ok s' := f1
      have f2' : filterVertex 5 (NlOpt.new 3 NlParams.default : NlOpt 5 ℝ).lin.dimension e = .ok e' := f2
      simp [List.mapM_cons, f1', f2']
    rw [hm, Res.ok_bind, Res.check_of (by simp), Res.ok_bind]
    simp [List.mapM_cons, Res.check_of_not]
  unfold planTrajectory planSetup
  rw [h1, Res.ok_bind, hsq, hex, C27_default, t1, Res.ok_bind, hT, hset]
  rfl

/-- **C79**, goals of the wrong size abort the program. -/
theorem C79_wrong_size {lib : NlLib 5 ℝ} (run : NlRun ℝ) (v : Vehicle ℝ) (goalPos goalVel : List ℝ)
    (hp : v.position.length = 3) (hv : v.velocity.length = 3)
    (hbad : goalPos.length ≠ 3 ∨ goalVel.length ≠ 3) (vMax aMax : ℝ) :
    planTrajectory lib run v vMax aMax goalPos goalVel = .abort := by
  obtain ⟨s, h1, -, -, -⟩ := planVertex_ok 3 v.position v.velocity hp hv
  rw [Res.bind_eq_ok] at h1
  obtain ⟨s0, a1, a2⟩ := h1
  have hpv : planVertices 3 v.position v.velocity goalPos goalVel = .abort := by
    unfold planVertices
    rw [a1, Res.ok_bind, a2, Res.ok_bind]
    by_cases hq : goalPos.length = 3
    · rw [makeStartOrEnd_ok _ _ _ hq, Res.ok_bind]
      unfold Vertex.addConstraint
      rw [Res.check_of_not (by
        rcases hbad with h | h
        · exact absurd hq h
        · exact h)]
      rfl
    · unfold Vertex.makeStartOrEnd Vertex.addConstraint
      rw [Res.check_of_not (show ¬ goalPos.length = (Vertex.new 3 : Vertex ℝ).D from hq)]
      rfl
  unfold planTrajectory planSetup
  rw [hpv]
  rfl

/-- **C79**, the limits do not hold. From rest at the origin to rest at (1, 0, 0) with a maximum speed of
2: there is a run of NLopt for which the planned trajectory reaches a speed of 10 (limits are soft). -/
theorem C79_limits_false : ∃ (lib : NlLib 5 ℝ) (v : Vehicle ℝ) (o : NlOpt 5 ℝ) (run : NlRun ℝ)
    (tr : Trajectory ℝ), LibSpec lib ∧ v.position = [0, 0, 0] ∧ v.velocity = [0, 0, 0] ∧
    planSetup lib 3 v.position v.velocity [1, 0, 0] [0, 0, 0] 2 2 = .ok o ∧ RunOf lib false o run ∧
    planTrajectory lib run v 2 2 [1, 0, 0] [0, 0, 0] = .ok tr ∧
    ∃ t ∈ Icc 0 tr.maxTime, ∃ u, tr.evaluate t 1 = .ok u ∧ 10 ≤ Real.sqrt ((u.map (· ^ 2)).sum) := by
  have hfar : (2 : ℝ) / 2 ^ 53 ≤ distance [0, 0, 0] [1, 0, 0] := by
    apply le_distance_of_sq
    · simp [Finset.sum_range_succ]
      norm_num
  obtain ⟨o, h1, h2⟩ := planOptimize_ok (exLib_spec (h := 5)) 3 (by norm_num) [0, 0, 0] [0, 0, 0] [1, 0, 0]
    [0, 0, 0] rfl rfl rfl rfl 2 2 (by norm_num) (by norm_num) hfar
  have hrun := planRun_ok (exLib_spec (h := 5)) 3 (by norm_num) [0, 0, 0] [0, 0, 0] [1, 0, 0]
    [0, 0, 0] rfl rfl rfl rfl 2 2 (by norm_num) (by norm_num) hfar (1 / 10) le_rfl
    (le_dblMax (by norm_num)) o h1
  obtain ⟨tr, h3, h4, h5, -, h7, h8⟩ := h2 _ hrun
  have hT : tr.maxTime = 1 / 10 := by
    rw [h4.total, h8 rfl [1 / 10] (by simp [points])]
    simp
  refine ⟨exLib 5, ⟨[0, 0, 0], [0, 0, 0], 0, [0, 0, 0], [0, 0, 0]⟩, o, _, tr, exLib_spec, rfl, rfl, h1, hrun,
    ?_, ?_⟩
  · unfold planTrajectory
    rw [h1, Res.ok_bind, h3]
  · obtain ⟨t, ht, u, hu, hb⟩ := fast_somewhere h4 h7.one h7.duration 0 1 [0, 0] [0, 0] h7.startPosition
      h7.goalPosition
    refine ⟨t, ⟨ht.1.le, ht.2.le⟩, u, hu, ?_⟩
    rw [hT] at hb
    linarith

example : ∃ (lib : NlLib 5 ℝ) (o : NlOpt 5 ℝ) (run : NlRun ℝ), LibSpec lib ∧
    planSetup lib 3 [1, 2, 3] [1, 0, 0] [4, 6, 3] [0, 1, 0] 2 1 = .ok o ∧ RunOf lib false o run ∧
    (2 : ℝ) / 2 ^ 53 ≤ distance [1, 2, 3] [4, 6, 3] := by
  have hfar : (2 : ℝ) / 2 ^ 53 ≤ distance [1, 2, 3] [4, 6, 3] := by
    apply le_distance_of_sq
    · simp [Finset.sum_range_succ]
      norm_num
  obtain ⟨o, h1, -⟩ := planOptimize_ok (exLib_spec (h := 5)) 3 (by norm_num) [1, 2, 3] [1, 0, 0] [4, 6, 3]
    [0, 1, 0] rfl rfl rfl rfl 2 1 (by norm_num) (by norm_num) hfar
  exact ⟨exLib 5, o, _, exLib_spec, h1, planRun_ok exLib_spec 3 (by norm_num) [1, 2, 3] [1, 0, 0] [4, 6, 3]
    [0, 1, 0] rfl rfl rfl rfl 2 1 (by norm_num) (by norm_num) hfar 3 (by norm_num)
    (le_dblMax (by norm_num)) o h1, hfar⟩

/-! ### C80 the planner for positions, positions with yaw, and poses -/

/-- **C80**, goals with three entries, without the velocities at the ends. The planned trajectory leads from
the present position to the goal, never faster than the limits (with a margin of 0.1 %), and the velocities
at the two ends are the wanted ones slowed down by a common factor. Speeds and accelerations of the
trajectory before the scaling must be below the largest `double` (otherwise the maximum is not found). -/
theorem C80_position_partial {lib : NlLib 5 ℝ} (hl : LibSpec lib) (v : Vehicle ℝ)
    (goalPos goalVel : List ℝ) (hp : v.position.length = 3) (hv : v.velocity.length = 3)
    (hq : goalPos.length = 3) (hw : goalVel.length = 3) (vMax aMax angVMax angAMax : ℝ) (hvm : 0 < vMax)
    (ham : 0 < aMax) (hfar : vMax / 2 ^ 53 ≤ distance v.position goalPos) :
    ∃ o, planSetup lib 3 v.position v.velocity goalPos goalVel vMax aMax = .ok o ∧
      ∀ runs : NlRun ℝ × NlRun ℝ, RunOf lib false o runs.1 →
        ∃ tr, planOptimize lib runs.1 o = .ok tr ∧ (FiniteVA tr →
          ∃ r, planTrajectory6 lib runs v vMax aMax angVMax angAMax goalPos goalVel = .ok (true, r) ∧
            r.D = 3 ∧ SlowedFromTo r v.position v.velocity goalPos goalVel ∧
            NormAtMost r 1 0 3 ((1 + 1 / 1000) * vMax) ∧ NormAtMost r 2 0 3 ((1 + 1 / 1000) * aMax)) := by
  obtain ⟨o, h1, h2⟩ := planFrom_ok hl 3 (by norm_num) _ _ _ _ hp hv hq hw vMax aMax hvm ham hfar
  refine ⟨o, h1, fun runs hrun => ?_⟩
  obtain ⟨tr, h3, h4⟩ := h2 runs.1 hrun
  refine ⟨tr, h3, fun hfin => ?_⟩
  obtain ⟨r, g1, -, g3, -, g5, g6, g7, -⟩ := h4 hfin
  refine ⟨r, ?_, g3, g5, g6, g7⟩
  unfold planTrajectory6
  rw [if_neg (by omega), if_pos hq, g1, Res.ok_bind]
  rfl

/-- **C80**, goals with four entries: the fourth is the yaw angle, which starts at the present one at rest. -/
theorem C80_yaw_partial {lib : NlLib 5 ℝ} (hl : LibSpec lib) (v : Vehicle ℝ)
    (goalPos goalVel : List ℝ) (hp : v.position.length = 3) (hv : v.velocity.length = 3)
    (hq : goalPos.length = 4) (hw : goalVel.length = 4) (vMax aMax angVMax angAMax : ℝ) (hvm : 0 < vMax)
    (ham : 0 < aMax) (hfar : vMax / 2 ^ 53 ≤ distance (v.position ++ [v.yaw]) goalPos) :
    ∃ o, planSetup lib 4 (v.position ++ [v.yaw]) (v.velocity ++ [0]) goalPos goalVel vMax aMax = .ok o ∧
      ∀ runs : NlRun ℝ × NlRun ℝ, RunOf lib false o runs.1 →
        ∃ tr, planOptimize lib runs.1 o = .ok tr ∧ (FiniteVA tr →
          ∃ r, planTrajectory6 lib runs v vMax aMax angVMax angAMax goalPos goalVel = .ok (true, r) ∧
            r.D = 4 ∧ SlowedFromTo r (v.position ++ [v.yaw]) (v.velocity ++ [0]) goalPos goalVel ∧
            NormAtMost r 1 0 4 ((1 + 1 / 1000) * vMax) ∧ NormAtMost r 2 0 4 ((1 + 1 / 1000) * aMax)) := by
  obtain ⟨o, h1, h2⟩ := planFrom_ok hl 4 (by norm_num) (v.position ++ [v.yaw]) (v.velocity ++ [0]) goalPos
    goalVel (by simp [hp]) (by simp [hv]) hq hw vMax aMax hvm ham hfar
  refine ⟨o, h1, fun runs hrun => ?_⟩
  obtain ⟨tr, h3, h4⟩ := h2 runs.1 hrun
  refine ⟨tr, h3, fun hfin => ?_⟩
  obtain ⟨r, g1, -, g3, -, g5, g6, g7, -⟩ := h4 hfin
  refine ⟨r, ?_, g3, g5, g6, g7⟩
  unfold planTrajectory6
  rw [if_neg (by omega), if_neg (by omega), if_pos hq, g1, Res.ok_bind]
  rfl

/-- **C80**, goals with six entries: three for the position and three for the rotation vector, with limits
of their own. -/
theorem C80_pose_partial {lib : NlLib 5 ℝ} (hl : LibSpec lib) (v : Vehicle ℝ)
    (goalPos goalVel goalRot goalAng : List ℝ) (hp : v.position.length = 3) (hv : v.velocity.length = 3)
    (hr : v.rotation.length = 3) (ha : v.angularVelocity.length = 3)
    (hq : goalPos.length = 3) (hw : goalVel.length = 3) (hq' : goalRot.length = 3)
    (hw' : goalAng.length = 3) (vMax aMax angVMax angAMax : ℝ) (hvm : 0 < vMax)
    (ham : 0 < aMax) (hvm' : 0 < angVMax) (ham' : 0 < angAMax)
    (hfar : vMax / 2 ^ 53 ≤ distance v.position goalPos)
    (hfar' : angVMax / 2 ^ 53 ≤ distance v.rotation goalRot) :
    ∃ o o', planSetup lib 3 v.position v.velocity goalPos goalVel vMax aMax = .ok o ∧
      planSetup lib 3 v.rotation v.angularVelocity goalRot goalAng angVMax angAMax = .ok o' ∧
      ∀ runs : NlRun ℝ × NlRun ℝ, RunOf lib false o runs.1 → RunOf lib false o' runs.2 →
        ∃ tr tr', planOptimize lib runs.1 o = .ok tr ∧ planOptimize lib runs.2 o' = .ok tr' ∧
          (FiniteVA tr → FiniteVA tr' →
          ∃ r, planTrajectory6 lib runs v vMax aMax angVMax angAMax (goalPos ++ goalRot)
              (goalVel ++ goalAng) = .ok (true, r) ∧
            r.D = 6 ∧ 0 < r.maxTime ∧ r.evaluate 0 0 = .ok (v.position ++ v.rotation) ∧
            r.evaluate r.maxTime 0 = .ok (goalPos ++ goalRot) ∧
            (∃ k k' : ℝ, 0 < k ∧ k ≤ 1 ∧ 0 < k' ∧ k' ≤ 1 ∧
              r.evaluate 0 1 = .ok (v.velocity.map (· * k) ++ v.angularVelocity.map (· * k')) ∧
              r.evaluate r.maxTime 1 = .ok (goalVel.map (· * k) ++ goalAng.map (· * k'))) ∧
            (∀ m : ℕ, 2 ≤ m → m ≤ 4 → r.evaluate 0 m = .ok [0, 0, 0, 0, 0, 0] ∧
              r.evaluate r.maxTime m = .ok [0, 0, 0, 0, 0, 0]) ∧
            NormAtMost r 1 0 3 ((1 + 1 / 1000) * vMax) ∧ NormAtMost r 2 0 3 ((1 + 1 / 1000) * aMax) ∧
            NormAtMost r 1 3 3 ((1 + 1 / 1000) * angVMax) ∧
            NormAtMost r 2 3 3 ((1 + 1 / 1000) * angAMax)) := by
  obtain ⟨o, h1, h2⟩ := planFrom_ok hl 3 (by norm_num) _ _ _ _ hp hv hq hw vMax aMax hvm ham hfar
  obtain ⟨o', h1', h2'⟩ := planFrom_ok hl 3 (by norm_num) _ _ _ _ hr ha hq' hw' angVMax angAMax hvm' ham'
    hfar'
  refine ⟨o, o', h1, h1', fun runs hrun hrun' => ?_⟩
  obtain ⟨tr, h3, h4⟩ := h2 runs.1 hrun
  obtain ⟨tr', h3', h4'⟩ := h2' runs.2 hrun'
  refine ⟨tr, tr', h3, h3', fun hfin hfin' => ?_⟩
  obtain ⟨r1, g1, g2, g3, g4, g5, g6, g7, -⟩ := h4 hfin
  obtain ⟨r2, k1, k2, k3, k4, k5, k6, k7, -⟩ := h4' hfin'
  obtain ⟨r, e1, e2, e3, e4, e5, e6, e7, e8, e9, e10, e11, e12, e13⟩ := append_plans r1 r2 g2 k2 g4 k4
    (by omega) (by omega) _ _ _ _ _ _ _ _ g5 k5 _ _ _ _ (by rw [g3]; exact g6) (by rw [g3]; exact g7)
    (by rw [k3]; exact k6) (by rw [k3]; exact k7)
  rw [g3] at e10 e11 e12 e13
  rw [k3] at e12 e13
  refine ⟨r, ?_, by omega, ?_, e6, e7, e8, ?_, e10, e11, e12, e13⟩
  · unfold planTrajectory6
    rw [if_pos (by simp [hq, hq']), if_neg (by simp [hw, hw'])]
    have t1 : (goalPos ++ goalRot).take 3 = goalPos := by rw [← hq, List.take_left]
    have t2 : (goalVel ++ goalAng).take 3 = goalVel := by rw [← hw, List.take_left]
    have t3 : (goalPos ++ goalRot).drop 3 = goalRot := by rw [← hq, List.drop_left]
    have t4 : (goalVel ++ goalAng).drop ((goalVel ++ goalAng).length - 3) = goalAng := by
      rw [List.length_append, hw', Nat.add_sub_cancel, List.drop_left]
    rw [t1, t2, t3, t4, g1, Res.ok_bind, k1, Res.ok_bind, e1, Res.ok_bind]
    rfl
  · rw [e5]; exact lt_max_of_lt_left g5.duration
  · intro m hm1 hm2
    have := e9 m hm1 hm2
    rw [hp, hr] at this
    exact this

/-- **C80**, goals with any other number of entries are refused and give an empty trajectory. -/
theorem C80_refused (lib : NlLib 5 ℝ) (runs : NlRun ℝ × NlRun ℝ) (v : Vehicle ℝ)
    (vMax aMax angVMax angAMax : ℝ) (goalPos goalVel : List ℝ) (h3 : goalPos.length ≠ 3)
    (h4 : goalPos.length ≠ 4) (h6 : goalPos.length ≠ 6) :
    ∃ r, planTrajectory6 lib runs v vMax aMax angVMax angAMax goalPos goalVel = .ok (false, r) ∧
      r.segments = [] := by
  unfold planTrajectory6
  rw [if_neg h6, if_neg h3, if_neg h4]
  exact ⟨_, rfl, rfl⟩

/-- The coefficients of the first coordinate in the next theorem. -/
def exFast : List ℝ := [0, 1, 0, 0, 0, 1134, -3780, 4860, -2835, 630]

theorem exFast_values : ∀ m < 5, derivAt exFast m 0 = (if m = 1 then 1 else 0) ∧
    derivAt exFast m 1 = (if m = 0 then 10 else if m = 1 then 1 else 0) := by
  intro m hm
  simp only [derivAt_eq_sum]
  interval_cases m <;> constructor <;>
    simp [exFast, Finset.sum_range_succ, Nat.descFactorial] <;> norm_num

theorem exFast_bound (m : ℕ) (hm : m = 1 ∨ m = 2) (t : ℝ) (ht : t ∈ Icc (0 : ℝ) 1) :
    |derivAt exFast m t| < 1000000 := by
  have hp : ∀ i : ℕ, 0 ≤ t ^ i ∧ t ^ i ≤ 1 := fun i => ⟨pow_nonneg ht.1 i, pow_le_one₀ ht.1 ht.2⟩
  have h3 := hp 3
  have h4 := hp 4
  have h5 := hp 5
  have h6 := hp 6
  have h7 := hp 7
  have h8 := hp 8
  rw [derivAt_eq_sum, abs_lt]
  rcases hm with rfl | rfl <;> simp [exFast, Finset.sum_range_succ, Nat.descFactorial] <;> constructor <;>
    linarith

theorem exFast_far : (2 : ℝ) / 2 ^ 53 ≤ distance [0, 0, 0] [10, 0, 0] := by
  apply le_distance_of_sq
  simp [Finset.sum_range_succ]
  norm_num

/-- One evaluation of the objective function, at the time 1. -/
def exFastRun : NlRun ℝ := ⟨false, [.objective [1] false], some 5, true⟩

theorem exFast_plan : ∃ (o : NlOpt 5 ℝ) (tr : Trajectory ℝ),
    planSetup (exLib 5) 3 [0, 0, 0] [1, 0, 0] [10, 0, 0] [1, 0, 0] 2 2 = .ok o ∧
    RunOf (exLib 5) false o exFastRun ∧ planOptimize (exLib 5) exFastRun o = .ok tr ∧ FiniteVA tr ∧
    tr.maxTime = 1 := by
  have hfar := exFast_far
  obtain ⟨o, h1, h2⟩ := planOptimize_ok (exLib_spec (h := 5)) 3 (by norm_num) [0, 0, 0] [1, 0, 0] [10, 0, 0]
    [1, 0, 0] rfl rfl rfl rfl 2 2 (by norm_num) (by norm_num) hfar
  have hrun := planRun_ok (exLib_spec (h := 5)) 3 (by norm_num) [0, 0, 0] [1, 0, 0] [10, 0, 0]
    [1, 0, 0] rfl rfl rfl rfl 2 2 (by norm_num) (by norm_num) hfar 1 (by norm_num)
    (le_dblMax (by norm_num)) o h1
  obtain ⟨tr, h3, h4, h5, h6, h7, h8⟩ := h2 _ hrun
  have hT : tr.maxTime = 1 := by
    rw [h4.total, h8 rfl [1] (by simp [points])]
    simp
  have hz : ∀ m t, derivAt (List.replicate 10 (0 : ℝ)) m t = 0 := by
    intro m t
    rw [derivAt_eq_sum]
    apply Finset.sum_eq_zero
    intro i _
    rw [show (List.replicate 10 (0 : ℝ)).getD (m + i) 0 = 0 from by
      rw [List.getD_eq_getElem?_getD, List.getElem?_replicate]
      split_ifs <;> rfl]
    ring
  have hseg := plan_unique h4 h6 h7.one h7.duration [exFast, List.replicate 10 0, List.replicate 10 0]
    (by intro c hc; simp at hc; rcases hc with rfl | rfl <;> rfl) (by
      intro m hm
      simp only [List.map_cons, List.map_nil, hz, (exFast_values m hm).1]
      interval_cases m
      · simpa using h7.startPosition
      · simpa using h7.startVelocity
      · simpa using h7.startRest 2 (by norm_num) (by norm_num)
      · simpa using h7.startRest 3 (by norm_num) (by norm_num)
      · simpa using h7.startRest 4 (by norm_num) (by norm_num)) (by
      intro m hm
      have e : ∀ c : List ℝ, derivAt c m tr.maxTime = derivAt c m 1 := by intro c; rw [hT]
      simp only [List.map_cons, List.map_nil, e, hz, (exFast_values m hm).2]
      interval_cases m
      · simpa using h7.goalPosition
      · simpa using h7.goalVelocity
      · simpa using h7.goalRest 2 (by norm_num) (by norm_num)
      · simpa using h7.goalRest 3 (by norm_num) (by norm_num)
      · simpa using h7.goalRest 4 (by norm_num) (by norm_num))
  have hfin : FiniteVA tr := by
    intro s hs t ht
    rw [hseg, List.mem_singleton] at hs
    subst hs
    rw [hT] at ht
    have key : ∀ m, m = 1 ∨ m = 2 → magnitude [⟨exFast⟩, ⟨List.replicate 10 0⟩, ⟨List.replicate 10 0⟩]
        (List.range tr.D) m t < dblMax := by
      intro m hm
      refine lt_of_lt_of_le ?_ (le_dblMax (le_refl 1000000))
      unfold magnitude
      rw [← segValue_eq_valuesAt ⟨_, 1, 10⟩, h5]
      simp only [segValue, List.map_cons, List.map_nil, hz]
      simp only [List.range_succ, List.range_zero, List.nil_append, List.map_append, List.map_cons, List.map_nil,
        List.sum_append, List.sum_cons, List.sum_nil, List.getD_cons_zero, List.getD_cons_succ, List.cons_append]
      rw [show ∀ x : ℝ, x ^ 2 + (0 ^ 2 + (0 ^ 2 + 0)) = x ^ 2 from fun x => by ring, Real.sqrt_sq_eq_abs]
      exact exFast_bound m hm t ht
    exact ⟨key 1 (.inl rfl), key 2 (.inr rfl)⟩
  exact ⟨o, tr, h1, hrun, h3, hfin, hT⟩

/-- **C80 is false for the velocity at the start.** The vehicle moves at half the maximum speed, and the
planned trajectory starts with at most half of the velocity of the vehicle. -/
theorem C80_start_velocity_false : ∃ (lib : NlLib 5 ℝ) (v : Vehicle ℝ) (o : NlOpt 5 ℝ)
    (runs : NlRun ℝ × NlRun ℝ) (r : Trajectory ℝ) (x : ℝ), LibSpec lib ∧ v.position = [0, 0, 0] ∧
    v.velocity = [1, 0, 0] ∧
    planSetup lib 3 v.position v.velocity [10, 0, 0] [1, 0, 0] 2 2 = .ok o ∧ RunOf lib false o runs.1 ∧
    planTrajectory6 lib runs v 2 2 1 1 [10, 0, 0] [1, 0, 0] = .ok (true, r) ∧
    r.evaluate 0 1 = .ok [x, 0, 0] ∧ x ≤ 1 / 2 := by
  obtain ⟨o, tr, h1, hrun, h3, hfin, hT⟩ := exFast_plan
  have hfar := exFast_far
  obtain ⟨o', h1', h2'⟩ := planFrom_ok (exLib_spec (h := 5)) 3 (by norm_num) [0, 0, 0] [1, 0, 0] [10, 0, 0]
    [1, 0, 0] rfl rfl rfl rfl 2 2 (by norm_num) (by norm_num) hfar
  rw [h1] at h1'
  injection h1' with h1'
  subst h1'
  obtain ⟨tr', k1, k2⟩ := h2' _ hrun
  rw [h3] at k1
  injection k1 with k1
  subst k1
  obtain ⟨r, g1, g2, g3, g4, g5, g6, g7, g8, c, c1, c2, c3, c4⟩ := k2 hfin
  refine ⟨exLib 5, ⟨[0, 0, 0], [1, 0, 0], 0, [0, 0, 0], [0, 0, 0]⟩, o,
    (exFastRun, exFastRun), r, 1 / c,
    exLib_spec, rfl, rfl, h1, hrun, ?_, ?_, ?_⟩
  · unfold planTrajectory6
    rw [if_neg (by simp), if_pos (by simp), g1, Res.ok_bind]
    rfl
  · rw [c4]; simp
  · obtain ⟨t, ht, u, hu, hb⟩ := fast_somewhere g2 g5.one g5.duration 0 10 [0, 0] [0, 0] g5.startPosition
      g5.goalPosition
    obtain ⟨u', hu', hl', hb'⟩ := g6 t ⟨ht.1.le, ht.2.le⟩
    rw [Nat.cast_one, hu] at hu'
    injection hu' with hu'
    subst hu'
    rw [map_getD_norm (by omega)] at hb'
    have hb2 := le_trans hb hb'
    rw [c2, hT, one_mul, sub_zero, div_le_iff₀ (by linarith)] at hb2
    rw [div_le_iff₀ (by linarith)]
    linarith

example : ∃ (lib : NlLib 5 ℝ) (v : Vehicle ℝ) (o : NlOpt 5 ℝ) (runs : NlRun ℝ × NlRun ℝ)
    (tr : Trajectory ℝ), LibSpec lib ∧
    planSetup lib 3 v.position v.velocity [10, 0, 0] [1, 0, 0] 2 2 = .ok o ∧
    planSetup lib 3 v.rotation v.angularVelocity [10, 0, 0] [1, 0, 0] 2 2 = .ok o ∧
    RunOf lib false o runs.1 ∧ RunOf lib false o runs.2 ∧ planOptimize lib runs.1 o = .ok tr ∧
    planOptimize lib runs.2 o = .ok tr ∧ FiniteVA tr ∧
    (2 : ℝ) / 2 ^ 53 ≤ distance v.position [10, 0, 0] ∧ (2 : ℝ) / 2 ^ 53 ≤ distance v.rotation [10, 0, 0] := by
  obtain ⟨o, tr, h1, hrun, h3, hfin, -⟩ := exFast_plan
  exact ⟨exLib 5, ⟨[0, 0, 0], [1, 0, 0], 0, [0, 0, 0], [1, 0, 0]⟩, o, (exFastRun, exFastRun), tr, exLib_spec,
    h1, h1, hrun, hrun, h3, h3, hfin, exFast_far, exFast_far⟩

example (yaw : ℝ) : (2 : ℝ) / 2 ^ 53 ≤ distance ([0, 0, 0] ++ [yaw]) [3, 0, 4, yaw] := by
  apply le_distance_of_sq
  simp [Finset.sum_range_succ]
  norm_num

end Verif
