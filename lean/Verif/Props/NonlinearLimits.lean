import Verif.Proofs.NlOptLimits
import Verif.Proofs.ExamplePlanner
import Mathlib.Tactic.IntervalCases

/-
Limits on velocity and acceleration after the segment times have been scaled.
-/
namespace Verif

open Spec Set

set_option linter.unusedSectionVars false

section
variable {h : ℕ}

theorem withinLimit_slower {tr r : Trajectory ℝ} {c : ℝ} (hc : 0 < c) (hm : r.maxTime = tr.maxTime * c)
    (hD : r.D = tr.D) {m : ℕ}
    (he : ∀ t, r.evaluate (c * t) m = (fun v => v.map (· / c ^ m)) <$> tr.evaluate t m) {bound : ℝ}
    (hr : WithinLimit r m bound) : WithinLimit tr m (c ^ m * bound) := by
  intro t ht
  have hcm : 0 < c ^ m := pow_pos hc m
  obtain ⟨v, h1, h2, h3⟩ := hr (c * t) ⟨mul_nonneg hc.le ht.1, by
    rw [hm, mul_comm]
    exact mul_le_mul_of_nonneg_right ht.2 hc.le⟩
  rw [he] at h1
  cases hw : tr.evaluate t m with
  | ok w =>
    rw [hw] at h1
    have h1 : w.map (· / c ^ m) = v := by simpa using h1
    subst h1
    refine ⟨w, rfl, by rw [← hD, ← h2]; simp, ?_⟩
    have e : (((w.map (· / c ^ m)).map (· ^ 2)).sum) = (w.map (· ^ 2)).sum / (c ^ m) ^ 2 := by
      rw [List.map_map, div_eq_mul_inv, ← List.sum_map_mul_right]
      congr 1
      refine List.map_congr_left fun x _ => ?_
      simp only [Function.comp_apply, div_eq_mul_inv, mul_pow, inv_pow]
    rw [e, Real.sqrt_div' _ (by positivity), Real.sqrt_sq hcm.le, div_le_iff₀ hcm] at h3
    linarith
  | abort => rw [hw] at h1; cases h1
  | throws => rw [hw] at h1; cases h1
  | ub => rw [hw] at h1; cases h1
  | hang => rw [hw] at h1; cases h1

/-! ### C82 limits after scaling -/

/-- **C82.** `scaleSegmentTimesWithViolation()` multiplies all segment times by one factor `c ≥ 1`. Run
slower by `c`, the trajectory that was there before keeps the limits on velocity and acceleration added
last, up to a thousandth; the factor is 1, or the smallest that does so exactly. The trajectory afterwards
is the one of smallest cost for the new times. -/
theorem C82_factor {lib : NlLib h ℝ} (hl : LibSpec lib) (hh : 2 ≤ h) {vertices : List (Vertex ℝ)} {k : ℕ}
    {b : Prop} {o o' : NlOpt h ℝ} (hs : NlSession lib vertices k b o) (hb : b)
    (ho : o.scaleWithViolation lib = .ok o') {v a : ℝ} (hv : LastLimit 1 v o.constraints) (hv0 : 0 < v)
    (ha : LastLimit 2 a o.constraints) (ha0 : 0 < a) (hfin : Moderate o.lin.dimension o.lin.segments) :
    ∃ tr c, o.lin.getTrajectory = .ok tr ∧ 1 ≤ c ∧
      o'.lin.segmentTimes = o.lin.segmentTimes.map (· * c) ∧
      WithinLimit tr 1 (c * ((1 + 1 / 1000) * v)) ∧ WithinLimit tr 2 (c ^ 2 * ((1 + 1 / 1000) * a)) ∧
      (c = 1 ∨ c * v ∈ norms o.lin.dimension o.lin.segments 1 ∨
        c ^ 2 * a ∈ norms o.lin.dimension o.lin.segments 2) ∧
      Optimal h k o.lin.dimension vertices o'.lin.segmentTimes o'.lin.segments := by
  have hls := (nlSession_inv hs).2.1 hb
  have e1 := limitOf_last hv
  have e2 := limitOf_last ha
  obtain ⟨tr, r, c, l1, g1, w1, d1, s1, hc, w2, ne2, d2, m2, ev, mag, mini, ss, sd, sl, st⟩ :=
    scale_detail hl hls hh ho (by rw [e1]; exact hv0) (by rw [e2]; exact ha0) hfin
  rw [e1, e2] at mag mini
  have hc0 : 0 < c := by linarith
  refine ⟨tr, c, g1, hc, st, ?_, ?_, ?_, ?_⟩
  · have := withinLimit_slower hc0 m2 d2 (m := 1) (fun t => ev t 1)
      (within_of_magnitude w2 ne2 1 _ fun s hs t ht => by rw [d2]; exact (mag s hs t ht).1)
    rwa [pow_one] at this
  · exact withinLimit_slower hc0 m2 d2 (m := 2) (fun t => ev t 2)
      (within_of_magnitude w2 ne2 2 _ fun s hs t ht => by rw [d2]; exact (mag s hs t ht).2)
  · rw [s1, d1] at mini
    rcases mini with h1 | ⟨s, hs, t, ht, h1⟩ | ⟨s, hs, t, ht, h1⟩
    · exact .inl h1
    · exact .inr (.inl ⟨s, hs, t, ht, h1.symm⟩)
    · exact .inr (.inr ⟨s, hs, t, ht, h1.symm⟩)
  · rw [st]
    exact optimal_of_route hl ss sd sl

theorem scaled_limits {lib : NlLib h ℝ} (hl : LibSpec lib) (hh : 2 ≤ h) {vertices : List (Vertex ℝ)} {k : ℕ}
    {o o' : NlOpt h ℝ} (hls : LinSolved lib vertices k o.lin)
    (ho : o.scaleWithViolation lib = .ok o') {v a : ℝ} (hv : LastLimit 1 v o.constraints) (hv0 : 0 < v)
    (ha : LastLimit 2 a o.constraints) (ha0 : 0 < a) (hfin : Moderate o.lin.dimension o.lin.segments)
    (hpin : Pinned k vertices) (hrest : AtRest h vertices)
    (hopt : Optimal h k o.lin.dimension vertices o.lin.segmentTimes o.lin.segments) :
    ∃ tr, o'.lin.getTrajectory = .ok tr ∧ tr.maxTime = o'.lin.segmentTimes.sum ∧
      WithinLimit tr 1 ((1 + 1 / 1000) * v) ∧ WithinLimit tr 2 ((1 + 1 / 1000) * a) := by
  have e1 := limitOf_last hv
  have e2 := limitOf_last ha
  obtain ⟨tr, r, c, l1, g1, w1, d1, s1, hc, w2, ne2, d2, m2, ev, mag, mini, ss, sd, sl, st⟩ :=
    scale_detail hl hls hh ho (by rw [e1]; exact hv0) (by rw [e2]; exact ha0) hfin
  rw [e1, e2] at mag
  have hc0 : 0 < c := by linarith
  obtain ⟨hk, hp, -⟩ := session_ready hls.session
  obtain ⟨hpos, hne⟩ := problem_pos hp
  obtain ⟨-, hp2, -⟩ := session_ready ss
  obtain ⟨-, hne2⟩ := problem_pos hp2
  obtain ⟨-, -, -, na, -⟩ := hls.result hl.inv
  obtain ⟨b1, b2, b3, nb, -, -⟩ := session_result hl.inv ss (.inl sl)
  have minb := (optimal_of_route hl ss sd sl).2
  rw [sd] at b1 b2 b3
  have he := optimum_scaled hk hpos hne hp.count hpin hrest hc0 hopt.1.1 b2 hopt.1.2.1 b1 hopt.1.2.2 b3
    hopt.2 minb
  have hseg : o'.lin.segments = o.lin.segments.map fun s => s.scaleTime c := by
    refine segments_ext b2 (scaleTime_shape hopt.1.1 c) nb ?_ he
    intro s hs
    obtain ⟨x, hx, rfl⟩ := List.mem_map.mp hs
    exact na x hx
  obtain ⟨tr2, t2, w2', d2', m2', s2, g2⟩ := shape_trajectory b2 nb hne2 hp2.times_pos hp2.small
  have hrel : ∀ t (m : ℕ), tr2.evaluate (c * t) m = r.evaluate (c * t) m := by
    intro t m
    rw [ev t m]
    exact evaluate_of_scaled w1 hc0 (by rw [d2', d1]) (by rw [s2, hseg, s1]) t m
  have hmax : tr2.maxTime = r.maxTime := by
    have : tr.maxTime = o.lin.segmentTimes.sum := by
      rw [w1.total]
      unfold Trajectory.getSegmentTimes
      rw [s1]
      exact congrArg List.sum hls.times
    rw [m2', m2, this, List.sum_map_mul_right]
    simp
  have key : ∀ (m : ℕ) (bound : ℝ), WithinLimit r m bound → WithinLimit tr2 m bound := by
    intro m bound hw t ht
    rw [hmax] at ht
    obtain ⟨x, q1, q2, q3⟩ := hw t ht
    refine ⟨x, ?_, by rw [q2, d2, d1, d2'], q3⟩
    rw [← q1]
    have : t = c * (t / c) := by field_simp
    rw [this]
    exact hrel _ _
  refine ⟨tr2, t2, by rw [m2', st], key 1 _ ?_, key 2 _ ?_⟩
  · exact within_of_magnitude w2 ne2 1 _ fun s hs t ht => by rw [d2]; exact (mag s hs t ht).1
  · exact within_of_magnitude w2 ne2 2 _ fun s hs t ht => by rw [d2]; exact (mag s hs t ht).2

/-- **C82**, partial. If no vertex prescribes a nonzero derivative and some vertex prescribes all derivatives
of order below the optimised one, and the trajectory was the one of smallest cost for its times, then after
`scaleSegmentTimesWithViolation()` the limits on velocity and acceleration are kept, up to a thousandth.
Missing: vertices with prescribed nonzero derivatives (`C82_moving_false`). -/
theorem C82_scaled_limits_partial {lib : NlLib h ℝ} (hl : LibSpec lib) (hh : 2 ≤ h)
    {vertices : List (Vertex ℝ)} {k : ℕ} {b : Prop} {o o' : NlOpt h ℝ} (hs : NlSession lib vertices k b o)
    (hb : b) (ho : o.scaleWithViolation lib = .ok o') {v a : ℝ} (hv : LastLimit 1 v o.constraints)
    (hv0 : 0 < v) (ha : LastLimit 2 a o.constraints) (ha0 : 0 < a)
    (hfin : Moderate o.lin.dimension o.lin.segments) (hpin : Pinned k vertices) (hrest : AtRest h vertices)
    (hopt : Optimal h k o.lin.dimension vertices o.lin.segmentTimes o.lin.segments) :
    ∃ tr, o'.lin.getTrajectory = .ok tr ∧ tr.maxTime = o'.lin.segmentTimes.sum ∧
      WithinLimit tr 1 ((1 + 1 / 1000) * v) ∧ WithinLimit tr 2 ((1 + 1 / 1000) * a) :=
  scaled_limits hl hh ((nlSession_inv hs).2.1 hb) ho hv hv0 ha ha0 hfin hpin hrest hopt

/-- **C82**, partial, for `optimize()` with the Mellinger method: unless NLopt threw an exception before the
first evaluation was complete, the trajectory left by the optimisation keeps the limits on velocity and
acceleration, up to a thousandth, whatever NLopt did. Missing: vertices with prescribed nonzero
derivatives. -/
theorem C82_mellinger_limits_partial {lib : NlLib h ℝ} (hl : LibSpec lib) (hh : 2 ≤ h)
    {vertices : List (Vertex ℝ)} {k : ℕ} {b : Prop} {o o' : NlOpt h ℝ} {run : NlRun ℝ} {c : ℤ}
    {gradients : Bool} (hs : NlSession lib vertices k b o) (hr : RunOf lib gradients o run)
    (ho : o.optimize lib run = .ok (c, o')) (hm : o.params.method = .mellingerOuterLoop)
    (ht : run.setupThrows = false) (hcode : run.code ≠ none ∨ run.wroteCost = true) {x : List ℝ}
    (hx : (points run.queries).getLast? = some x) {v a : ℝ} (hv : LastLimit 1 v o.constraints)
    (hv0 : 0 < v) (ha : LastLimit 2 a o.constraints) (ha0 : 0 < a) (hpin : Pinned k vertices)
    (hrest : AtRest h vertices)
    (hfin : ∀ segs, Optimal h k o.lin.dimension vertices x segs → Moderate o.lin.dimension segs) :
    ∃ tr, o'.lin.getTrajectory = .ok tr ∧ tr.maxTime = o'.lin.segmentTimes.sum ∧
      WithinLimit tr 1 ((1 + 1 / 1000) * v) ∧ WithinLimit tr 2 ((1 + 1 / 1000) * a) := by
  have hu : o.params.method ≠ .unknown := by rw [hm]; simp
  have htp : timesOf o.params.method (vertices.length - 1) x = x := by rw [hm]; rfl
  obtain ⟨g, o1, o2, y, -, -, h3, h4, -, -, h7, h8, h9, h10, h11, -, -, -, -, -, h12⟩ :=
    optimize_last (nlSession_inv hs).1 hr hu ht ho hx
  rw [htp] at h8 h11
  rcases h12 hm with ⟨c1, c2, -⟩ | ⟨o3, o4, e1, e0, e2, e3⟩
  · rcases hcode with hcode | hcode
    · exact absurd c1 hcode
    · rw [hcode] at c2; cases c2
  obtain ⟨l1, l2, a1, a2, a3, a4⟩ := objective_route h3 (by tauto) h8 h7
  have hopt : Optimal h k o3.lin.dimension vertices o3.lin.segmentTimes o3.lin.segments := by
    rw [e1, h10, h11, a4]
    exact optimal_of_route hl a1 (a2.trans h4) a3
  obtain ⟨tr, b1, b2, b3, b4⟩ := scaled_limits hl hh (o := o3) (by rw [e1]; exact h9) e2 (by rw [e0]; exact hv) hv0
    (by rw [e0]; exact ha) ha0 (by
      rw [e1, h10]
      apply hfin
      rw [e1, h10, h11] at hopt
      exact hopt) hpin hrest hopt
  exact ⟨tr, by rw [e3]; exact b1, by rw [e3]; exact b2, b3, b4⟩

/-! #### One segment between two vertices with position and velocity -/

/-- Two vertices with position and velocity. -/
def exMove (p v q w : ℝ) : List (Vertex ℝ) :=
  [⟨1, [(0, [p]), (1, [v])]⟩, ⟨1, [(0, [q]), (1, [w])]⟩]

theorem exMove_problem (p v q w : ℝ) {T : ℝ} (hT : 1 / 10 ≤ T) : Problem 2 1 (exMove p v q w) [T] where
  count := rfl
  two := by simp [exMove]
  times_pos := by
    intro T' hT'
    simp only [List.mem_cons, List.not_mem_nil, or_false] at hT'
    rw [hT']
    exact le_trans (by norm_num) hT
  wf := by
    intro x hx
    simp only [exMove, List.mem_cons, List.not_mem_nil, or_false] at hx
    rcases hx with rfl | rfl <;> exact ⟨⟨by simp, by simp⟩, rfl⟩
  dim_pos := by norm_num
  small := by norm_num

theorem exMove_pinned (p v q w : ℝ) : Pinned 1 (exMove p v q w) := by
  refine ⟨⟨1, [(0, [p]), (1, [v])]⟩, by simp [exMove], fun m hm => ⟨[p], ?_⟩⟩
  have : m = 0 := by omega
  subst this
  rfl

/-- The only polynomial with these values. -/
noncomputable def exCubic (p v q w T : ℝ) : List ℝ :=
  [p, v, 3 * (q - p) / T ^ 2 - (2 * v + w) / T, -2 * (q - p) / T ^ 3 + (v + w) / T ^ 2]

theorem exMove_poly {p v q w T : ℝ} (hT : 0 < T) {segs : List (Segment ℝ)} (hs : Shape 4 1 [T] segs)
    (hm : MeetsConstraints 2 1 (exMove p v q w) segs) :
    ∃ s, segs = [s] ∧ s.time = T ∧ s.polys = [⟨exCubic p v q w T⟩] := by
  have hl := shape_length hs
  obtain ⟨s, rfl⟩ : ∃ s, segs = [s] := List.length_eq_one_iff.mp hl
  have ht : s.time = T := by simpa using hs.durations
  obtain ⟨pl, hpl⟩ : ∃ pl, s.polys = [pl] := List.length_eq_one_iff.mp (hs.dims s (by simp))
  refine ⟨s, rfl, ht, ?_⟩
  have hc : pl.coeffs.length = 4 := hs.coeffs s (by simp) pl (by simp [hpl])
  have d : ∀ m t, segDeriv s 0 m t = derivAt pl.coeffs m t := by
    intro m t
    simp [segDeriv, hpl]
  have p0 := ((hm 0 _ rfl 0 (by norm_num) [p] rfl 0 (by norm_num)).1 s rfl)
  have v0 := ((hm 0 _ rfl 1 (by norm_num) [v] rfl 0 (by norm_num)).1 s rfl)
  have p1 := ((hm 1 _ rfl 0 (by norm_num) [q] rfl 0 (by norm_num)).2 0 s rfl rfl)
  have v1 := ((hm 1 _ rfl 1 (by norm_num) [w] rfl 0 (by norm_num)).2 0 s rfl rfl)
  rw [d] at p0 v0 p1 v1
  rw [ht] at p1 v1
  have key : pl.coeffs = exCubic p v q w T := by
    apply C28_endpoints_determine (h := 2) _ _ hc rfl T hT.ne'
    · intro k hk
      interval_cases k
      · rw [p0, derivAt_eq_sum]; simp [exCubic, Finset.sum_range_succ]
      · rw [v0, derivAt_eq_sum]; simp [exCubic, Finset.sum_range_succ]
    · intro k hk
      interval_cases k
      · rw [p1, derivAt_eq_sum]
        simp only [exCubic, List.length_cons, List.length_nil, Finset.sum_range_succ, Finset.sum_range_zero]
        simp
        field_simp
        ring
      · rw [v1, derivAt_eq_sum]
        simp only [exCubic, List.length_cons, List.length_nil, Finset.sum_range_succ, Finset.sum_range_zero]
        simp [Nat.descFactorial]
        field_simp
        ring
  rw [hpl]
  cases pl
  simp only at key
  rw [key]

theorem exMove_norm (p v q w T : ℝ) (m : ℕ) (t : ℝ) :
    magnitude [⟨exCubic p v q w T⟩] (List.range 1) m t = |derivAt (exCubic p v q w T) m t| := by
  simp [magnitude, valuesAt, iteratedDeriv_curve, Real.sqrt_sq_eq_abs]

theorem exMove_velocity (p v q w T t : ℝ) : derivAt (exCubic p v q w T) 1 t =
    v + 2 * (3 * (q - p) / T ^ 2 - (2 * v + w) / T) * t +
      3 * (-2 * (q - p) / T ^ 3 + (v + w) / T ^ 2) * t ^ 2 := by
  rw [derivAt_eq_sum]
  simp only [exCubic, List.length_cons, List.length_nil, Finset.sum_range_succ, Finset.sum_range_zero]
  simp [Nat.descFactorial]

theorem exMove_acceleration (p v q w T t : ℝ) : derivAt (exCubic p v q w T) 2 t =
    2 * (3 * (q - p) / T ^ 2 - (2 * v + w) / T) +
      6 * (-2 * (q - p) / T ^ 3 + (v + w) / T ^ 2) * t := by
  rw [derivAt_eq_sum]
  simp only [exCubic, List.length_cons, List.length_nil, Finset.sum_range_succ, Finset.sum_range_zero]
  simp [Nat.descFactorial]

/-- An optimiser set up with two vertices and limits, the trajectory computed. -/
theorem exMove_session (p v q w : ℝ) {T : ℝ} (hT : 1 / 10 ≤ T) (vMax aMax : ℝ) (hv : 0 < vMax) (ha : 0 < aMax)
    (params : NlParams ℝ) (hsoft : params.useSoft = true) : ∃ o : NlOpt 2 ℝ,
    NlSession (exLib 2) (exMove p v q w) 1 True o ∧ o.params = params ∧
      o.constraints = [⟨1, vMax⟩, ⟨2, aMax⟩] ∧ o.lin.dimension = 1 ∧ o.lin.segmentTimes = [T] ∧
      ∃ o1, o.solveLinear (exLib 2) = .ok o1 := by
  obtain ⟨o, -, h2, h3, h4, h5, h6, o1, h7⟩ := nl_new (lib := exLib 2) (exMove_problem p v q w hT) (k := 1)
    (by norm_num) params
  have hs : NlSession (exLib 2) (exMove p v q w) 1 True o1 := .solveLinear h2 h7
  obtain ⟨l, h8, rfl⟩ := solveLinear_nl_inv h7
  obtain ⟨a1, a2, a3⟩ := lin_solve (nlSession_inv h2).1 h8
  obtain ⟨l2, h9⟩ := lin_solve_ok a1.session a1.able
  subst h3
  have e1 : ({ o with lin := l } : NlOpt 2 ℝ).addMaximumMagnitudeConstraint true 1 vMax =
      .ok (true, { o with lin := l, constraints := o.constraints ++ [⟨1, vMax⟩] }) := by
    unfold NlOpt.addMaximumMagnitudeConstraint
    rw [Res.check_of (by norm_num), Res.ok_bind, Res.check_of hv.le, Res.ok_bind]
    dsimp only
    rw [if_pos hsoft, Res.pure_eq]
  have e2 : ({ o with lin := l, constraints := o.constraints ++ [⟨1, vMax⟩] } :
      NlOpt 2 ℝ).addMaximumMagnitudeConstraint true 2 aMax =
      .ok (true, { o with lin := l, constraints := o.constraints ++ [⟨1, vMax⟩] ++ [⟨2, aMax⟩] }) := by
    unfold NlOpt.addMaximumMagnitudeConstraint
    rw [Res.check_of (by norm_num), Res.ok_bind, Res.check_of ha.le, Res.ok_bind]
    dsimp only
    rw [if_pos hsoft, Res.pure_eq]
  refine ⟨_, .add (.add hs e1) e2, rfl, ?_, a3.trans h5, a2.trans h6, ?_⟩
  · dsimp only
    rw [h4]
    rfl
  · unfold NlOpt.solveLinear
    dsimp only
    rw [h9, Res.ok_bind]
    exact ⟨_, rfl⟩

/-- All about the trajectory of an optimiser set up with two vertices. -/
theorem exMove_segments {p v q w : ℝ} {b : Prop} {o : NlOpt 2 ℝ}
    (hs : NlSession (exLib 2) (exMove p v q w) 1 b o) (hb : b) (hd : o.lin.dimension = 1) {T : ℝ} (hT : 0 < T)
    (ht : o.lin.segmentTimes = [T]) :
    Optimal 2 1 o.lin.dimension (exMove p v q w) o.lin.segmentTimes o.lin.segments ∧
    ∃ s, o.lin.segments = [s] ∧ s.time = T ∧ s.polys = [⟨exCubic p v q w T⟩] := by
  obtain ⟨a1, a2, a3, -, -⟩ := C65_meets_constraints exLib_spec.inv hs hb
  rw [hd, ht] at a3
  rw [hd] at a1 a2
  obtain ⟨s, e1, e2, e3⟩ := exMove_poly hT a3 a1
  refine ⟨⟨⟨by rw [hd, ht]; exact a3, by rw [hd]; exact a1, by rw [hd]; exact a2⟩, ?_⟩, s, e1, e2, e3⟩
  rintro segs' b1 b2 -
  rw [hd] at b1 b2
  rw [ht] at b1
  obtain ⟨s', f1, f2, f3⟩ := exMove_poly hT b1 b2
  rw [e1, f1]
  apply le_of_eq
  unfold cost
  simp only [List.map_cons, List.map_nil]
  rw [e2, e3, f2, f3]

theorem exMove_moderate {T : ℝ} (hT : 1 ≤ T) {s : Segment ℝ} (h1 : s.time = T)
    (h2 : s.polys = [⟨exCubic 0 0 1 0 T⟩]) : Moderate 1 [s] := by
  intro s' hs' t ht
  simp only [List.mem_singleton] at hs'
  subst hs'
  rw [h1] at ht
  have hb := le_dblMax (x := 100) (by norm_num)
  rw [h2, exMove_norm, exMove_norm, exMove_velocity, exMove_acceleration]
  obtain ⟨t0, t1⟩ := ht
  have hT0 : 0 < T := by linarith
  have u0 : 0 ≤ t / T := by positivity
  have u1 : t / T ≤ 1 := by rw [div_le_one hT0]; exact t1
  have i1 : 1 / T ≤ 1 := by rw [div_le_one hT0]; exact hT
  have i0 : 0 < 1 / T := by positivity
  have e1 : (0 : ℝ) + 2 * (3 * (1 - 0) / T ^ 2 - (2 * 0 + 0) / T) * t +
      3 * (-2 * (1 - 0) / T ^ 3 + (0 + 0) / T ^ 2) * t ^ 2 = 6 * (1 / T) * ((t / T) * (1 - t / T)) := by
    field_simp
    ring
  have e2 : 2 * (3 * (1 - 0) / T ^ 2 - (2 * 0 + 0) / T) +
      6 * (-2 * (1 - 0) / T ^ 3 + (0 + 0) / T ^ 2) * t = 6 * (1 / T) ^ 2 * (1 - 2 * (t / T)) := by
    field_simp
    ring
  rw [e1, e2]
  have q0 : 0 ≤ (t / T) * (1 - t / T) := mul_nonneg u0 (by linarith)
  have q1 : (t / T) * (1 - t / T) ≤ 1 := by nlinarith
  have r0 : 0 ≤ (1 / T) ^ 2 := by positivity
  have r1 : (1 / T) ^ 2 ≤ 1 := by nlinarith
  constructor
  · refine lt_of_lt_of_le (b := (100 : ℝ)) (abs_lt.mpr ⟨?_, ?_⟩) hb <;> nlinarith
  · refine lt_of_lt_of_le (b := (100 : ℝ)) (abs_lt.mpr ⟨?_, ?_⟩) hb <;> nlinarith

theorem exMove_rest (p q : ℝ) : AtRest 2 (exMove p 0 q 0) := by
  intro x hx m h0 h2 c hc y hy
  have : m = 1 := by omega
  subst this
  simp only [exMove, List.mem_cons, List.not_mem_nil, or_false] at hx
  rcases hx with rfl | rfl
  · have e : (⟨1, [(0, [p]), (1, [0])]⟩ : Vertex ℝ).getConstraint ((1 : ℕ) : ℤ) = some [0] := rfl
    rw [e, Option.some.injEq] at hc
    rw [← hc] at hy
    simpa using hy
  · have e : (⟨1, [(0, [q]), (1, [0])]⟩ : Vertex ℝ).getConstraint ((1 : ℕ) : ℤ) = some [0] := rfl
    rw [e, Option.some.injEq] at hc
    rw [← hc] at hy
    simpa using hy

/-- With velocity 0 at both ends, 1 m in 1 s, the hypotheses of `C82_factor` and
`C82_scaled_limits_partial` hold, and the speed limit 1 is exceeded before. -/
example : ∃ o o' : NlOpt 2 ℝ, LibSpec (exLib 2) ∧ NlSession (exLib 2) (exMove 0 0 1 0) 1 True o ∧
    o.scaleWithViolation (exLib 2) = .ok o' ∧ LastLimit 1 1 o.constraints ∧ LastLimit 2 10 o.constraints ∧
    Moderate o.lin.dimension o.lin.segments ∧ Pinned 1 (exMove 0 0 1 0) ∧ AtRest 2 (exMove 0 0 1 0) ∧
    Optimal 2 1 o.lin.dimension (exMove 0 0 1 0) o.lin.segmentTimes o.lin.segments ∧
    3 / 2 ∈ norms o.lin.dimension o.lin.segments 1 := by
  obtain ⟨o, h1, -, h3, h4, h5, -⟩ := exMove_session 0 0 1 0 (T := 1) (by norm_num) 1 10 (by norm_num)
    (by norm_num) ⟨1 / 10, 1, true, 1, .mellingerOuterLoop⟩ rfl
  have hv : LastLimit 1 1 o.constraints := by
    rw [h3]
    exact ⟨[], [⟨2, 10⟩], rfl, by simp⟩
  have ha : LastLimit 2 10 o.constraints := by
    rw [h3]
    exact ⟨[⟨1, 1⟩], [], rfl, by simp⟩
  obtain ⟨o', h6⟩ := scale_ok exLib_spec ((nlSession_inv h1).2.1 trivial) le_rfl
    (by rw [limitOf_last hv]; norm_num) (by rw [limitOf_last ha]; norm_num)
  obtain ⟨hopt, s, e1, e2, e3⟩ := exMove_segments h1 trivial h4 (by norm_num : (0 : ℝ) < 1) h5
  refine ⟨o, o', exLib_spec, h1, h6, hv, ha, ?_, exMove_pinned _ _ _ _, exMove_rest _ _, hopt, ?_⟩
  · rw [h4, e1]
    exact exMove_moderate le_rfl e2 e3
  · refine ⟨s, by rw [e1]; simp, 1 / 2, by rw [e2]; constructor <;> norm_num, ?_⟩
    rw [h4, e3, exMove_norm, exMove_velocity]
    norm_num

/-- An optimisation with the Mellinger method of the same motion meets the hypotheses of
`C82_mellinger_limits_partial`. -/
example : ∃ (o o' : NlOpt 2 ℝ) (run : NlRun ℝ) (c : ℤ) (x : List ℝ), LibSpec (exLib 2) ∧
    NlSession (exLib 2) (exMove 0 0 1 0) 1 True o ∧ RunOf (exLib 2) true o run ∧
    o.optimize (exLib 2) run = .ok (c, o') ∧ o.params.method = .mellingerOuterLoop ∧
    run.setupThrows = false ∧ run.code ≠ none ∧ (points run.queries).getLast? = some x ∧
    LastLimit 1 1 o.constraints ∧ LastLimit 2 10 o.constraints ∧ Pinned 1 (exMove 0 0 1 0) ∧
    AtRest 2 (exMove 0 0 1 0) ∧
    (∀ segs, Optimal 2 1 o.lin.dimension (exMove 0 0 1 0) x segs → Moderate o.lin.dimension segs) := by
  obtain ⟨o, h1, h2, h3, h4, h5, h6⟩ := exMove_session 0 0 1 0 (T := 1) (by norm_num) 1 10 (by norm_num)
    (by norm_num) ⟨1 / 10, 1, true, 1, .mellingerOuterLoop⟩ rfl
  have hm : o.params.method = .mellingerOuterLoop := by rw [h2]
  obtain ⟨run, x, a1, a2, a3, a4, a5⟩ := run_exists h1 (by rw [hm]; simp)
    (decide (o.params.method = .mellingerOuterLoop)) h6 (.inr (by
      rw [h5]
      have := dblMax_gt (K := ℝ)
      intro T hT
      simp only [List.mem_cons, List.not_mem_nil, or_false] at hT
      subst hT
      constructor <;> linarith))
  have a5 := a5 hm
  have hlim : LimitsOk 2 o.constraints := by
    rw [h3]
    intro c hc
    simp only [List.mem_cons, List.not_mem_nil, or_false] at hc
    rcases hc with rfl | rfl <;> norm_num
  obtain ⟨c, o', h7⟩ := C67_returns exLib_spec h1 h6 a1 hlim (fun _ => ⟨le_rfl, by rw [h2],
    ⟨⟨1, 1⟩, by rw [h3]; simp, rfl⟩, ⟨⟨2, 10⟩, by rw [h3]; simp, rfl⟩⟩)
  refine ⟨o, o', run, c, x, exLib_spec, h1, ?_, h7, hm, a2, by rw [a4]; simp, by rw [a3]; rfl, ?_, ?_,
    exMove_pinned _ _ _ _, exMove_rest _ _, ?_⟩
  · rw [hm] at a1
    exact a1
  · rw [h3]
    exact ⟨[], [⟨2, 10⟩], rfl, by simp⟩
  · rw [h3]
    exact ⟨[⟨1, 1⟩], [], rfl, by simp⟩
  · intro segs hopt
    rw [h4, a5, h5] at hopt
    rw [h4]
    obtain ⟨s, f1, f2, f3⟩ := exMove_poly (by norm_num : (0 : ℝ) < 1) hopt.1.1 hopt.1.2.1
    rw [f1]
    exact exMove_moderate le_rfl f2 f3

/-- **C82**, refuted for vertices with prescribed velocities, although these are within the limits: from 0 to
10 in 5 s with velocity -1 at both ends, and with the limit 7/4, the speed after
`scaleSegmentTimesWithViolation()` is above 7/4 by more than the tolerance. The factor is computed for the
trajectory run slower, but then the optimiser solves again with the same velocities at the vertices. -/
theorem C82_moving_false : ∃ (o o' : NlOpt 2 ℝ) (tr : Trajectory ℝ), LibSpec (exLib 2) ∧
    NlSession (exLib 2) (exMove 0 (-1) 10 (-1)) 1 True o ∧ o.scaleWithViolation (exLib 2) = .ok o' ∧
    LastLimit 1 (7 / 4) o.constraints ∧ LastLimit 2 1000 o.constraints ∧
    Moderate o.lin.dimension o.lin.segments ∧ Pinned 1 (exMove 0 (-1) 10 (-1)) ∧
    Optimal 2 1 o.lin.dimension (exMove 0 (-1) 10 (-1)) o.lin.segmentTimes o.lin.segments ∧
    o'.lin.getTrajectory = .ok tr ∧ ¬ WithinLimit tr 1 ((1 + 1 / 1000) * (7 / 4)) := by
  obtain ⟨o, h1, -, h3, h4, h5, -⟩ := exMove_session 0 (-1) 10 (-1) (T := 5) (by norm_num) (7 / 4) 1000
    (by norm_num) (by norm_num) ⟨1 / 10, 1, true, 1, .mellingerOuterLoop⟩ rfl
  have hv : LastLimit 1 (7 / 4) o.constraints := by
    rw [h3]
    exact ⟨[], [⟨2, 1000⟩], rfl, by simp⟩
  have ha : LastLimit 2 1000 o.constraints := by
    rw [h3]
    exact ⟨[⟨1, 7 / 4⟩], [], rfl, by simp⟩
  obtain ⟨o', h6⟩ := scale_ok exLib_spec ((nlSession_inv h1).2.1 trivial) le_rfl
    (by rw [limitOf_last hv]; norm_num) (by rw [limitOf_last ha]; norm_num)
  obtain ⟨hopt, s, e1, e2, e3⟩ := exMove_segments h1 trivial h4 (by norm_num : (0 : ℝ) < 5) h5
  have bounds : ∀ t ∈ Icc (0 : ℝ) 5, magnitude s.polys (List.range 1) 1 t ≤ 7 / 2 ∧
      magnitude s.polys (List.range 1) 2 t ≤ 4 := by
    rintro t ⟨t0, t1⟩
    rw [e3, exMove_norm, exMove_norm, exMove_velocity, exMove_acceleration]
    constructor
    · refine abs_le.mpr ⟨?_, ?_⟩
      · nlinarith
      · nlinarith [sq_nonneg (t - 5 / 2)]
    · refine abs_le.mpr ⟨?_, ?_⟩ <;> nlinarith
  have hmod : Moderate o.lin.dimension o.lin.segments := by
    rw [h4, e1]
    intro s' hs' t ht
    simp only [List.mem_singleton] at hs'
    subst hs'
    rw [e2] at ht
    have hb := le_dblMax (x := 100) (by norm_num)
    obtain ⟨b1, b2⟩ := bounds t ht
    constructor <;> linarith
  obtain ⟨tr0, c, -, hc, ht, -, -, hmin, hopt'⟩ := C82_factor exLib_spec le_rfl h1 trivial h6 hv (by norm_num)
    ha (by norm_num) hmod
  have hc2 : c ≤ 2 := by
    rcases hmin with hmin | ⟨s', hs', t, ht, he⟩ | ⟨s', hs', t, ht, he⟩
    · rw [hmin]; norm_num
    · rw [e1] at hs'
      simp only [List.mem_singleton] at hs'
      subst hs'
      rw [e2] at ht
      have := (bounds t ht).1
      rw [h4] at he
      linarith
    · rw [e1] at hs'
      simp only [List.mem_singleton] at hs'
      subst hs'
      rw [e2] at ht
      have := (bounds t ht).2
      rw [h4] at he
      nlinarith
  have hs' : NlSession (exLib 2) (exMove 0 (-1) 10 (-1)) 1 True o' := .scale h1 h6
  have ht' : o'.lin.segmentTimes = [5 * c] := by rw [ht, h5]; rfl
  obtain ⟨tr, g1, w1, d1, m1, -⟩ := C65_trajectory exLib_spec.inv hs' trivial
  rw [h4] at hopt'
  rw [ht'] at hopt' m1
  have hT : (0 : ℝ) < 5 * c := by linarith
  obtain ⟨s', f1, f2, f3⟩ := exMove_poly hT hopt'.1.1 hopt'.1.2.1
  have hsegs : tr.segments = [s'] := by
    have := g1
    unfold LinOpt.getTrajectory at this
    obtain ⟨-, -, h3, -⟩ := (setSegments_ok_iff _ _).mp this
    rw [h3, f1]
  refine ⟨o, o', tr, exLib_spec, h1, h6, hv, ha, hmod, exMove_pinned _ _ _ _, hopt, g1, fun hw => ?_⟩
  have hm : tr.maxTime = 5 * c := by rw [m1]; simp
  obtain ⟨x, q1, -, q3⟩ := hw (5 * c / 2) ⟨by linarith, by rw [hm]; linarith⟩
  rw [(evaluate_one tr w1 s' hsegs (5 * c / 2) (by linarith) (by rw [hm]; linarith) 1).2, Res.ok.injEq] at q1
  rw [← q1, f3] at q3
  have e : Real.sqrt ((valuesAt [⟨exCubic 0 (-1) 10 (-1) (5 * c)⟩] 1 (5 * c / 2)).map (· ^ 2)).sum =
      |derivAt (exCubic 0 (-1) 10 (-1) (5 * c)) 1 (5 * c / 2)| := by
    simp only [valuesAt, List.map_cons, List.map_nil, List.sum_cons, List.sum_nil, add_zero,
      iteratedDeriv_curve, Real.sqrt_sq_eq_abs]
  rw [e, exMove_velocity] at q3
  have hval : (-1 : ℝ) + 2 * (3 * (10 - 0) / (5 * c) ^ 2 - (2 * (-1) + (-1)) / (5 * c)) * (5 * c / 2) +
      3 * (-2 * (10 - 0) / (5 * c) ^ 3 + ((-1) + (-1)) / (5 * c) ^ 2) * (5 * c / 2) ^ 2 = 3 / c + 1 / 2 := by
    have hc0 : c ≠ 0 := by linarith
    field_simp
    ring
  rw [hval] at q3
  have h32 : 3 / 2 ≤ 3 / c := by
    rw [div_le_div_iff₀ (by norm_num) (by linarith)]
    linarith
  have := le_abs_self (3 / c + 1 / 2)
  linarith

end
end Verif
