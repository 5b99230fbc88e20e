import Verif.Proofs.TestUtils
import Verif.Props.LinearOptimization
import Verif.Props.LinearAffine

/-! Property C112: the numerical helpers for maxima and cost. -/

set_option linter.unusedSectionVars false

namespace Verif

open Spec Set

/-- **C112.** With a positive step the helper for the maximum returns, its result is the magnitude of the
derivative at some time of the trajectory, and no magnitude is larger by more than the step times a bound on the
next derivative. The duration has to be positive: see `C112_no_duration_false`. -/
theorem C112_maximum_partial (tr : Trajectory ℝ) (h : tr.WF) (k : ℕ) (hj : tr.JoinsAt k) (hT : 0 < tr.maxTime)
    {A : ℝ} (hsmall : ∀ t, 0 ≤ t → t ≤ tr.maxTime → ‖vectorOf tr.D (tr.evaluate t (k + 1 : ℕ))‖ ≤ A)
    (dt : ℝ) (hdt : 0 < dt) :
    ∃ m, (∃ F, ∀ fuel, F ≤ fuel → getMaximumMagnitude fuel Real.sqrt tr k dt = .ok m) ∧
      (∃ t, 0 ≤ t ∧ t < tr.maxTime ∧ m = ‖vectorOf tr.D (tr.evaluate t k)‖) ∧
      ∀ t, 0 ≤ t → t ≤ tr.maxTime → ‖vectorOf tr.D (tr.evaluate t k)‖ ≤ m + A * dt := by
  have hne : tr.segments ≠ [] := by
    intro h0
    rw [h.total] at hT
    simp [Trajectory.getSegmentTimes, h0] at hT
  have hA : 0 ≤ A := (norm_nonneg _).trans (hsmall 0 le_rfl hT.le)
  obtain ⟨m, c1, c2, c3, c4, c5⟩ := maximumMagnitudeLoop_ok (tr := tr) (k := k) hdt
    (f := fun t => ‖vectorOf tr.D (tr.evaluate t k)‖) (A := A)
    (fun t h0 h1 => by
      obtain ⟨v, e, el⟩ := evaluate_exists h hne h0 h1 k
      exact ⟨v, e, by rw [e, vectorOf_norm el]⟩)
    (fun a b h0 hab hb => (abs_norm_sub_norm_le _ _).trans
      (vectorOf_lipschitz h hne hj (fun t h0 h1 => hsmall t h0 h1.le) h0 hab hb)) hA
    ⌈tr.maxTime / dt⌉₊ 0 (-10 ^ 9) le_rfl (by
      rw [zero_add]
      have := Nat.le_ceil (tr.maxTime / dt)
      rwa [div_le_iff₀ hdt] at this)
  refine ⟨m, ⟨_, c1⟩, ?_, fun t h0 h1 => c5 t h0 h1 hT⟩
  rcases c3 with c3 | c3
  · exfalso
    have h1 := (norm_nonneg _).trans (c4 hT)
    rw [c3] at h1
    norm_num at h1
  · exact c3

/-- **C112.** With a positive step the helper for the cost returns, and its result differs from the integral of
the squared magnitude of the derivative at most by the step times `2 A B T + B ^ 2`, where `B` is a bound on the
derivative, `A` one on the next derivative and `T` the duration. -/
theorem C112_cost (tr : Trajectory ℝ) (h : tr.WF) (hne : tr.segments ≠ []) (k : ℕ) (hj : tr.JoinsAt k) {A B : ℝ}
    (hA : ∀ t, 0 ≤ t → t ≤ tr.maxTime → ‖vectorOf tr.D (tr.evaluate t (k + 1 : ℕ))‖ ≤ A)
    (hB : ∀ t, 0 ≤ t → t ≤ tr.maxTime → ‖vectorOf tr.D (tr.evaluate t k)‖ ≤ B) (dt : ℝ) (hdt : 0 < dt) :
    ∃ c, (∃ F, ∀ fuel, F ≤ fuel → computeCostNumeric fuel tr k dt = .ok c) ∧
      |c - cost k tr.segments| ≤ (2 * A * B * tr.maxTime + B ^ 2) * dt := by
  have hT : 0 ≤ tr.maxTime := by
    rw [h.total]
    exact List.sum_nonneg h.times_nonneg
  have hA0 : 0 ≤ A := (norm_nonneg _).trans (hA 0 le_rfl hT)
  have hB0 : 0 ≤ B := (norm_nonneg _).trans (hB 0 le_rfl hT)
  have hcont : ContinuousOn (fun t => ‖vectorOf tr.D (tr.evaluate t k)‖ ^ 2) (Icc 0 tr.maxTime) :=
    (vectorOf_continuous h hne hj).norm.pow 2
  obtain ⟨c, c1, c2, c3⟩ := costNumericLoop_ok (tr := tr) (k := k) hdt
    (f := fun t => ‖vectorOf tr.D (tr.evaluate t k)‖ ^ 2) (L := 2 * A * B) (C := B ^ 2)
    (fun t h0 h1 => by
      obtain ⟨v, e, el⟩ := evaluate_exists h hne h0 h1 k
      exact ⟨v, e, by rw [e, vectorOf_normSq el]⟩)
    (fun t h0 h1 => by
      rw [abs_of_nonneg (by positivity)]
      exact pow_le_pow_left₀ (norm_nonneg _) (hB t h0 h1.le) 2)
    (fun a b h0 hab hb => by
      have k1 := (abs_norm_sub_norm_le _ _).trans
        (vectorOf_lipschitz h hne hj (fun t h0 h1 => hA t h0 h1.le) h0 hab hb)
      have k2 := hB a h0 (hab.trans hb)
      have k3 := hB b (h0.trans hab) hb
      rw [sq_sub_sq, abs_mul, abs_of_nonneg (by positivity)]
      calc _ ≤ (B + B) * (A * (b - a)) := mul_le_mul (add_le_add k3 k2) k1 (abs_nonneg _) (by positivity)
        _ = 2 * A * B * (b - a) := by ring)
    (fun a b h0 hab hb => ContinuousOn.intervalIntegrable (by
      rw [uIcc_of_le hab]
      exact hcont.mono (Icc_subset_Icc h0 hb))) (by positivity)
    ⌈tr.maxTime / dt⌉₊ 0 0 le_rfl (by
      rw [zero_add]
      have := Nat.le_ceil (tr.maxTime / dt)
      rwa [div_le_iff₀ hdt] at this)
  refine ⟨c, ⟨_, c1⟩, ?_⟩
  rw [← integral_eq_cost h hne hj]
  rcases hT.eq_or_lt with hT | hT
  · rw [c2 hT.symm.le, ← hT, intervalIntegral.integral_same, sub_self, abs_zero]
    positivity
  · have := c3 hT
    rwa [sub_zero, sub_zero] at this

theorem session_trajectory {h : ℕ} {inv solve} (hinv : IsInverse inv) {vertices : List (Vertex ℝ)} {k : ℕ}
    {times : List ℝ} {o o' : LinOpt h ℝ} (hs : Session inv solve vertices k times o)
    (ho : o.solveLinear solve = .ok o' ∨ ∃ free, o.setFreeConstraints free = .ok o') :
    ∃ tr, o'.getTrajectory = .ok tr ∧ tr.WF ∧ tr.segments ≠ [] ∧ tr.segments = o'.segments ∧ tr.maxTime = times.sum ∧
      ∀ m < h, tr.JoinsAt m := by
  obtain ⟨hk, hp, r⟩ := session_ready hs
  obtain ⟨hm, hsh, hcont, hN, -, -⟩ := session_result hinv hs ho
  have hcount := hp.count
  have hlen := hp.two
  have hne : times ≠ [] := by
    intro h0
    rw [h0] at hcount
    simp at hcount
    omega
  obtain ⟨tr, h1, h2, h3, h4, h5, h6⟩ := shape_trajectory hsh hN hne hp.times_pos hp.small
  have hslen : tr.segments.length = times.length := by rw [h5, ← hsh.durations]; simp
  have hsne : tr.segments ≠ [] := by
    intro h0
    rw [h0] at hslen
    exact hne (List.eq_nil_of_length_eq_zero hslen.symm)
  refine ⟨tr, h1, h2, hsne, h5, h4, fun m hm' => ?_⟩
  intro i hi
  have hg : ∀ j, (hj : j < tr.segments.length) → o'.segments[j]? = some tr.segments[j] := by
    intro j hj
    rw [← h5]
    exact List.getElem?_eq_getElem hj
  have hc := hcont i _ _ (hg i (by omega)) (hg (i + 1) hi) m hm'
  have hl : ∀ j, (hj : j < tr.segments.length) → (tr.segments[j]).polys.length = o.dimension := by
    intro j hj
    exact hsh.dims _ (by rw [← h5]; exact List.getElem_mem hj)
  apply List.ext_getElem
  · simp [valuesAt, hl]
  · intro d' h7 h8
    have hd' : d' < o.dimension := by simpa [valuesAt, hl] using h7
    have := hc d' hd'
    unfold segDeriv at this
    simp only [valuesAt, List.getElem_map, iteratedDeriv_curve]
    rw [List.getD_eq_getElem?_getD, List.getElem?_eq_getElem (by rw [hl]; exact hd'),
      List.getD_eq_getElem?_getD, List.getElem?_eq_getElem (by rw [hl]; exact hd')] at this
    simpa using this

/-- **C112**, end to end: the cost an optimiser reports agrees, within the same bound, with the cost the helper
computes from its trajectory. The next derivative need not be continuous at the vertices. -/
theorem C112_optimiser {h : ℕ} {inv solve} (hinv : IsInverse inv) {vertices : List (Vertex ℝ)} {k : ℕ}
    {times : List ℝ} {o o' : LinOpt h ℝ} (hs : Session inv solve vertices k times o)
    (ho : o.solveLinear solve = .ok o' ∨ ∃ free, o.setFreeConstraints free = .ok o') (dt : ℝ) (hdt : 0 < dt) :
    ∃ tr reported, o'.getTrajectory = .ok tr ∧ o'.computeCost = .ok reported ∧ ∀ A B : ℝ,
      (∀ t, 0 ≤ t → t ≤ times.sum → ‖vectorOf tr.D (tr.evaluate t (k + 1 : ℕ))‖ ≤ A) →
      (∀ t, 0 ≤ t → t ≤ times.sum → ‖vectorOf tr.D (tr.evaluate t k)‖ ≤ B) →
      ∃ c, (∃ F, ∀ fuel, F ≤ fuel → computeCostNumeric fuel tr k dt = .ok c) ∧
        |c - reported| ≤ (2 * A * B * times.sum + B ^ 2) * dt := by
  obtain ⟨hk, -, -⟩ := session_ready hs
  obtain ⟨tr, h1, h2, h3, h4, h5, h6⟩ := session_trajectory hinv hs ho
  refine ⟨tr, _, h1, C32_computeCost hinv hs ho, fun A B hA hB => ?_⟩
  rw [← h4, ← h5]
  rw [← h5] at hA hB
  exact C112_cost tr h2 h3 k (h6 k (by omega)) hA hB dt hdt

/-- A parabola in the plane, in 2 s. -/
noncomputable def exPlane : Trajectory ℝ := ⟨2, 3, 2, [⟨[⟨[0, 1, 0]⟩, ⟨[0, 0, 1]⟩], 2, 3⟩]⟩

theorem exPlane_wf : exPlane.WF where
  dims := by simp [exPlane, Segment.D]
  coeffs := by simp [exPlane]
  total := by simp [exPlane, Trajectory.getSegmentTimes]
  wf := by
    intro s hs
    simp only [exPlane, List.mem_singleton] at hs
    subst hs
    exact ⟨by simp [Poly.N], by simp⟩
  nonneg := by simp [exPlane]

theorem exPlane_joins (k : ℕ) : exPlane.JoinsAt k := fun i hi => absurd hi (by simp [exPlane])

theorem exPlane_value (k : ℕ) {t : ℝ} (h0 : 0 ≤ t) (h1 : t ≤ 2) :
    exPlane.evaluate t k = .ok (segValue ⟨[⟨[0, 1, 0]⟩, ⟨[0, 0, 1]⟩], 2, 3⟩ k t) := by
  have := evaluate_closed exPlane exPlane_wf k (exPlane_joins k) 0 (by simp [exPlane]) t
    (by rw [startTime_zero]; exact h0) (by rw [times_getElem exPlane 0 (by simp [exPlane]), startTime_zero]; simpa [exPlane])
  rw [this, startTime_zero, sub_zero]
  rfl

/-- Speed at most 5, acceleration at most 2. -/
theorem exPlane_bounds : (∀ t, 0 ≤ t → t ≤ exPlane.maxTime → ‖vectorOf exPlane.D (exPlane.evaluate t (1 : ℕ))‖ ≤ 5) ∧
    ∀ t, 0 ≤ t → t ≤ exPlane.maxTime → ‖vectorOf exPlane.D (exPlane.evaluate t (2 : ℕ))‖ ≤ 2 := by
  constructor <;> intro t h0 h1 <;> rw [exPlane_value _ h0 h1, vectorOf_norm (by simp [segValue, exPlane]), vecNorm]
  · have h1' : t ≤ 2 := h1
    rw [Real.sqrt_le_left (by norm_num)]
    simp [segValue, derivAt, ofCoeffs, Finset.sum_range_succ]
    nlinarith
  · rw [Real.sqrt_le_left (by norm_num)]
    simp [segValue, derivAt, ofCoeffs, Finset.sum_range_succ]
    norm_num

example : ∃ m c, (∃ F, ∀ fuel, F ≤ fuel → getMaximumMagnitude fuel Real.sqrt exPlane (1 : ℕ) (1 / 100) = .ok m) ∧
    (∃ F, ∀ fuel, F ≤ fuel → computeCostNumeric fuel exPlane (1 : ℕ) (1 / 1000) = .ok c) ∧
    |c - cost 1 exPlane.segments| ≤ 65 / 1000 := by
  obtain ⟨m, h1, -⟩ := C112_maximum_partial exPlane exPlane_wf 1 (exPlane_joins 1) (by norm_num [exPlane]) exPlane_bounds.2
    (1 / 100) (by norm_num)
  obtain ⟨c, h2, h3⟩ := C112_cost exPlane exPlane_wf (by simp [exPlane]) 1 (exPlane_joins 1) exPlane_bounds.2
    exPlane_bounds.1 (1 / 1000) (by norm_num)
  refine ⟨m, c, h1, h2, h3.trans ?_⟩
  norm_num [exPlane]

example : ∃ o o' : LinOpt 2 ℝ, IsInverse (exLib 2).inv ∧
    Session (exLib 2).inv (exLib 2).solve (exThree (0, 0) (1, 1) (3, 0)) 1 [1, 2] o ∧
    o.solveLinear (exLib 2).solve = .ok o' := by
  obtain ⟨o1, o1', a1, a2, a3⟩ := exThree_session (0, 0) (1, 1) (3, 0)
  exact ⟨o1, o1', exLib_spec.inv, a1, a3⟩

/-- **C112.** With a step of zero neither helper returns. -/
theorem C112_zero_step (tr : Trajectory ℝ) (h : tr.WF) (hT : 0 < tr.maxTime) (k fuel : ℕ) :
    getMaximumMagnitude fuel Real.sqrt tr k 0 = .hang ∧ computeCostNumeric fuel tr k 0 = .hang := by
  have hne : tr.segments ≠ [] := by
    intro h0
    rw [h.total] at hT
    simp [Trajectory.getSegmentTimes, h0] at hT
  obtain ⟨v, e, -⟩ := evaluate_exists h hne le_rfl hT k
  constructor
  · unfold getMaximumMagnitude
    generalize (-10 ^ 9 : ℝ) = m
    induction fuel generalizing m with
    | zero => rfl
    | succ n ih =>
      unfold maximumMagnitudeLoop
      rw [if_pos hT, e, Res.ok_bind, add_zero]
      exact ih _
  · unfold computeCostNumeric
    generalize ha : (0 : ℝ) = m
    suffices hs : ∀ m : ℝ, costNumericLoop tr k 0 fuel 0 m = .hang by
      rw [← ha]
      exact hs 0
    clear ha
    intro m
    induction fuel generalizing m with
    | zero => rfl
    | succ n ih =>
      unfold costNumericLoop
      rw [if_pos hT, e, Res.ok_bind, add_zero]
      exact ih _

/-- **C112, refuted part.** For a trajectory without duration the "maximum" is -10^9, though magnitudes are not
negative. -/
theorem C112_no_duration_false : ¬ ∀ (tr : Trajectory ℚ), tr.WF → tr.segments ≠ [] → ∀ (fuel : ℕ) (k : ℕ) (dt m : ℚ),
    0 < dt → getMaximumMagnitude fuel id tr k dt = .ok m → 0 ≤ m := by
  intro h
  have := h ⟨1, 1, 0, [⟨[⟨[1]⟩], 0, 1⟩]⟩
    ⟨by simp [Segment.D], by simp, by simp [Trajectory.getSegmentTimes], fun s hs => by
      simp only [List.mem_singleton] at hs
      subst hs
      exact ⟨by simp [Poly.N], by simp⟩, by simp⟩ (by simp) 1 0 (1 / 100) (-10 ^ 9) (by norm_num) (by decide +kernel)
  norm_num at this

end Verif
