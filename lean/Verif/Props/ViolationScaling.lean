import Mathlib.Analysis.Complex.ExponentialBounds
import Verif.Proofs.LinOptReverse
import Verif.Proofs.ViolationScaling
import Verif.Props.NonlinearDetails
import Verif.Props.TimeEvaluation

/-
The methods of the benchmark of time allocation that use the linear optimiser.
-/
namespace Verif

open Spec Set

set_option linter.unusedSectionVars false

/-! ### C108 the linear methods -/

/-- **C108 (linear methods).** With given segment times the benchmark obtains the trajectory of smallest cost with these
times and reports its cost, 500 times the square of its duration and the penalties for the two limits. -/
theorem C108_linear {lib : NlLib 5 ℝ} (hl : LibSpec lib) (c : BenchSettings ℝ) (hv : 0 < c.vMax) (ha : 0 < c.aMax)
    {vs : List (Vertex ℝ)} {ts : List ℝ} (hp : Problem 5 3 vs ts) {k : ℕ} (hk : k < 5) (ho : c.order = k) :
    ∃ tr, runLinear lib c vs ts = .ok (tr, benchCost k c ts tr.segments) ∧ tr.WF ∧ tr.D = 3 ∧
      tr.getSegmentTimes = ts ∧ Optimal 5 k 3 vs ts tr.segments := by
  obtain ⟨o, o1, tr, h1, h2, h3, h4, h5, h6, h7, h8, h9, h10, h11, -, h12⟩ := linear_run hl hp hk
  have h := runLinear_run hl c hv ha hp hk ho h1 h2 h3 h5 h7
  rw [h8, ← h9] at h
  refine ⟨tr, h, h10, h11, h12, ?_⟩
  have hopt := C33_optimal hl.inv hl.solve h4 h2
  rw [h6] at hopt
  rw [h9]
  exact hopt

/-- **C108 (linear methods).** `runNfabian` and `runTrapezoidalTime` differ in the segment times only. -/
theorem C108_times {lib : NlLib 5 ℝ} (hl : LibSpec lib) (c : BenchSettings ℝ) (vs : List (Vertex ℝ)) (ts : List ℝ) :
    (estimateSegmentTimes Real.sqrt Real.exp vs c.vMax c.aMax = .ok ts → runNfabian lib c vs = runLinear lib c vs ts) ∧
    (estimateSegmentTimesVelocityRamp Real.sqrt vs c.vMax c.aMax 1 = .ok ts →
      runTrapezoidal lib c vs = runLinear lib c vs ts) := by
  constructor
  · intro h
    unfold runNfabian
    unfold estimateSegmentTimes at h
    rw [hl.sq, hl.ex, h, Res.ok_bind]
  · intro h
    unfold runTrapezoidal
    rw [hl.sq, h, Res.ok_bind]

/-! ### C108 violation scaling -/

/-- **C108 (violation scaling).** The method with violation scaling gives what the linear optimiser gives for the times
of `runNfabian`, each divided by one minus the violation of its segment, but at least 0.1 s. If the violation of a
segment is exactly 1, that time is infinite. -/
theorem C108_violation {lib : NlLib 5 ℝ} (hl : LibSpec lib) (c : BenchSettings ℝ) (hv : 0 < c.vMax) (ha : 0 < c.aMax)
    {vs : List (Vertex ℝ)} {ts : List ℝ} (he : estimateSegmentTimes Real.sqrt Real.exp vs c.vMax c.aMax = .ok ts)
    (hp : Problem 5 3 vs ts) {k : ℕ} (hk : k < 5) (ho : c.order = k) (hpin : Pinned k vs) :
    ∃ tr cost, runNfabian lib c vs = .ok (tr, cost) ∧ tr.segments.length = ts.length ∧
      ∀ peaks, List.Forall₂ Peaks tr.segments peaks →
        ((∃ p ∈ peaks, violation c p = 1) → runSegmentViolationScaling lib c vs = .ok none) ∧
        ((∀ p ∈ peaks, violation c p ≠ 1) → ∃ r, runLinear lib c vs (newTimes c ts peaks) = .ok r ∧
          runSegmentViolationScaling lib c vs = .ok (some r)) := by
  obtain ⟨o, o1, tr, h1, h2, h3, h4, h5, h6, h7, h8, h9, h10, h11, -, h12⟩ := linear_run hl hp hk
  refine ⟨tr, _, by rw [(C108_times hl c vs ts).1 he]; exact runLinear_run hl c hv ha hp hk ho h1 h2 h3 h5 h7, ?_, ?_⟩
  · rw [← h12]
    simp [Trajectory.getSegmentTimes]
  intro peaks hpk
  obtain ⟨hvt, hlen⟩ := violationTimes_run hl c he hp ho h1 h2 h3 h5 h7 h9 h8 hpk
  constructor
  · intro hex
    unfold runSegmentViolationScaling
    rw [hvt, Res.ok_bind]
    dsimp only
    rw [newTimes_none c ts peaks hlen hex, if_neg (by simp), Res.pure_eq]
  · intro hne
    have hlen' : (newTimes c ts peaks).length = ts.length := by
      unfold newTimes
      rw [List.length_zipWith, ← hlen, min_self]
    have hp' : Problem 5 3 vs (newTimes c ts peaks) :=
      ⟨by rw [hlen']; exact hp.count, hp.two, newTimes_ge, hp.wf, hp.dim_pos, hp.small⟩
    obtain ⟨q, q1, tr', g1, g2, g3, g4, g5, g6, g7, g8, g9, -, -, -, -⟩ := linear_run hl hp' hk
    obtain ⟨o2, o3, u1, u2, u3, u4, u5⟩ := lin_move_ok h5.session h5.able (newTimes_ge (c := c) (ts := ts) (peaks := peaks))
      (by rw [hlen', hp.count]; rfl)
    rw [h7] at u5
    obtain ⟨tr3, v1, -, -, -, v2, -⟩ := u3.trajectory hl.inv
    obtain ⟨l1, -, w2⟩ := lin_update_ok h5.session (newTimes_ge (c := c) (ts := ts) (peaks := peaks))
      (by rw [hlen', hp.count]; rfl)
    have hs2 : Session lib.inv lib.solve vs k (newTimes c ts peaks) o2 :=
      .times h5.session newTimes_ge u1
    have hd2 : o2.dimension = 3 := by
      obtain ⟨-, -, x⟩ := lin_solve (lib := lib) hs2.lin u2
      rw [← x, u5]
    obtain ⟨tr4, x1, x2⟩ := C81_same_result hl.inv hl.solve hl.inv hl.solve g4 g2 hs2 u2 (by rw [g6, hd2]) hpin
    have e3 : tr4 = tr' := by rw [g3] at x1; exact (Res.ok.inj x1).symm
    have e4 : tr4 = tr3 := by rw [v1] at x2; exact (Res.ok.inj x2).symm
    have hsegs : o3.segments = q1.segments := by rw [← v2, ← g9, ← e4, e3]
    refine ⟨_, runLinear_run hl c hv ha hp' hk ho g1 g2 g3 g5 g7, ?_⟩
    unfold runSegmentViolationScaling
    rw [hvt, Res.ok_bind]
    dsimp only
    rw [newTimes_some c ts peaks hne, if_pos (by simp)]
    have hf : ((newTimes c ts peaks).map some).filterMap id = newTimes c ts peaks := by
      rw [List.filterMap_map]
      simp
    obtain ⟨hg, -, -⟩ := u3.good hl.inv
    rw [u5] at hg
    obtain ⟨mv, a1, a2⟩ := maxima_ok lib.rf hl.rf (d := 1) (by omega) o3.segments hg []
    obtain ⟨ma, b1, b2⟩ := maxima_ok lib.rf hl.rf (d := 2) (by omega) o3.segments hg []
    rw [Nat.cast_one] at a1
    rw [Nat.cast_ofNat] at b1
    rw [hf, u1, Res.ok_bind, u2, Res.ok_bind, v1, Res.ok_bind, v2, hl.sq, a1, Res.ok_bind, b1, Res.ok_bind, if_neg (by
      have := a2.length_eq
      have := b2.length_eq
      simp only [List.nil_append]
      omega), linearCost_ok hl c hv ha u3 u5, Res.ok_bind, Res.pure_eq, u4, g8, hsegs,
      ← e4, e3]

theorem single_evaluate {tr : Trajectory ℝ} (hw : tr.WF) {s : Segment ℝ} (hs : tr.segments = [s]) (k : ℕ) {t : ℝ}
    (h0 : 0 ≤ t) (h1 : t ≤ s.time) : tr.evaluate t k = s.evaluate t k := by
  have hj : tr.JoinsAt k := by
    intro i hi
    rw [hs] at hi
    simp at hi
  have h := evaluate_in tr hw hj (i := 0) (by rw [hs]; simp) h0 (by simpa [hs] using h1)
  rw [startTime_zero, zero_add] at h
  rw [h, segment_evaluate_ok s (hw.wf s (by simp [hs]))]
  simp [hs]

theorem at3_scale {v : Res (List ℝ)} {c : ℝ} : at3 ((fun v => v.map (· / c)) <$> v) = c⁻¹ • at3 v := by
  have hc : ∀ d, component ((fun v => v.map (· / c)) <$> v) d = c⁻¹ * component v d := by
    intro d
    cases v with
    | ok v =>
      change (v.map (· / c)).getD d 0 = c⁻¹ * v.getD d 0
      by_cases hd : d < v.length
      · simp [List.getD_eq_getElem?_getD, hd]
        ring
      · simp [List.getD_eq_getElem?_getD, hd]
    | _ => exact (mul_zero _).symm
  unfold at3
  rw [hc, hc, hc]
  ext i
  fin_cases i <;> simp

/-- **C108 (two vertices).** For two vertices that prescribe no motion the method with violation scaling gives the path
of `runNfabian`, run slower by the factor by which the time is longer. -/
theorem C108_single {lib : NlLib 5 ℝ} (hl : LibSpec lib) (c : BenchSettings ℝ) (hv : 0 < c.vMax) (ha : 0 < c.aMax)
    {vs : List (Vertex ℝ)} {T : ℝ} (he : estimateSegmentTimes Real.sqrt Real.exp vs c.vMax c.aMax = .ok [T])
    (hp : Problem 5 3 vs [T]) {k : ℕ} (hk : k < 5) (ho : c.order = k) (hpin : Pinned k vs) (hrest : AtRest 5 vs) :
    ∃ tr cost, runNfabian lib c vs = .ok (tr, cost) ∧ tr.maxTime = T ∧
      ∀ p : ℝ × ℝ, LargestOn (fun t => ‖at3 (tr.evaluate t 1)‖) T p.1 → LargestOn (fun t => ‖at3 (tr.evaluate t 2)‖) T p.2 →
        violation c p ≠ 1 → ∃ tr' cost', runSegmentViolationScaling lib c vs = .ok (some (tr', cost')) ∧
          tr'.maxTime = max (1 / 10) (T / (1 - violation c p)) ∧
          ∀ t (m : ℕ), at3 (tr'.evaluate (tr'.maxTime / T * t) m) =
            ((tr'.maxTime / T) ^ m)⁻¹ • at3 (tr.evaluate t m) := by
  have hT : 0 < T := lt_of_lt_of_le (by positivity) (hp.times_pos T (by simp))
  obtain ⟨o, o1, tr, h1, h2, h3, h4, h5, h6, h7, h8, h9, h10, h11, -, h12⟩ := linear_run hl hp hk
  have hrun := runLinear_run hl c hv ha hp hk ho h1 h2 h3 h5 h7
  obtain ⟨tr0, cost0, r1, r2, r3⟩ := C108_violation hl c hv ha he hp hk ho hpin
  rw [(C108_times hl c vs [T]).1 he, hrun] at r1
  obtain ⟨rfl, rfl⟩ := Prod.mk.inj (Res.ok.inj r1)
  have hmax : tr.maxTime = T := by
    rw [h10.total, h12]
    simp
  refine ⟨tr, _, by rw [(C108_times hl c vs [T]).1 he]; exact hrun, hmax, ?_⟩
  intro p hp1 hp2 hne
  obtain ⟨s, hs⟩ : ∃ s, tr.segments = [s] := List.length_eq_one_iff.mp (by simpa using r2)
  have hst : s.time = T := by
    simpa [Trajectory.getSegmentTimes, hs] using h12
  have hpk : List.Forall₂ Peaks tr.segments [p] := by
    rw [hs]
    refine .cons ⟨?_, ?_⟩ .nil
    · rw [hst]
      obtain ⟨⟨t, t0, t1, t2⟩, h⟩ := hp1
      refine ⟨⟨t, t0, t1, ?_⟩, fun t t0 t1 => ?_⟩
      · have e := single_evaluate h10 hs 1 t0 (hst ▸ t1)
        rw [Nat.cast_one] at e
        dsimp only
        rw [← e]
        exact t2
      · have e := single_evaluate h10 hs 1 t0 (hst ▸ t1)
        rw [Nat.cast_one] at e
        dsimp only
        rw [← e]
        exact h t t0 t1
    · rw [hst]
      obtain ⟨⟨t, t0, t1, t2⟩, h⟩ := hp2
      refine ⟨⟨t, t0, t1, ?_⟩, fun t t0 t1 => ?_⟩
      · have e := single_evaluate h10 hs 2 t0 (hst ▸ t1)
        rw [Nat.cast_ofNat] at e
        dsimp only
        rw [← e]
        exact t2
      · have e := single_evaluate h10 hs 2 t0 (hst ▸ t1)
        rw [Nat.cast_ofNat] at e
        dsimp only
        rw [← e]
        exact h t t0 t1
  obtain ⟨⟨tr', cost'⟩, q1, q2⟩ := (r3 [p] hpk).2 (by simpa using hne)
  set T' := max (1 / 10) (T / (1 - violation c p)) with hT'
  have hnew : newTimes c [T] [p] = [T].map (· * (T' / T)) := by
    simp only [newTimes, List.zipWith_cons_cons, List.zipWith_nil_left, List.map_cons, List.map_nil, ← hT']
    rw [mul_div_cancel₀ _ hT.ne']
  have hT'pos : 0 < T' := lt_of_lt_of_le (by norm_num) (le_max_left _ _)
  have hp' : Problem 5 3 vs (newTimes c [T] [p]) :=
    ⟨by simpa [newTimes] using hp.count, hp.two, newTimes_ge, hp.wf, hp.dim_pos, hp.small⟩
  obtain ⟨q, q', tr'', g1, g2, g3, g4, g5, g6, g7, g8, g9, g10, -, -, -⟩ := linear_run hl hp' hk
  have hrun' := runLinear_run hl c hv ha hp' hk ho g1 g2 g3 g5 g7
  rw [hrun'] at q1
  obtain ⟨rfl, rfl⟩ := Prod.mk.inj (Res.ok.inj q1)
  rw [hnew] at g4
  obtain ⟨tr1, tr2, x1, x2, x3, x4, x5⟩ := C81_time_scaling hl.inv hl.solve hl.inv hl.solve (div_pos hT'pos hT) h4 h2 g4 g2
    (by rw [h6, g6]) hpin hrest
  rw [h3] at x1
  rw [g3] at x2
  obtain rfl := Res.ok.inj x1
  obtain rfl := Res.ok.inj x2
  have hm : tr''.maxTime = T' := by
    rw [x4, hmax]
    field_simp
  refine ⟨tr'', _, q2, hm, ?_⟩
  intro t m
  rw [hm, x5, at3_scale]

/-- **C108 (limits, partial).** For two vertices that prescribe no motion and a violation of at least 0 and less than 1,
the trajectory obeys both limits. Missing are violations of 1 and more, and trajectories that obeyed the limits with
room to spare, for which it is false, see below. -/
theorem C108_limits_partial {lib : NlLib 5 ℝ} (hl : LibSpec lib) (c : BenchSettings ℝ) (hv : 0 < c.vMax) (ha : 0 < c.aMax)
    {vs : List (Vertex ℝ)} {T : ℝ} (he : estimateSegmentTimes Real.sqrt Real.exp vs c.vMax c.aMax = .ok [T])
    (hp : Problem 5 3 vs [T]) {k : ℕ} (hk : k < 5) (ho : c.order = k) (hpin : Pinned k vs) (hrest : AtRest 5 vs) :
    ∃ tr cost, runNfabian lib c vs = .ok (tr, cost) ∧ tr.maxTime = T ∧
      ∀ p : ℝ × ℝ, LargestOn (fun t => ‖at3 (tr.evaluate t 1)‖) T p.1 → LargestOn (fun t => ‖at3 (tr.evaluate t 2)‖) T p.2 →
        0 ≤ violation c p → violation c p < 1 →
        ∃ tr' cost', runSegmentViolationScaling lib c vs = .ok (some (tr', cost')) ∧
          ∀ t, 0 ≤ t → t ≤ tr'.maxTime → ‖at3 (tr'.evaluate t 1)‖ ≤ c.vMax ∧ ‖at3 (tr'.evaluate t 2)‖ ≤ c.aMax := by
  have hT : 0 < T := lt_of_lt_of_le (by positivity) (hp.times_pos T (by simp))
  obtain ⟨tr, cost, h1, h2, h3⟩ := C108_single hl c hv ha he hp hk ho hpin hrest
  refine ⟨tr, cost, h1, h2, ?_⟩
  intro p hp1 hp2 hw0 hw1
  obtain ⟨tr', cost', g1, g2, g3⟩ := h3 p hp1 hp2 hw1.ne
  refine ⟨tr', cost', g1, ?_⟩
  set w := violation c p with hw
  have ha' : p.2 ≤ c.aMax * (1 + w) := by
    have h4 : (p.2 - c.aMax) / c.aMax ≤ w := le_max_left _ _
    rw [div_le_iff₀ ha] at h4
    linarith
  have hv' : p.1 ≤ c.vMax * (1 + w) := by
    have h4 : (p.1 - c.vMax) / c.vMax ≤ w := le_max_right _ _
    rw [div_le_iff₀ hv] at h4
    linarith
  have hσ : 1 / (1 - w) ≤ tr'.maxTime / T := by
    rw [g2, div_le_div_iff₀ (by linarith) hT]
    have h5 : T / (1 - w) ≤ max (1 / 10) (T / (1 - w)) := le_max_right _ _
    rw [div_le_iff₀ (by linarith)] at h5
    linarith
  set σ := tr'.maxTime / T with hσd
  have hσ1 : 1 ≤ σ * (1 - w) := by
    rw [div_le_iff₀ (by linarith)] at hσ
    exact hσ
  have hσ0 : 0 < σ := by
    by_contra hc
    have : σ * (1 - w) ≤ 0 := mul_nonpos_of_nonpos_of_nonneg (not_lt.mp hc) (by linarith)
    linarith
  intro t t0 t1
  have hu : t = σ * (t / σ) := by field_simp
  have hu0 : 0 ≤ t / σ := div_nonneg t0 hσ0.le
  have hu1 : t / σ ≤ T := by
    rw [div_le_iff₀ hσ0, hσd, mul_div_cancel₀ _ hT.ne']
    exact t1
  have e1 := g3 (t / σ) 1
  have e2 := g3 (t / σ) 2
  rw [Nat.cast_one, ← hu] at e1
  rw [Nat.cast_ofNat, ← hu] at e2
  have b1 := hp1.2 _ hu0 hu1
  have b2 := hp2.2 _ hu0 hu1
  rw [e1, e2, norm_smul, norm_smul, norm_inv, norm_inv, Real.norm_of_nonneg (by positivity), Real.norm_of_nonneg (by positivity)]
  constructor
  · rw [inv_mul_le_iff₀ (by positivity), pow_one]
    refine b1.trans (hv'.trans ?_)
    have : 1 + w ≤ σ := by nlinarith
    nlinarith
  · rw [inv_mul_le_iff₀ (by positivity)]
    refine b2.trans (ha'.trans ?_)
    have : 1 + w ≤ σ := by nlinarith
    have : 1 + w ≤ σ ^ 2 := by nlinarith
    nlinarith

/-! ### C108 witnesses: a straight line from rest to rest -/

theorem rest_to_rest {c : List ℝ} (hlen : c.length = 10) {d T : ℝ} (hT : 0 < T) (h0 : ∀ m < 5, derivAt c m 0 = 0)
    (h1 : derivAt c 0 T = d) (h2 : ∀ m, 0 < m → m < 5 → derivAt c m T = 0) (s : ℝ) :
    derivAt c 1 (s * T) = d / T * (630 * (s * (1 - s)) ^ 4) ∧
    derivAt c 2 (s * T) = d / T ^ 2 * (2520 * (s * (1 - s)) ^ 3 * (1 - 2 * s)) := by
  match c, hlen with
  | [c0, c1, c2, c3, c4, c5, c6, c7, c8, c9], _ =>
    have e0 := h0 0 (by omega)
    have e1 := h0 1 (by omega)
    have e2 := h0 2 (by omega)
    have e3 := h0 3 (by omega)
    have e4 := h0 4 (by omega)
    have f1 := h2 1 (by omega) (by omega)
    have f2 := h2 2 (by omega) (by omega)
    have f3 := h2 3 (by omega) (by omega)
    have f4 := h2 4 (by omega) (by omega)
    rw [derivAt_eq_sum] at e0 e1 e2 e3 e4 f1 f2 f3 f4 h1 ⊢
    rw [derivAt_eq_sum]
    simp [Finset.sum_range_succ, Nat.descFactorial] at e0 e1 e2 e3 e4 f1 f2 f3 f4 h1 ⊢
    subst e0 e1 e2 e3 e4
    have k0 : c5 * T ^ 5 + c6 * T ^ 6 + c7 * T ^ 7 + c8 * T ^ 8 + c9 * T ^ 9 = d := by linear_combination h1
    have k1 : 5 * (c5 * T ^ 5) + 6 * (c6 * T ^ 6) + 7 * (c7 * T ^ 7) + 8 * (c8 * T ^ 8) + 9 * (c9 * T ^ 9) = 0 := by
      linear_combination T * f1
    have k2 : 20 * (c5 * T ^ 5) + 30 * (c6 * T ^ 6) + 42 * (c7 * T ^ 7) + 56 * (c8 * T ^ 8) + 72 * (c9 * T ^ 9) = 0 := by
      linear_combination T ^ 2 * f2
    have k3 : 60 * (c5 * T ^ 5) + 120 * (c6 * T ^ 6) + 210 * (c7 * T ^ 7) + 336 * (c8 * T ^ 8) + 504 * (c9 * T ^ 9) = 0 := by
      linear_combination T ^ 3 * f3
    have k4 : 120 * (c5 * T ^ 5) + 360 * (c6 * T ^ 6) + 840 * (c7 * T ^ 7) + 1680 * (c8 * T ^ 8) + 3024 * (c9 * T ^ 9) = 0 := by
      linear_combination T ^ 4 * f4
    have x5 : c5 * T ^ 5 = 126 * d := by linarith
    have x6 : c6 * T ^ 6 = -420 * d := by linarith
    have x7 : c7 * T ^ 7 = 540 * d := by linarith
    have x8 : c8 * T ^ 8 = -315 * d := by linarith
    have x9 : c9 * T ^ 9 = 70 * d := by linarith
    constructor
    · rw [div_mul_eq_mul_div, eq_div_iff hT.ne']
      linear_combination 5 * s ^ 4 * x5 + 6 * s ^ 5 * x6 + 7 * s ^ 6 * x7 + 8 * s ^ 7 * x8 + 9 * s ^ 8 * x9
    · rw [div_mul_eq_mul_div, eq_div_iff (by positivity)]
      linear_combination 20 * s ^ 3 * x5 + 30 * s ^ 4 * x6 + 42 * s ^ 5 * x7 + 56 * s ^ 6 * x8 + 72 * s ^ 7 * x9

theorem accel_bound {s : ℝ} (h0 : 0 ≤ s) (h1 : s ≤ 1) : |2520 * (s * (1 - s)) ^ 3 * (1 - 2 * s)| ≤ 94 / 10 := by
  set y := 1 - 2 * s with hy
  have hs : s * (1 - s) = (1 - y ^ 2) / 4 := by rw [hy]; ring
  have hy2 : y ^ 2 ≤ 1 := by nlinarith
  rw [hs, abs_mul, abs_of_nonneg (by have : 0 ≤ 1 - y ^ 2 := by linarith
                                     positivity)]
  have hz : |y| ≤ 4 / 3 * (y ^ 2 + 9 / 64) := by
    have := sq_nonneg (|y| - 3 / 8)
    rw [← sq_abs]
    linarith
  set z := y ^ 2 with hzz
  have hz0 : 0 ≤ z := sq_nonneg y
  have hg : (1 - z) ^ 3 * (z + 9 / 64) ≤ 179 / 1000 := by
    nlinarith [mul_nonneg (sq_nonneg (z - 1 / 7)) (sq_nonneg (z - 1)), sq_nonneg (z - 1 / 7), mul_nonneg hz0 (sq_nonneg (z - 1/7)), mul_nonneg (sub_nonneg.mpr hy2) (sq_nonneg (z - 1/7))]
  have hq : 0 ≤ (1 - z) ^ 3 := by
    have : 0 ≤ 1 - z := by linarith
    positivity
  nlinarith [mul_le_mul_of_nonneg_left hz hq]

/-- A vertex at rest, with the derivatives 1 to 4 zero. -/
def restVertex (p : List ℝ) : Vertex ℝ :=
  ⟨3, [(0, p), (1, [0, 0, 0]), (2, [0, 0, 0]), (3, [0, 0, 0]), (4, [0, 0, 0])]⟩

/-- From rest at the origin to rest at `(d, 0, 0)`. -/
def straight (d : ℝ) : List (Vertex ℝ) := [restVertex [0, 0, 0], restVertex [d, 0, 0]]

theorem straight_time {d v a : ℝ} (hd : 0 ≤ d) : estimateSegmentTimes Real.sqrt Real.exp (straight d) v a =
    .ok [d / v * 2 * (1 + 13 / 2 * v / a * Real.exp (-d / v * 2))] := by
  unfold estimateSegmentTimes estimateSegmentTimesNfabian
  rw [Res.check_of (by simp [straight]), Res.ok_bind]
  have h0 : vecNorm Real.sqrt [d, 0, 0] = d := by
    simp [vecNorm, Real.sqrt_sq hd]
  simp [straight, restVertex, Vertex.position, Vertex.getConstraint, mapFind, vecSub, List.mapM_cons, h0]

theorem straight_problem {d T : ℝ} (hT : 1 / 2 ^ 52 ≤ T) : Problem 5 3 (straight d) [T] where
  count := rfl
  two := le_rfl
  times_pos := by simpa using hT
  wf := by
    intro v hv
    simp only [straight, List.mem_cons, List.not_mem_nil, or_false] at hv
    rcases hv with rfl | rfl
    · exact ⟨⟨by simp [restVertex], by simp [restVertex]⟩, rfl⟩
    · exact ⟨⟨by simp [restVertex], by simp [restVertex]⟩, rfl⟩
  dim_pos := by norm_num
  small := by norm_num

theorem straight_get (p : List ℝ) : (restVertex p).getConstraint 0 = some p ∧
    ∀ m : ℕ, 0 < m → m < 5 → (restVertex p).getConstraint m = some [0, 0, 0] := by
  refine ⟨rfl, fun m h0 h1 => ?_⟩
  interval_cases m <;> rfl

theorem straight_pinned (d : ℝ) {k : ℕ} (hk : k < 5) : Pinned k (straight d) := by
  refine ⟨restVertex [0, 0, 0], by simp [straight], fun m hm => ?_⟩
  rcases Nat.eq_zero_or_pos m with rfl | h0
  · exact ⟨_, (straight_get _).1⟩
  · exact ⟨_, (straight_get _).2 m h0 (by omega)⟩

theorem straight_rest (d : ℝ) : AtRest 5 (straight d) := by
  intro v hv m h0 h1 c hc x hx
  simp only [straight, List.mem_cons, List.not_mem_nil, or_false] at hv
  rcases hv with rfl | rfl <;>
  · rw [(straight_get _).2 m h0 h1] at hc
    obtain rfl := Option.some.inj hc
    simpa using hx

/-- The solution: speed and acceleration along the first axis. -/
theorem straight_solution {lib : NlLib 5 ℝ} (hl : LibSpec lib) (c : BenchSettings ℝ) (hv : 0 < c.vMax) (ha : 0 < c.aMax)
    {k : ℕ} (hk : k < 5) (ho : c.order = k) {d T : ℝ} (hT : 1 / 2 ^ 52 ≤ T) :
    ∃ tr cost, runLinear lib c (straight d) [T] = .ok (tr, cost) ∧ ∀ s, 0 ≤ s → s ≤ 1 →
      at3 (tr.evaluate (s * T) 1) = !₂[d / T * (630 * (s * (1 - s)) ^ 4), 0, 0] ∧
      at3 (tr.evaluate (s * T) 2) = !₂[d / T ^ 2 * (2520 * (s * (1 - s)) ^ 3 * (1 - 2 * s)), 0, 0] := by
  have hT0 : 0 < T := lt_of_lt_of_le (by positivity) hT
  obtain ⟨tr, h1, h2, h3, h4, ⟨h5, h6, -⟩, -⟩ := C108_linear hl c hv ha (straight_problem (d := d) hT) hk ho
  refine ⟨tr, _, h1, fun s s0 s1 => ?_⟩
  obtain ⟨g, hg⟩ : ∃ g, tr.segments = [g] := by
    refine List.length_eq_one_iff.mp ?_
    have := congrArg List.length h5.durations
    simpa using this
  have hgt : g.time = T := by
    have := h5.durations
    rw [hg] at this
    simpa using this
  have hD := h5.dims g (by simp [hg])
  have hC := h5.coeffs g (by simp [hg])
  match hpp : g.polys, hD with
  | [p0, p1, p2], _ =>
    have key : ∀ i (hi : i < 3), ∀ m, m < 5 →
        derivAt (([p0, p1, p2] : List (Poly ℝ)).getD i ⟨[]⟩).coeffs m 0 = 0 ∧
        derivAt (([p0, p1, p2] : List (Poly ℝ)).getD i ⟨[]⟩).coeffs m T = if m = 0 ∧ i = 0 then d else 0 := by
      intro i hi m hm
      have hget : ∀ p : List ℝ, (restVertex p).getConstraint (m : ℕ) = some (if m = 0 then p else [0, 0, 0]) := by
        intro p
        rcases Nat.eq_zero_or_pos m with rfl | h0
        · exact (straight_get p).1
        · rw [if_neg (by omega)]
          exact (straight_get p).2 m h0 hm
      have a := (h6 0 _ rfl m hm _ (hget _) i hi).1 g (by simp [hg])
      have b := (h6 1 _ rfl m hm _ (hget _) i hi).2 0 g rfl (by simp [hg])
      unfold segDeriv at a b
      rw [hpp] at a b
      rw [hgt] at b
      refine ⟨?_, ?_⟩
      · rw [a]
        split_ifs <;> interval_cases i <;> rfl
      · rw [b]
        by_cases h0 : m = 0
        · simp only [h0, if_true, true_and]
          interval_cases i <;> rfl
        · simp only [h0, if_false, false_and]
          interval_cases i <;> rfl
    have hlen : ∀ p ∈ [p0, p1, p2], p.coeffs.length = 10 := by
      rw [← hpp]
      exact hC
    have r0 := rest_to_rest (hlen p0 (by simp)) hT0 (fun m hm => (key 0 (by omega) m hm).1)
      (d := d) (by simpa using (key 0 (by omega) 0 (by omega)).2)
      (fun m m0 m1 => by simpa [m0.ne'] using (key 0 (by omega) m m1).2) s
    have r1 := rest_to_rest (hlen p1 (by simp)) hT0 (fun m hm => (key 1 (by omega) m hm).1)
      (d := 0) (by simpa using (key 1 (by omega) 0 (by omega)).2)
      (fun m m0 m1 => by simpa [m0.ne'] using (key 1 (by omega) m m1).2) s
    have r2 := rest_to_rest (hlen p2 (by simp)) hT0 (fun m hm => (key 2 (by omega) m hm).1)
      (d := 0) (by simpa using (key 2 (by omega) 0 (by omega)).2)
      (fun m m0 m1 => by simpa [m0.ne'] using (key 2 (by omega) m m1).2) s
    have hsT0 : 0 ≤ s * T := by positivity
    have hsT1 : s * T ≤ g.time := by rw [hgt]; nlinarith
    have e1 := single_evaluate h2 hg 1 hsT0 hsT1
    have e2 := single_evaluate h2 hg 2 hsT0 hsT1
    rw [segment_evaluate_ok g (h2.wf g (by simp [hg])), Nat.cast_one] at e1
    rw [segment_evaluate_ok g (h2.wf g (by simp [hg])), Nat.cast_ofNat] at e2
    rw [e1, e2, point_ok, point_ok]
    simp only [segValue, hpp, List.map_cons, List.map_nil, point, r0.1, r0.2, r1.1, r1.2, r2.1, r2.2]
    simp

theorem norm_axis (x : ℝ) : ‖(!₂[x, 0, 0] : EuclideanSpace ℝ (Fin 3))‖ = |x| := by
  rw [EuclideanSpace.norm_eq]
  simp [Fin.sum_univ_three, Real.sqrt_sq_eq_abs]

/-- The whole run for the straight line. -/
theorem straight_run {lib : NlLib 5 ℝ} (hl : LibSpec lib) (c : BenchSettings ℝ) (hv : 0 < c.vMax) (ha : 0 < c.aMax)
    {k : ℕ} (hk : k < 5) (ho : c.order = k) {d T : ℝ} (hd : 0 < d) (hT : 1 / 2 ^ 52 ≤ T)
    (hTe : T = d / c.vMax * 2 * (1 + 13 / 2 * c.vMax / c.aMax * Real.exp (-d / c.vMax * 2))) :
    ∃ tr cost, ∃ p : ℝ × ℝ, runNfabian lib c (straight d) = .ok (tr, cost) ∧ tr.maxTime = T ∧
      LargestOn (fun t => ‖at3 (tr.evaluate t 1)‖) T p.1 ∧ LargestOn (fun t => ‖at3 (tr.evaluate t 2)‖) T p.2 ∧
      p.1 = d / T * (630 / 256) ∧ p.2 ≤ d / T ^ 2 * (94 / 10) ∧ d / T ^ 2 * 9.33 ≤ p.2 ∧
      (violation c p ≠ 1 → ∃ tr' cost', runSegmentViolationScaling lib c (straight d) = .ok (some (tr', cost')) ∧
          tr'.maxTime = max (1 / 10) (T / (1 - violation c p)) ∧
          ‖at3 (tr'.evaluate (1 / 2 * tr'.maxTime) 1)‖ = d / tr'.maxTime * (630 / 256) ∧
          d / tr'.maxTime ^ 2 * 9.33 ≤ ‖at3 (tr'.evaluate (3 / 10 * tr'.maxTime) 2)‖) := by
  have hT0 : 0 < T := lt_of_lt_of_le (by positivity) hT
  have he := straight_time (v := c.vMax) (a := c.aMax) hd.le
  rw [← hTe] at he
  obtain ⟨tr, cost, h1, h2, h3⟩ := C108_single hl c hv ha he (straight_problem hT) hk ho (straight_pinned d hk)
    (straight_rest d)
  obtain ⟨tr0, cost0, g1, g2⟩ := straight_solution hl c hv ha hk ho (d := d) hT
  have h1' := h1
  rw [(C108_times hl c _ [T]).1 he, g1] at h1'
  obtain ⟨rfl, rfl⟩ := Prod.mk.inj (Res.ok.inj h1')
  have n1 : ∀ s, 0 ≤ s → s ≤ 1 → ‖at3 (tr0.evaluate (s * T) 1)‖ = d / T * (630 * (s * (1 - s)) ^ 4) := by
    intro s s0 s1
    rw [(g2 s s0 s1).1, norm_axis, abs_of_nonneg]
    have : 0 ≤ s * (1 - s) := mul_nonneg s0 (by linarith)
    positivity
  have n2 : ∀ s, 0 ≤ s → s ≤ 1 →
      ‖at3 (tr0.evaluate (s * T) 2)‖ = d / T ^ 2 * |2520 * (s * (1 - s)) ^ 3 * (1 - 2 * s)| := by
    intro s s0 s1
    rw [(g2 s s0 s1).2, norm_axis, abs_mul, abs_of_pos (by positivity : 0 < d / T ^ 2)]
  have v2 : d / T ^ 2 * 9.33 ≤ ‖at3 (tr0.evaluate (3 / 10 * T) 2)‖ := by
    rw [n2 _ (by norm_num) (by norm_num)]
    refine mul_le_mul_of_nonneg_left ?_ (by positivity)
    norm_num
  have hmax : ∀ f : ℝ → ℝ, ContinuousOn f (Icc 0 1) → ∃ s ∈ Icc (0 : ℝ) 1, ∀ x ∈ Icc (0 : ℝ) 1, f x ≤ f s := by
    intro f hf
    obtain ⟨s, hs, h⟩ := isCompact_Icc.exists_isMaxOn (by simp) hf
    exact ⟨s, hs, fun x hx => h hx⟩
  obtain ⟨s1, ⟨i1, i2⟩, j1⟩ := hmax (fun s => d / T * (630 * (s * (1 - s)) ^ 4)) (by fun_prop)
  obtain ⟨s2, ⟨i3, i4⟩, j2⟩ := hmax (fun s => d / T ^ 2 * |2520 * (s * (1 - s)) ^ 3 * (1 - 2 * s)|) (by fun_prop)
  have split : ∀ t, 0 ≤ t → t ≤ T → ∃ s, 0 ≤ s ∧ s ≤ 1 ∧ t = s * T := fun t t0 t1 =>
    ⟨t / T, div_nonneg t0 hT0.le, (div_le_one hT0).mpr t1, by field_simp⟩
  have l1 : LargestOn (fun t => ‖at3 (tr0.evaluate t 1)‖) T (d / T * (630 * (s1 * (1 - s1)) ^ 4)) := by
    refine ⟨⟨s1 * T, by positivity, by nlinarith, n1 s1 i1 i2⟩, fun t t0 t1 => ?_⟩
    obtain ⟨s, a0, a1, rfl⟩ := split t t0 t1
    dsimp only
    rw [n1 s a0 a1]
    exact j1 s ⟨a0, a1⟩
  have l2 : LargestOn (fun t => ‖at3 (tr0.evaluate t 2)‖) T
      (d / T ^ 2 * |2520 * (s2 * (1 - s2)) ^ 3 * (1 - 2 * s2)|) := by
    refine ⟨⟨s2 * T, by positivity, by nlinarith, n2 s2 i3 i4⟩, fun t t0 t1 => ?_⟩
    obtain ⟨s, a0, a1, rfl⟩ := split t t0 t1
    dsimp only
    rw [n2 s a0 a1]
    exact j2 s ⟨a0, a1⟩
  refine ⟨tr0, _, (_, _), h1, h2, l1, l2, ?_, ?_, ?_, ?_⟩
  · have b0 : 0 ≤ s1 * (1 - s1) := mul_nonneg i1 (by linarith)
    have b1 : s1 * (1 - s1) ≤ 1 / 4 := by nlinarith [sq_nonneg (s1 - 1 / 2)]
    have b2 := pow_le_pow_left₀ b0 b1 4
    refine le_antisymm (mul_le_mul_of_nonneg_left (by linarith) (by positivity)) ?_
    have b3 := j1 (1 / 2) ⟨by norm_num, by norm_num⟩
    norm_num at b3 ⊢
    exact b3
  · exact mul_le_mul_of_nonneg_left (accel_bound i3 i4) (by positivity)
  · exact v2.trans (l2.2 _ (by positivity) (by linarith))
  · intro hw
    obtain ⟨tr', cost', q1, q2, q3⟩ := h3 (_, _) l1 l2 hw
    refine ⟨tr', cost', q1, q2, ?_, ?_⟩
    all_goals
      have hT' : 0 < tr'.maxTime := by
        rw [q2]
        exact lt_of_lt_of_le (by norm_num) (le_max_left _ _)
    · have e := q3 (1 / 2 * T) 1
      rw [show tr'.maxTime / T * (1 / 2 * T) = 1 / 2 * tr'.maxTime by field_simp, Nat.cast_one] at e
      rw [e, norm_smul, n1 _ (by norm_num) (by norm_num), norm_inv, Real.norm_of_nonneg (by positivity)]
      field_simp
      norm_num
    · have e := q3 (3 / 10 * T) 2
      rw [show tr'.maxTime / T * (3 / 10 * T) = 3 / 10 * tr'.maxTime by field_simp, Nat.cast_ofNat] at e
      rw [e, norm_smul, norm_inv, Real.norm_of_nonneg (by positivity)]
      calc d / tr'.maxTime ^ 2 * 9.33 = ((tr'.maxTime / T) ^ 2)⁻¹ * (d / T ^ 2 * 9.33) := by field_simp
        _ ≤ _ := mul_le_mul_of_nonneg_left v2 (by positivity)

/-- Two metres with limits of 1 m/s and 1 m/s²: the trajectory of `runNfabian` is too fast, that of the method with
violation scaling is not. -/
example {lib : NlLib 5 ℝ} (hl : LibSpec lib) {k : ℕ} (hk : k < 5) :
    ∃ tr cost tr' cost', runNfabian lib ⟨1, 1, k⟩ (straight 2) = .ok (tr, cost) ∧
      (∃ t, 0 ≤ t ∧ t ≤ tr.maxTime ∧ 1 < ‖at3 (tr.evaluate t 1)‖) ∧
      runSegmentViolationScaling lib ⟨1, 1, k⟩ (straight 2) = .ok (some (tr', cost')) ∧
      ∀ t, 0 ≤ t → t ≤ tr'.maxTime → ‖at3 (tr'.evaluate t 1)‖ ≤ 1 ∧ ‖at3 (tr'.evaluate t 2)‖ ≤ 1 := by
  set T : ℝ := 2 / 1 * 2 * (1 + 13 / 2 * 1 / 1 * Real.exp (-2 / 1 * 2)) with hTd
  have hE := Real.exp_pos (-2 / 1 * 2 : ℝ)
  have hT1 : 4 < T := by
    rw [hTd]
    linarith
  have hT2 : T < 4.6 := by
    have h1 := Real.exp_one_gt_d9
    have h3 : Real.exp (-2 / 1 * 2) = (Real.exp 1 ^ 4)⁻¹ := by
      rw [← Real.exp_nat_mul, ← Real.exp_neg]
      norm_num
    have h4 : (2.7 : ℝ) ^ 4 ≤ Real.exp 1 ^ 4 := pow_le_pow_left₀ (by norm_num) (by linarith) 4
    have h5 : (Real.exp 1 ^ 4)⁻¹ ≤ 1 / 2.7 ^ 4 := by
      rw [← one_div]
      exact one_div_le_one_div_of_le (by norm_num) h4
    rw [hTd, h3]
    norm_num at h5 ⊢
    linarith
  have hT0 : 0 < T := by linarith
  have hT52 : 1 / 2 ^ 52 ≤ T := by linarith [show (1 : ℝ) / 2 ^ 52 ≤ 1 by norm_num]
  have he := straight_time (d := 2) (v := 1) (a := 1) (by norm_num)
  rw [← hTd] at he
  obtain ⟨tr, cost, p, q1, q2, q3, q3', q4, q5, q6, -⟩ := straight_run hl (⟨1, 1, k⟩ : BenchSettings ℝ) one_pos one_pos hk rfl
    (d := 2) two_pos hT52 hTd
  obtain ⟨tr0, cost0, g1, -, g3⟩ := C108_limits_partial hl (⟨1, 1, k⟩ : BenchSettings ℝ) one_pos one_pos he
    (straight_problem hT52) hk rfl (straight_pinned 2 hk) (straight_rest 2)
  rw [q1] at g1
  obtain ⟨rfl, rfl⟩ := Prod.mk.inj (Res.ok.inj g1)
  have p1 : 1.06 < p.1 := by
    rw [q4, div_mul_eq_mul_div, lt_div_iff₀ hT0]
    linarith
  have p1' : p.1 < 1.5 := by
    rw [q4, div_mul_eq_mul_div, div_lt_iff₀ hT0]
    linarith
  have p2 : p.2 < 1.5 := by
    refine lt_of_le_of_lt q5 ?_
    rw [div_mul_eq_mul_div, div_lt_iff₀ (by positivity)]
    nlinarith
  obtain ⟨tr', cost', r1, r2⟩ := g3 p q3 q3'
    (by
      unfold violation
      exact le_trans (by dsimp only; linarith) (le_max_right _ _))
    (by
      unfold violation
      exact max_lt (by dsimp only; linarith) (by dsimp only; linarith))
  obtain ⟨⟨t, t0, t1, t2⟩, -⟩ := q3
  exact ⟨tr, cost, tr', cost', q1, ⟨t, t0, by rw [q2]; exact t1, by dsimp only at t2; rw [t2]; linarith⟩, r1, r2⟩

/-- **C108 is false for trajectories that obey the limits.** One metre from rest to rest, with limits of 1 m/s and
1 m/s²: the trajectory of `runNfabian` obeys both limits, but the method with violation scaling shortens its time by a
quarter, and the acceleration then exceeds 1.1 m/s². (A shorter time raises accelerations by the square of the
factor.) -/
theorem C108_feasible_false {lib : NlLib 5 ℝ} (hl : LibSpec lib) {k : ℕ} (hk : k < 5) :
    ∃ tr cost tr' cost', runNfabian lib ⟨1, 1, k⟩ (straight 1) = .ok (tr, cost) ∧
      (∀ t, 0 ≤ t → t ≤ tr.maxTime → ‖at3 (tr.evaluate t 1)‖ ≤ 1 ∧ ‖at3 (tr.evaluate t 2)‖ ≤ 1) ∧
      runSegmentViolationScaling lib ⟨1, 1, k⟩ (straight 1) = .ok (some (tr', cost')) ∧
      ∃ t, 0 ≤ t ∧ t ≤ tr'.maxTime ∧ 1.1 < ‖at3 (tr'.evaluate t 2)‖ := by
  set T : ℝ := 1 / 1 * 2 * (1 + 13 / 2 * 1 / 1 * Real.exp (-1 / 1 * 2)) with hTd
  have hexp : Real.exp (-1 / 1 * 2) = (Real.exp 1 ^ 2)⁻¹ := by
    rw [show (-1 / 1 * 2 : ℝ) = -(1 + 1) by norm_num, Real.exp_neg, Real.exp_add, pow_two]
  have h1 := Real.exp_one_gt_d9
  have h2 := Real.exp_one_lt_d9
  have hE0 : 7.389 < Real.exp 1 ^ 2 := by nlinarith
  have hE1 : Real.exp 1 ^ 2 < 7.39 := by nlinarith
  have hT1 : 3.759 < T := by
    rw [hTd, hexp]
    have : 1 / 7.39 < (Real.exp 1 ^ 2)⁻¹ := by
      rw [← one_div]
      exact one_div_lt_one_div_of_lt (by positivity) hE1
    norm_num at this ⊢
    linarith
  have hT2 : T < 3.76 := by
    rw [hTd, hexp]
    have : (Real.exp 1 ^ 2)⁻¹ < 1 / 7.389 := by
      rw [← one_div]
      exact one_div_lt_one_div_of_lt (by norm_num) hE0
    norm_num at this ⊢
    linarith
  have hT0 : 0 < T := by linarith
  obtain ⟨tr, cost, p, q1, q2, q3, q3', q4, q5, q6, q7⟩ := straight_run hl (⟨1, 1, k⟩ : BenchSettings ℝ) one_pos one_pos hk rfl
    (d := 1) one_pos (by linarith [show (1 : ℝ) / 2 ^ 52 ≤ 1 by norm_num]) hTd
  have p1 : p.1 ≤ 0.667 := by
    refine q4.le.trans ?_
    rw [div_mul_eq_mul_div, div_le_iff₀ hT0]
    linarith
  have p2 : p.2 ≤ 0.667 := by
    refine q5.trans ?_
    rw [div_mul_eq_mul_div, div_le_iff₀ (by positivity)]
    nlinarith
  set w := violation (⟨1, 1, k⟩ : BenchSettings ℝ) p with hw
  have hwle : w ≤ -0.333 := by
    rw [hw]
    unfold violation
    exact max_le (by dsimp only; linarith) (by dsimp only; linarith)
  obtain ⟨tr', cost', r1, r2, -, r4⟩ := q7 (by linarith)
  have hw' : T / (1 - w) ≤ 3.76 / 1.333 := by
    exact div_le_div₀ (by norm_num) hT2.le (by norm_num) (by linarith)
  have hm : tr'.maxTime ≤ 3.76 / 1.333 := by
    rw [r2]
    exact max_le (by norm_num) hw'
  have hm0 : 0 < tr'.maxTime := by
    rw [r2]
    exact lt_of_lt_of_le (by norm_num) (le_max_left _ _)
  refine ⟨tr, cost, tr', cost', q1, ?_, r1, 3 / 10 * tr'.maxTime, by positivity, by linarith, lt_of_lt_of_le ?_ r4⟩
  · intro t t0 t1
    rw [q2] at t1
    have a := q3.2 t t0 t1
    have b := q3'.2 t t0 t1
    dsimp only at a b
    exact ⟨by linarith, by linarith⟩
  · rw [div_mul_eq_mul_div, lt_div_iff₀ (by positivity)]
    have : tr'.maxTime ^ 2 ≤ (3.76 / 1.333) ^ 2 := pow_le_pow_left₀ hm0.le hm 2
    norm_num at this ⊢
    linarith

/-- **C108 is false for large violations.** 500 m from rest to rest with limits of 100 m/s and 1 m/s²: the violation is
above 1, the time divided by one minus the violation is negative, and the segment is run in 0.1 s: at a speed of more
than 12 km/s. -/
theorem C108_violated_false {lib : NlLib 5 ℝ} (hl : LibSpec lib) {k : ℕ} (hk : k < 5) :
    ∃ tr cost tr' cost', runNfabian lib ⟨100, 1, k⟩ (straight 500) = .ok (tr, cost) ∧ 10 ≤ tr.maxTime ∧
      (∀ t, 0 ≤ t → t ≤ tr.maxTime → ‖at3 (tr.evaluate t 1)‖ ≤ 124) ∧
      runSegmentViolationScaling lib ⟨100, 1, k⟩ (straight 500) = .ok (some (tr', cost')) ∧ tr'.maxTime = 1 / 10 ∧
      ∃ t, 0 ≤ t ∧ t ≤ tr'.maxTime ∧ 12000 < ‖at3 (tr'.evaluate t 1)‖ := by
  set T : ℝ := 500 / 100 * 2 * (1 + 13 / 2 * 100 / 1 * Real.exp (-500 / 100 * 2)) with hTd
  have hT1 : 10 ≤ T := by
    have := Real.exp_pos (-500 / 100 * 2 : ℝ)
    rw [hTd]
    linarith
  have hT2 : T < 20 := by
    have h1 := Real.exp_one_gt_d9
    have h3 : Real.exp (-500 / 100 * 2) = (Real.exp 1 ^ 10)⁻¹ := by
      rw [← Real.exp_nat_mul, ← Real.exp_neg]
      norm_num
    have h4 : (2.7 : ℝ) ^ 10 ≤ Real.exp 1 ^ 10 := pow_le_pow_left₀ (by norm_num) (by linarith) 10
    have h5 : (Real.exp 1 ^ 10)⁻¹ ≤ 1 / 2.7 ^ 10 := by
      rw [← one_div]
      exact one_div_le_one_div_of_le (by norm_num) h4
    rw [hTd, h3]
    norm_num at h5 ⊢
    linarith
  have hT0 : 0 < T := by linarith
  obtain ⟨tr, cost, p, q1, q2, q3, q3', q4, q5, q6, q7⟩ := straight_run hl (⟨100, 1, k⟩ : BenchSettings ℝ) (by norm_num) one_pos hk
    rfl (d := 500) (by norm_num) (by linarith [show (1 : ℝ) / 2 ^ 52 ≤ 1 by norm_num]) hTd
  have p1 : p.1 ≤ 124 := by
    refine q4.le.trans ?_
    rw [div_mul_eq_mul_div, div_le_iff₀ hT0]
    linarith
  have p2 : 11 ≤ p.2 := by
    refine le_trans ?_ q6
    rw [div_mul_eq_mul_div, le_div_iff₀ (by positivity)]
    nlinarith
  set w := violation (⟨100, 1, k⟩ : BenchSettings ℝ) p with hw
  have hwle : 10 ≤ w := by
    rw [hw]
    unfold violation
    exact le_trans (by dsimp only; linarith) (le_max_left _ _)
  obtain ⟨tr', cost', r1, r2, r3, -⟩ := q7 (by linarith)
  have hm : tr'.maxTime = 1 / 10 := by
    rw [r2]
    refine max_eq_left (le_trans (div_nonpos_of_nonneg_of_nonpos hT0.le (by linarith)) (by norm_num))
  refine ⟨tr, cost, tr', cost', q1, by rw [q2]; exact hT1, ?_, r1, hm, 1 / 2 * tr'.maxTime, by rw [hm]; norm_num,
    by rw [hm]; norm_num, ?_⟩
  · intro t t0 t1
    rw [q2] at t1
    have a := q3.2 t t0 t1
    dsimp only at a
    linarith
  · rw [r3, hm]
    norm_num

/-- **C108.** The four methods with NLopt, whatever NLopt does within the bounds it is given (`o` is the object
`optimize()` is called on) as long as it evaluates the objective function: they return a trajectory through the vertices,
continuous up to the fourth derivative, with the cost reported for the linear methods. -/
theorem C108_nonlinear {lib : NlLib 5 ℝ} (hl : LibSpec lib) (c : BenchSettings ℝ) (hv : 0 < c.vMax) (ha : 0 < c.aMax)
    {vs : List (Vertex ℝ)} {ts : List ℝ} (hp : Problem 5 3 vs ts) {k : ℕ} (hk : k < 5) (ho : c.order = k)
    {method : TimeAlloc} (hm : method ≠ .unknown) :
    ∃ o : NlOpt 5 ℝ, o.params = { (NlParams.default : NlParams ℝ) with method := method } ∧
      o.constraints = [⟨1, c.vMax⟩, ⟨2, c.aMax⟩] ∧ NlSession lib vs k False o ∧
      o.lin.segmentTimes = ts ∧ (∃ o1, o.solveLinear lib = .ok o1) ∧
      ∀ run, RunOf lib (decide (method = .mellingerOuterLoop)) o run → run.setupThrows = false → evaluated run →
        ∃ code tr, runNonlinear lib run c method vs ts =
            .ok (code, tr, benchCost k c tr.getSegmentTimes tr.segments) ∧
          tr.WF ∧ tr.D = 3 ∧ MeetsConstraints 5 3 vs tr.segments ∧ Spec.Continuous 5 3 tr.segments := by
  obtain ⟨o, h1, h2, h3, h4, h5, h6, o1, h7⟩ := nl_new (lib := lib) hp hk
    { (NlParams.default : NlParams ℝ) with method := method }
  have hsoft : o.params.useSoft = true := by rw [h3]; rfl
  have add1 : o.addMaximumMagnitudeConstraint true 1 c.vMax =
      .ok (true, { o with constraints := o.constraints ++ [⟨1, c.vMax⟩] }) := by
    unfold NlOpt.addMaximumMagnitudeConstraint
    rw [Res.check_of (by norm_num), Res.ok_bind, Res.check_of hv.le, Res.ok_bind, if_pos hsoft, Res.pure_eq]
  have add2 : ({ o with constraints := o.constraints ++ [⟨1, c.vMax⟩] } : NlOpt 5 ℝ).addMaximumMagnitudeConstraint true
      2 c.aMax = .ok (true, { o with constraints := o.constraints ++ [⟨1, c.vMax⟩] ++ [⟨2, c.aMax⟩] }) := by
    unfold NlOpt.addMaximumMagnitudeConstraint
    rw [Res.check_of (by norm_num), Res.ok_bind, Res.check_of ha.le, Res.ok_bind, if_pos hsoft, Res.pure_eq]
  have s1 := NlSession.add h2 add1
  have s2 := NlSession.add s1 add2
  set q : NlOpt 5 ℝ := { o with constraints := o.constraints ++ [⟨1, c.vMax⟩] ++ [⟨2, c.aMax⟩] } with hq
  have hqp : q.params = { (NlParams.default : NlParams ℝ) with method := method } := h3
  have hqc : q.constraints = [⟨1, c.vMax⟩, ⟨2, c.aMax⟩] := by rw [hq, h4]; rfl
  have hqm : q.params.method = method := by rw [hqp]
  have hsol : ∃ q1, q.solveLinear lib = .ok q1 := by
    obtain ⟨l, a1, -⟩ := solveLinear_nl_inv h7
    unfold NlOpt.solveLinear
    rw [show q.lin = o.lin from rfl, a1, Res.ok_bind]
    exact ⟨_, rfl⟩
  refine ⟨q, hqp, hqc, s2, h6, hsol, ?_⟩
  intro run hr hst he
  have hlim : LimitsOk 5 q.constraints := by
    rw [hqc]
    intro x hx
    simp only [List.mem_cons, List.not_mem_nil, or_false] at hx
    rcases hx with rfl | rfl
    · exact ⟨by norm_num, by norm_num, hv⟩
    · exact ⟨by norm_num, by norm_num, ha⟩
  have hr' : RunOf lib (decide (q.params.method = .mellingerOuterLoop)) q run := by rw [hqm]; exact hr
  obtain ⟨code, q', hopt⟩ := C67_returns hl s2 hsol hr' hlim (by
    intro _
    refine ⟨by norm_num, hsoft, ?_, ?_⟩
    · exact ⟨⟨1, c.vMax⟩, by simp [hqc], rfl⟩
    · exact ⟨⟨2, c.aMax⟩, by simp [hqc], rfl⟩)
  have s3 := NlSession.optimize s2 hr' hopt
  have hb : False ∨ (evaluated run ∧ run.setupThrows = false ∧ q.params.method ≠ .unknown) ∨
        q.params.method = .squaredTimeAndConstraints ∨ q.params.method = .richterTimeAndConstraints :=
    .inr (.inl ⟨he, hst, by rw [hqm]; exact hm⟩)
  have hsame := optimize_same hopt
  obtain ⟨-, -, hdim, -⟩ := optimize_inv (nlSession_inv s2).1 hr' hopt
  have hd3 : q'.lin.dimension = 3 := hdim.trans h5
  have hso := (nlSession_inv s3).2.1 hb
  obtain ⟨tr, t1, t2, t3, -, t5, t6⟩ := hso.trajectory hl.inv
  obtain ⟨q2, hcost⟩ := C76_value hl s3 hb (by rw [hsame.constraints]; exact hlim)
  obtain ⟨m1, -, m3, -⟩ := hso.result hl.inv
  refine ⟨code, tr, ?_, t2, t3.trans hd3, by rw [t5, ← hd3]; exact m1, by rw [t5, ← hd3]; exact m3⟩
  unfold runNonlinear
  rw [ho, h1, Res.ok_bind, add1, Res.ok_bind]
  dsimp only
  rw [add2, Res.ok_bind, hopt, Res.ok_bind]
  dsimp only
  rw [t1, Res.ok_bind, hcost, Res.ok_bind, Res.pure_eq]
  rw [t5, t6, hsame.constraints, hqc, hsame.params, hqp, hd3]
  simp [benchCost, NlParams.default, add_assoc]

/-- A run of each method. -/
example (m : TimeAlloc) (hm : m ≠ .unknown) : ∃ run code tr cost,
    runNonlinear (exLib 5) run ⟨1, 1, 4⟩ m (straight 2) [5] = .ok (code, tr, cost) ∧
      MeetsConstraints 5 3 (straight 2) tr.segments := by
  obtain ⟨o, h1, -, h3, h4, h5, h6⟩ := C108_nonlinear (lib := exLib 5) exLib_spec ⟨1, 1, 4⟩ one_pos one_pos
    (straight_problem (d := 2) (T := 5) (by norm_num)) (k := 4) (by norm_num) rfl hm
  have hom : o.params.method = m := by rw [h1]
  obtain ⟨run, x, a1, a2, a3, -⟩ := run_exists h3 (by rw [hom]; exact hm) (decide (m = .mellingerOuterLoop)) h5
    (.inr (by
      rw [h4]
      have := dblMax_gt (K := ℝ)
      intro T hT
      simp only [List.mem_cons, List.not_mem_nil, or_false] at hT
      subst hT
      constructor <;> linarith))
  obtain ⟨code, tr, b1, -, -, b2, -⟩ := h6 run a1 a2 ⟨x, points_mem.mp (by rw [a3]; simp)⟩
  exact ⟨run, code, tr, _, b1, b2⟩

end Verif
