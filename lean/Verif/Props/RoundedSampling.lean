import Verif.Proofs.RoundedSampling
import Verif.Props.FeasibilitySampling
import Verif.Props.FeasibilityDecides

/-
C130: what the feasibility check by sampling says about the times between its samples, exactly and in floating point. The
specification is in `Spec/RoundedSampling`: `ThrustSpeedUpTo` are the limits of thrust and speed up to an error, `Reports` and
`ReportsFl` what is assumed of the conversion to a state of the vehicle, `sampleTime` the times of the samples.
-/
set_option linter.unusedSectionVars false

namespace Verif

open Spec Set

theorem samplingLoop_more {conv : List (List ℝ) → MavState ℝ} {ic : InputConstraints ℝ} {dt : ℝ} {s : Segment ℝ} {fuel : ℕ}
    {r : Verdict} {t : ℝ} (hr : samplingLoop conv ic dt s fuel t = .ok r) (k : ℕ) :
    samplingLoop conv ic dt s (fuel + k) t = .ok r := by
  induction fuel generalizing t with
  | zero => cases hr
  | succ fuel ih =>
    rw [show fuel + 1 + k = fuel + k + 1 by omega]
    rw [samplingLoop_succ] at hr ⊢
    by_cases hle : t ≤ s.time
    · rw [if_pos hle] at hr ⊢
      rw [Res.bind_eq_ok] at hr
      obtain ⟨m, e, hr⟩ := hr
      rw [e, Res.ok_bind]
      rcases hm : checkState ic m with _ | r'
      · rw [hm] at hr
        exact ih hr
      · rw [hm] at hr
        exact hr
    · rw [if_neg hle] at hr ⊢
      exact hr

/-- **C130.** When the check by sampling finds a segment feasible, thrust and speed keep their limits at all times, also between
and after the samples, up to the amounts by which they can change during one sampling interval. -/
theorem C130_between (g : Fin 3 → ℝ) (conv : List (List ℝ) → MavState ℝ) (hc : Reports g conv) (ic : InputConstraints ℝ) (dt : ℝ)
    (hdt : 0 < dt) (s : Segment ℝ) (h : s.WF) (hD : s.D = 3 ∨ s.D = 4) (B : ℕ → ℝ) (hB : DerivativesBelow B s.polys s.time)
    (fuel : ℕ) (hr : s.checkSampling conv ic dt fuel = .ok .feasible) (t : ℝ) (ht : t ∈ Icc 0 s.time) :
    ThrustSpeedUpTo (variation B dt) (ic.getConstraint kFMin) (ic.getConstraint kFMax) (ic.getConstraint kVMax) g s.polys t := by
  have hD3 : 3 ≤ s.D := by omega
  obtain ⟨n, hn⟩ := exists_nat_gt (s.time / dt)
  rw [div_lt_iff₀ hdt] at hn
  obtain ⟨r, e, hiff, -⟩ := C59_samples conv ic dt hdt s h hD n hn (fuel + (n + 1)) (by omega)
  have hr' : s.checkSampling conv ic dt (fuel + (n + 1)) = .ok .feasible := by
    unfold Segment.checkSampling at hr ⊢
    rw [if_pos hD] at hr ⊢
    exact samplingLoop_more hr _
  rw [hr'] at e
  have hall := hiff.mp (Res.ok.inj e).symm
  have hj0 : (⌊t / dt⌋₊ : ℝ) * dt ≤ t := by
    rw [← le_div_iff₀ hdt]
    exact Nat.floor_le (div_nonneg ht.1 hdt.le)
  have hj1 : t - (⌊t / dt⌋₊ : ℝ) * dt ≤ dt := by
    have := (Nat.lt_floor_add_one (t / dt)).le
    rw [div_le_iff₀ hdt] at this
    linarith
  have hm := hall ⌊t / dt⌋₊ (hj0.trans ht.2)
  have ha : 0 ≤ (⌊t / dt⌋₊ : ℝ) * dt := by positivity
  generalize (⌊t / dt⌋₊ : ℝ) * dt = a at hj0 hj1 hm ha
  have hrep : (conv (flatState s.polys a)).thrust = thrust g s.polys a ∧ (conv (flatState s.polys a)).speed = speed s.polys a :=
    ⟨hc.thrust _ _ _ _ _ (by unfold valuesAt; rw [List.length_map]; exact hD3),
      hc.speed _ _ _ _ _ (by unfold valuesAt; rw [List.length_map]; exact hD3)⟩
  obtain ⟨q1, q2⟩ := quantities_near_exact s hD3 g B hB ha hj0 ht.2 hj1
  rw [abs_le] at q1 q2
  refine ⟨fun l hl => ?_, fun l hl => ?_, fun l hl => ?_⟩
  · have := hm.fMin l hl
    rw [hrep.1] at this
    linarith
  · have := hm.fMax l hl
    rw [hrep.1] at this
    linarith
  · have := hm.vMax l hl
    rw [hrep.2] at this
    linarith

/-- A conversion that reports thrust and speed, and no rotation. -/
noncomputable def plainState (g : Fin 3 → ℝ) (ds : List (List ℝ)) : MavState ℝ :=
  ⟨Real.sqrt (∑ i : Fin 3, ((ds.getD 2 []).getD i 0 + g i) ^ 2), Real.sqrt (∑ i : Fin 3, (ds.getD 1 []).getD i 0 ^ 2), 0, 0, 0⟩

theorem plainState_reports (g : Fin 3 → ℝ) : Reports g (plainState g) :=
  ⟨fun _ _ _ _ _ _ => rfl, fun _ _ _ _ _ _ => rfl⟩

/-- A flight along a line, `x(t) = t²`, for one second. -/
def exLine : Segment ℝ := ⟨[⟨[0, 0, 1]⟩, ⟨[0, 0, 0]⟩, ⟨[0, 0, 0]⟩], 1, 3⟩

theorem exLine_wf : exLine.WF := ⟨by simp [exLine, Poly.N], by simp [exLine]⟩

theorem exLine_speed (t : ℝ) (ht : 0 ≤ t) : speed exLine.polys t = 2 * t := by
  unfold speed
  simp only [exLine, vec3_cons, Fin.sum_univ_three, derivAt_eq_sum, cons3_two]
  rw [Real.sqrt_eq_iff_mul_self_eq (by positivity) (by linarith)]
  norm_num [Finset.sum_range_succ]
  ring

theorem exLine_flat (t : ℝ) (ht : 0 ≤ t) : (plainState ![0, 0, 10] (flatState exLine.polys t)).speed = 2 * t := by
  rw [← exLine_speed t ht]
  rfl

theorem exLine_feasible : exLine.checkSampling (plainState ![0, 0, 10]) ⟨[(kVMax, 8 / 5)]⟩ (2 / 5) 5 = .ok .feasible := by
  obtain ⟨r, e, hiff, -⟩ := C59_samples (plainState ![0, 0, 10]) ⟨[(kVMax, 8 / 5)]⟩ (2 / 5) (by norm_num) exLine exLine_wf
    (Or.inl rfl) 3 (by norm_num [exLine]) 5 (by norm_num)
  rw [e, hiff.mpr]
  intro j hj
  have hj1 : (j : ℝ) * (2 / 5) ≤ 1 := hj
  have hj2 : j ≤ 2 := by
    have : (j : ℝ) < 3 := by linarith
    have : j < 3 := by exact_mod_cast this
    omega
  have hj3 : (j : ℝ) ≤ 2 := by exact_mod_cast hj2
  have h0 : (0 : ℝ) ≤ j * (2 / 5) := by positivity
  refine ⟨fun l hl => (by cases hl), fun l hl => (by cases hl), fun l hl => ?_, fun l hl => (by cases hl), fun l hl => (by cases hl),
    fun l hl => (by cases hl)⟩
  obtain rfl : (8 / 5 : ℝ) = l := Option.some.inj hl
  rw [exLine_flat _ h0]
  linarith

/-- The margin is needed: the check can find a segment feasible although a limit is exceeded between or after the samples. -/
theorem C130_margin_needed : ¬ ∀ (g : Fin 3 → ℝ) (conv : List (List ℝ) → MavState ℝ), Reports g conv →
    ∀ (ic : InputConstraints ℝ) (dt : ℝ), 0 < dt → ∀ s : Segment ℝ, s.WF → (s.D = 3 ∨ s.D = 4) → ∀ fuel,
      s.checkSampling conv ic dt fuel = .ok .feasible → ∀ t ∈ Icc 0 s.time,
        ThrustSpeedUpTo (fun _ => 0) (ic.getConstraint kFMin) (ic.getConstraint kFMax) (ic.getConstraint kVMax) g s.polys t := by
  intro H
  have := (H ![0, 0, 10] _ (plainState_reports _) _ _ (by norm_num) exLine exLine_wf (Or.inl rfl) 5 exLine_feasible 1
    ⟨by norm_num, le_rfl⟩).vMax (8 / 5) rfl
  rw [exLine_speed 1 (by norm_num)] at this
  norm_num at this

/-- The speed of this flight is at most 8/5 plus `√3` times the largest acceleration times the interval. -/
example (t : ℝ) (ht : t ∈ Icc 0 exLine.time) : speed exLine.polys t ≤ 8 / 5 + variation (fun _ => 2) (2 / 5) 1 :=
  (C130_between ![0, 0, 10] _ (plainState_reports _) _ _ (by norm_num) exLine exLine_wf (Or.inl rfl) (fun _ => 2) (by
    intro k _ t ht v hv
    have h1 := ht.1
    have h2 : t ≤ 1 := ht.2
    have ha : |t| ≤ 1 := by rw [abs_of_nonneg h1]; exact h2
    have ht2 : t ^ 2 ≤ 1 := pow_le_one₀ h1 h2
    unfold valuesAt at hv
    rw [List.mem_map] at hv
    obtain ⟨p, hp, rfl⟩ := hv
    simp only [exLine, List.mem_cons, List.not_mem_nil, or_false] at hp
    rw [iteratedDeriv_curve, derivAt_eq_sum]
    rcases hp with rfl | rfl | rfl <;> interval_cases k <;>
      norm_num [Finset.sum_range_succ, Nat.descFactorial] <;> linarith) 5 exLine_feasible t ht).vMax (8 / 5) rfl

section
variable {K : Type} [Field K] [LinearOrder K] [IsStrictOrderedRing K]

/-- Exactly calculated, the check with time stamps is the check of `Model/Feasibility`, as long as the duration in nanoseconds fits
into 64 bits. -/
theorem C130_same_code (conv : List (List K) → MavState K) (ic : InputConstraints K) (dt : K) (hdt : 0 ≤ dt) (s : Segment K)
    (hT : s.time * 10 ^ 9 < 2 ^ 63) (fuel : ℕ) :
    s.checkSamplingG fieldSampLib conv ic dt fuel = s.checkSampling conv ic dt fuel := by
  unfold Segment.checkSamplingG Segment.checkSampling
  have key : ∀ t : K, 0 ≤ t → samplingLoopG fieldSampLib conv ic dt s fuel t = samplingLoop conv ic dt s fuel t := by
    induction fuel with
    | zero => intro t _; rfl
    | succ fuel ih =>
      intro t ht
      rw [samplingLoopG_succ, samplingLoop_succ]
      by_cases hle : t ≤ s.time
      · rw [if_pos hle, if_pos hle]
        have hst : sampledStateG fieldSampLib conv s t = sampledState conv s t := by
          unfold sampledStateG sampledState
          have hfit : timeStampG fieldSampLib t = .ok () := by
            refine if_pos (decide_eq_true ?_)
            have h1 : t * 10 ^ 9 ≤ s.time * 10 ^ 9 := mul_le_mul_of_nonneg_right hle (by positivity)
            have h2 : 0 ≤ t * 10 ^ 9 := by positivity
            have h3 : (0 : K) ≤ 2 ^ 63 := by positivity
            exact ⟨by change _ < t * 10 ^ 9; linarith, lt_of_le_of_lt h1 hT⟩
          rw [hfit]
          rfl
        rw [hst]
        have hck : checkStateG fieldSampLib ic = checkState ic := rfl
        rw [hck]
        congr 1
        funext m
        rcases checkState ic m with _ | r
        · exact ih (t + dt) (by linarith)
        · rfl
      · rw [if_neg hle, if_neg hle]
  split
  · exact key 0 le_rfl
  · rfl

end

/-- A segment that is longer than `2 ^ 63` nanoseconds by a sampling interval makes the conversion of the time stamp undefined,
when no limit is violated before; here no limit is set. -/
theorem C130_long_ub (conv : List (List ℝ) → MavState ℝ) (dt : ℝ) (hdt : 0 < dt) (s : Segment ℝ) (h : s.WF)
    (hD : s.D = 3 ∨ s.D = 4) (hT : 2 ^ 63 / 10 ^ 9 + dt ≤ s.time) :
    ∃ n, ∀ fuel, n < fuel → s.checkSamplingG fieldSampLib conv ⟨[]⟩ dt fuel = .ub := by
  have hD3 : 3 ≤ s.D := by omega
  have key : ∀ (n : ℕ) (t : ℝ), 2 ^ 63 / 10 ^ 9 ≤ t + n * dt → t + n * dt ≤ s.time → ∀ fuel, n < fuel →
      samplingLoopG fieldSampLib conv ⟨[]⟩ dt s fuel t = .ub := by
    intro n
    induction n with
    | zero =>
      intro t h1 h2 fuel hf
      obtain ⟨f, rfl⟩ : ∃ f, fuel = f + 1 := ⟨fuel - 1, by omega⟩
      simp only [CharP.cast_eq_zero, zero_mul, add_zero] at h1 h2
      rw [samplingLoopG_succ, if_pos h2]
      have hst : sampledStateG fieldSampLib conv s t = .ub := by
        unfold sampledStateG
        rw [sampledValues_ok s h t, Res.ok_bind]
        have hfit : timeStampG fieldSampLib t = .ub := by
          refine if_neg ?_
          intro hh
          have h3 : t * 10 ^ 9 < 2 ^ 63 := (of_decide_eq_true hh).2
          rw [div_le_iff₀ (by norm_num)] at h1
          linarith
        rw [hfit]
        rfl
      rw [hst]
      rfl
    | succ n ih =>
      intro t h1 h2 fuel hf
      obtain ⟨f, rfl⟩ : ∃ f, fuel = f + 1 := ⟨fuel - 1, by omega⟩
      push_cast at h1 h2
      have hn : (0 : ℝ) ≤ n * dt := by positivity
      rw [samplingLoopG_succ, if_pos (by linarith)]
      unfold sampledStateG
      rw [sampledValues_ok s h t, Res.ok_bind]
      unfold timeStampG
      split
      · rw [Res.ok_bind]
        obtain ⟨x, hx⟩ := vecHead3_all (flatState s.polys t) (by
          intro l hl
          unfold flatState at hl
          rw [List.mem_map] at hl
          obtain ⟨k, -, rfl⟩ := hl
          unfold valuesAt
          rw [List.length_map]
          exact hD3)
        rw [hx]
        exact ih (t + dt) (by linarith) (by linarith) f (by omega)
      · rfl
  obtain ⟨n, hn1, hn2⟩ : ∃ n : ℕ, (2 : ℝ) ^ 63 / 10 ^ 9 ≤ n * dt ∧ n * dt ≤ 2 ^ 63 / 10 ^ 9 + dt := by
    refine ⟨⌈(2 : ℝ) ^ 63 / 10 ^ 9 / dt⌉₊, ?_, ?_⟩
    · rw [← div_le_iff₀ hdt]
      exact Nat.le_ceil _
    · have := (Nat.ceil_lt_add_one (a := (2 : ℝ) ^ 63 / 10 ^ 9 / dt) (by positivity)).le
      have h2 := mul_le_mul_of_nonneg_right this hdt.le
      rw [add_mul, div_mul_cancel₀ _ hdt.ne', one_mul] at h2
      exact h2
  refine ⟨n, fun fuel hf => ?_⟩
  unfold Segment.checkSamplingG
  rw [if_pos hD]
  exact key n 0 (by linarith) (by linarith) fuel hf

/-- 300 years. -/
example (conv : List (List ℝ) → MavState ℝ) : ∃ n, ∀ fuel, n < fuel →
    (⟨exLine.polys, 300 * 365 * 24 * 3600, 3⟩ : Segment ℝ).checkSamplingG fieldSampLib conv ⟨[]⟩ (1 / 100) fuel = .ub :=
  C130_long_ub conv _ (by norm_num) _ ⟨exLine_wf.polysN, exLine_wf.small⟩ (Or.inl rfl) (by norm_num)

section
variable {rnd : ℝ → ℝ} {u : ℝ}

/-- **C130 (floating point).** With rounding after every operation, the check samples at `0, dt, dt + dt, ...` as the sums come
out. "Feasible" means that all samples up to the duration meet the limits, any other verdict names a limit violated at the first
sample that does not meet all limits. -/
theorem C130_rounded_samples (h : Rounding rnd u) (conv : List (List (Fl rnd)) → MavState (Fl rnd))
    (ic : InputConstraints (Fl rnd)) (dt : Fl rnd) (s : Segment (Fl rnd)) (hs : s.WF) (hD : s.D = 3 ∨ s.D = 4) (fuel : ℕ)
    (r : Verdict) (hr : s.checkSamplingFl conv ic dt fuel = .ok r) :
    (r = .feasible ∧ ∃ m, s.time.val < (sampleTime dt m).val ∧ ∀ j < m, (sampleTime dt j).val ≤ s.time.val ∧
      ∃ ds, Evaluated s (sampleTime dt j) ds ∧ StateMeetsFl ic (conv ds)) ∨
    (r ≠ .feasible ∧ r ≠ .indeterminable ∧ ∃ m, (sampleTime dt m).val ≤ s.time.val ∧
      (∀ j < m, (sampleTime dt j).val ≤ s.time.val ∧ ∃ ds, Evaluated s (sampleTime dt j) ds ∧ StateMeetsFl ic (conv ds)) ∧
      ∃ ds, Evaluated s (sampleTime dt m) ds ∧ StateViolatesFl ic (conv ds) r) := by
  unfold Segment.checkSamplingFl Segment.checkSamplingG at hr
  rw [if_pos hD] at hr
  rcases samplingLoopFl_says h s hs (by omega) conv ic dt fuel 0 r hr with ⟨hf, m, -, h2, h3⟩ | ⟨h1, h2, m, -, h3, h4, h5⟩
  · exact Or.inl ⟨hf, m, h2, fun j hj => h3 j (Nat.zero_le j) hj⟩
  · exact Or.inr ⟨h1, h2, m, h3, fun j hj => h4 j (Nat.zero_le j) hj, h5⟩

/-- **C130 (floating point).** When the check finds a segment feasible, thrust and speed keep their limits at all times up to the
errors of the conversion, of the evaluation, and the change during one interval and the roundings of the time. -/
theorem C130_rounded (h : Rounding rnd u) (g : Fin 3 → Fl rnd) (C : ℕ → ℝ) (conv : List (List (Fl rnd)) → MavState (Fl rnd))
    (ic : InputConstraints (Fl rnd)) (dt : Fl rnd) (hdt : 0 ≤ dt.val) (s : Segment (Fl rnd)) (hs : s.WF)
    (hD : s.D = 3 ∨ s.D = 4) (E B : ℕ → ℝ) (F : ℝ) (he : FeasErrors u s g E B F)
    (hc : ∀ t : Fl rnd, t.val ∈ Icc 0 s.time.val → ReportsFl C g conv (Evaluated s t))
    (fuel : ℕ) (hr : s.checkSamplingFl conv ic dt fuel = .ok .feasible) (t : ℝ) (ht : t ∈ Icc 0 s.time.val) :
    ThrustSpeedUpTo (fun k => C k + Real.sqrt 3 * (E k + B (k + 1) * ((1 + u) * dt.val + u * s.time.val)))
      ((ic.getConstraint kFMin).map Fl.val) ((ic.getConstraint kFMax).map Fl.val) ((ic.getConstraint kVMax).map Fl.val)
      (fun i => (g i).val) (realPolys s) t := by
  have hD3 : 3 ≤ s.D := by omega
  have hT : 0 ≤ s.time.val := ht.1.trans ht.2
  rcases C130_rounded_samples h conv ic dt s hs hD fuel .feasible hr with ⟨-, m, hm, hall⟩ | ⟨h1, -⟩
  swap
  · exact absurd rfl h1
  obtain ⟨j, hj, hj1, hj2⟩ := sample_before h dt hdt m hm ht.1 ht.2
  obtain ⟨-, ds, hds, hst⟩ := hall j hj
  have hj0 := sampleTime_nonneg h dt hdt j
  obtain ⟨n1, n2⟩ := sample_near h s hs g E B F he hD3 hT C conv (sampleTime dt j) hj0 (hj1.trans ht.2) ds hds
    (hc _ ⟨hj0, hj1.trans ht.2⟩)
  obtain ⟨q1, q2⟩ := quantities_near h s hs g E B F he hD3 hT hj0 hj1 ht.2 hj2
  rw [abs_le] at n1 n2 q1 q2
  refine ⟨fun l hl => ?_, fun l hl => ?_, fun l hl => ?_⟩ <;> rw [Option.map_eq_some_iff] at hl <;> obtain ⟨l, hl, rfl⟩ := hl
  · have := hst.fMin l hl
    rw [mul_add]
    linarith
  · have := hst.fMax l hl
    rw [mul_add]
    linarith
  · have := hst.vMax l hl
    rw [mul_add]
    linarith

/-- **C130 (floating point).** A verdict that names thrust or speed is right, up to the errors, at one of the samples. -/
theorem C130_rounded_genuine (h : Rounding rnd u) (g : Fin 3 → Fl rnd) (C : ℕ → ℝ)
    (conv : List (List (Fl rnd)) → MavState (Fl rnd)) (ic : InputConstraints (Fl rnd)) (dt : Fl rnd) (hdt : 0 ≤ dt.val)
    (s : Segment (Fl rnd)) (hs : s.WF) (hD : s.D = 3 ∨ s.D = 4) (E B : ℕ → ℝ) (F : ℝ) (he : FeasErrors u s g E B F)
    (hc : ∀ t : Fl rnd, t.val ∈ Icc 0 s.time.val → ReportsFl C g conv (Evaluated s t))
    (fuel : ℕ) (r : Verdict) (hr : s.checkSamplingFl conv ic dt fuel = .ok r) (hf : r ≠ .feasible) :
    ∃ m, (sampleTime dt m).val ∈ Icc 0 s.time.val ∧ ThrustSpeedViolated (fun k => C k + Real.sqrt 3 * E k) ic
      (fun i => (g i).val) (realPolys s) (sampleTime dt m).val r := by
  rcases C130_rounded_samples h conv ic dt s hs hD fuel r hr with ⟨h1, -⟩ | ⟨-, -, m, hm, -, ds, hds, hv⟩
  · exact absurd h1 hf
  have h0 := sampleTime_nonneg h dt hdt m
  obtain ⟨n1, n2⟩ := sample_near h s hs g E B F he (by omega) (h0.trans hm) C conv (sampleTime dt m) h0 hm ds hds (hc _ ⟨h0, hm⟩)
  rw [abs_le] at n1 n2
  refine ⟨m, ⟨h0, hm⟩, ?_⟩
  cases r with
  | thrustHigh => obtain ⟨l, hl, hlt⟩ := hv; exact ⟨l, hl, by linarith⟩
  | thrustLow => obtain ⟨l, hl, hlt⟩ := hv; exact ⟨l, hl, by linarith⟩
  | velocity => obtain ⟨l, hl, hlt⟩ := hv; exact ⟨l, hl, by linarith⟩
  | rollPitchRates => trivial
  | yawRates => trivial
  | yawAcc => trivial
  | feasible => exact absurd rfl hf
  | indeterminable => exact hv.elim

/-- **C130 (floating point).** The check returns when the sampling interval is above the roundings of the time and the duration in
nanoseconds fits into 64 bits: `n + 1` passes of the loop are enough when the duration is less than `n` halves of the interval. -/
theorem C130_rounded_returns (h : Rounding rnd u) (hu : u ≤ 1 / 4) (conv : List (List (Fl rnd)) → MavState (Fl rnd))
    (ic : InputConstraints (Fl rnd)) (dt : Fl rnd) (hdt : 0 < dt.val) (s : Segment (Fl rnd)) (hs : s.WF)
    (hD : s.D = 3 ∨ s.D = 4) (hT : 4 * u * s.time.val ≤ dt.val) (hfit : (1 + u) * s.time.val * 10 ^ 9 < 2 ^ 63)
    (n : ℕ) (hn : s.time.val < n * (dt.val / 2)) :
    ∃ r, ∀ fuel, n < fuel → s.checkSamplingFl conv ic dt fuel = .ok r := by
  unfold Segment.checkSamplingFl Segment.checkSamplingG
  simp only [if_pos hD]
  exact samplingLoopFl_returns h s hs (by omega) hu conv ic dt hdt hT hfit n 0 le_rfl (by
    change s.time.val - 0 < _
    linarith)

/-- **C130 (floating point).** What keeps the limits of thrust and speed with the errors as a margin is accepted, when no other
limit is set. -/
theorem C130_rounded_accepts (h : Rounding rnd u) (hu : u ≤ 1 / 4) (g : Fin 3 → Fl rnd) (C : ℕ → ℝ)
    (conv : List (List (Fl rnd)) → MavState (Fl rnd)) (ic : InputConstraints (Fl rnd)) (dt : Fl rnd) (hdt : 0 < dt.val)
    (s : Segment (Fl rnd)) (hs : s.WF) (hD : s.D = 3 ∨ s.D = 4) (E B : ℕ → ℝ) (F : ℝ) (he : FeasErrors u s g E B F)
    (hc : ∀ t : Fl rnd, t.val ∈ Icc 0 s.time.val → ReportsFl C g conv (Evaluated s t))
    (hT : 4 * u * s.time.val ≤ dt.val) (hfit : (1 + u) * s.time.val * 10 ^ 9 < 2 ^ 63)
    (hno : ic.getConstraint kOmegaXYMax = none ∧ ic.getConstraint kOmegaZMax = none ∧ ic.getConstraint kOmegaZDotMax = none)
    (hlim : ∀ t ∈ Icc 0 s.time.val, ThrustSpeedUpTo (fun k => -(C k + Real.sqrt 3 * E k))
      ((ic.getConstraint kFMin).map Fl.val) ((ic.getConstraint kFMax).map Fl.val) ((ic.getConstraint kVMax).map Fl.val)
      (fun i => (g i).val) (realPolys s) t)
    (n : ℕ) (hn : s.time.val < n * (dt.val / 2)) (fuel : ℕ) (hf : n < fuel) :
    s.checkSamplingFl conv ic dt fuel = .ok .feasible := by
  obtain ⟨r, hr⟩ := C130_rounded_returns h hu conv ic dt hdt s hs hD hT hfit n hn
  have hr := hr fuel hf
  rw [hr]
  by_contra hne
  have hne : r ≠ .feasible := fun e => hne (by rw [e])
  rcases C130_rounded_samples h conv ic dt s hs hD fuel r hr with ⟨h1, -⟩ | ⟨-, hi, m, -, -, ds, -, hv⟩
  · exact hne h1
  obtain ⟨k, hk, hvi⟩ := C130_rounded_genuine h g C conv ic dt hdt.le s hs hD E B F he hc fuel r hr hne
  have hL := hlim _ hk
  cases r with
  | thrustHigh =>
    obtain ⟨l, hl, hlt⟩ := hvi
    have := hL.fMax l.val (by rw [hl]; rfl)
    linarith
  | thrustLow =>
    obtain ⟨l, hl, hlt⟩ := hvi
    have := hL.fMin l.val (by rw [hl]; rfl)
    linarith
  | velocity =>
    obtain ⟨l, hl, hlt⟩ := hvi
    have := hL.vMax l.val (by rw [hl]; rfl)
    linarith
  | rollPitchRates => obtain ⟨l, hl, -⟩ := hv; rw [hno.1] at hl; cases hl
  | yawRates => obtain ⟨l, hl, -⟩ := hv; rw [hno.2.1] at hl; cases hl
  | yawAcc => obtain ⟨l, hl, -⟩ := hv; rw [hno.2.2] at hl; cases hl
  | feasible => exact hne rfl
  | indeterminable => exact hi rfl

/-- A sampling interval below the roundings of the time makes the loop endless: when a time `τ` up to the duration absorbs the
interval and no limit is set, the check never returns, as long as the time stamps fit. -/
theorem C130_rounded_hangs (h : Rounding rnd u) (hu : u ≤ 1) (conv : List (List (Fl rnd)) → MavState (Fl rnd)) (dt : Fl rnd)
    (hdt : 0 ≤ dt.val) (s : Segment (Fl rnd)) (hs : s.WF) (hD : s.D = 3 ∨ s.D = 4) (τ : ℝ) (hτ : τ ≤ s.time.val) (hτ0 : 0 ≤ τ)
    (habs : rnd (τ + dt.val) ≤ τ) (hfit : (1 + u) * τ * 10 ^ 9 < 2 ^ 63) (fuel : ℕ) :
    s.checkSamplingFl conv ⟨[]⟩ dt fuel = .hang := by
  have hu0 := rounding_nonneg h
  unfold Segment.checkSamplingFl Segment.checkSamplingG
  rw [if_pos hD]
  have key : ∀ (fuel : ℕ) (t : Fl rnd), 0 ≤ t.val → t.val ≤ τ →
      samplingLoopG (flSampLib rnd) conv ⟨[]⟩ dt s fuel t = .hang := by
    intro fuel
    induction fuel with
    | zero => intro t _ _; rfl
    | succ fuel ih =>
      intro t h0 h1
      have hle : t ≤ s.time := h1.trans hτ
      rw [samplingLoopG_succ, if_pos hle]
      obtain ⟨ds, hds, ⟨e, -⟩ | ⟨e, hne⟩⟩ := sampledStateFl_ok h s hs (by omega) conv t
      · rw [e, Res.ok_bind]
        refine ih (t + dt) ?_ ?_
        · change 0 ≤ rnd (t.val + dt.val)
          rw [← rnd_zero h]
          exact h.mono (by linarith)
        · exact (h.mono (by linarith : t.val + dt.val ≤ τ + dt.val)).trans habs
      · exfalso
        apply hne
        have h1' := abs_le.mp (h.rel (t.val * 10 ^ 9))
        rw [abs_of_nonneg (by positivity)] at h1'
        have h2 : (1 + u) * (t.val * 10 ^ 9) ≤ (1 + u) * (τ * 10 ^ 9) :=
          mul_le_mul_of_nonneg_left (by linarith) (by linarith)
        have h3 : 0 ≤ (1 - u) * (t.val * 10 ^ 9) := mul_nonneg (by linarith) (by positivity)
        constructor
        · have : (0 : ℝ) ≤ 2 ^ 63 := by positivity
          linarith [h1'.1]
        · linarith [h1'.2]
  exact key fuel 0 le_rfl hτ0

end

/-- A conversion of doubles that reports thrust and speed, and no rotation. -/
noncomputable def plainStateFl (ds : List (List (Fl round53))) : MavState (Fl round53) :=
  ⟨⟨Real.sqrt (∑ i : Fin 3, (((ds.getD 2 []).getD i 0).val + (exRampGravity i).val) ^ 2)⟩,
    ⟨Real.sqrt (∑ i : Fin 3, ((ds.getD 1 []).getD i 0).val ^ 2)⟩, 0, 0, 0⟩

theorem plainStateFl_reports (A : List (List (Fl round53)) → Prop) : ReportsFl (fun _ => 0) exRampGravity plainStateFl A :=
  ⟨fun _ _ _ _ _ _ => by rw [abs_nonpos_iff, sub_eq_zero]; rfl, fun _ _ _ _ _ _ => by rw [abs_nonpos_iff, sub_eq_zero]; rfl⟩

/-- Limits of the thrust from 5 to 20 and of the speed `v`. -/
def exPlainLimits (v : ℝ) : InputConstraints (Fl round53) := ⟨[(kFMin, ⟨5⟩), (kFMax, ⟨20⟩), (kVMax, ⟨v⟩)]⟩

theorem exRampFl_returns (v : ℝ) :
    ∃ r, ∀ fuel, 257 < fuel → exRampFl.checkSamplingFl plainStateFl (exPlainLimits v) ⟨1 / 128⟩ fuel = .ok r := by
  have ht : exRampFl.time.val = 1 := rfl
  exact C130_rounded_returns round53_rounding (by norm_num) plainStateFl (exPlainLimits v) ⟨1 / 128⟩ (by norm_num) exRampFl
    (exRampFl_input v).wf (Or.inr rfl) (by rw [ht]; norm_num) (by rw [ht]; norm_num) 257 (by rw [ht]; norm_num)

/-- With the speed limit 3, which the flight keeps, the check finds it feasible. -/
theorem exRampFl_sampled (fuel : ℕ) (hf : 257 < fuel) :
    exRampFl.checkSamplingFl plainStateFl (exPlainLimits 3) ⟨1 / 128⟩ fuel = .ok .feasible := by
  have ht : exRampFl.time.val = 1 := rfl
  have h3 : Real.sqrt 3 ≤ 2 := by rw [Real.sqrt_le_left (by norm_num)]; norm_num
  refine C130_rounded_accepts round53_rounding (by norm_num) exRampGravity (fun _ => 0) plainStateFl (exPlainLimits 3) ⟨1 / 128⟩
    (by norm_num) exRampFl (exRampFl_input 3).wf (Or.inr rfl) _ _ _ (exRampFl_input 3).errors
    (fun t _ => plainStateFl_reports _) (by rw [ht]; norm_num) (by rw [ht]; norm_num) ⟨rfl, rfl, rfl⟩ ?_ 257
    (by rw [ht]; norm_num) fuel hf
  intro t hm
  have h1 : t ≤ 1 := hm.2
  have ht2 : t ^ 2 ≤ 1 := pow_le_one₀ hm.1 h1
  refine ⟨fun l hl => ?_, fun l hl => ?_, fun l hl => ?_⟩
  · obtain rfl : (5 : ℝ) = l := Option.some.inj hl
    rw [exRampFl_thrust]
    linarith
  · obtain rfl : (20 : ℝ) = l := Option.some.inj hl
    rw [exRampFl_thrust]
    linarith
  · obtain rfl : (3 : ℝ) = l := Option.some.inj hl
    rw [exRampFl_speed]
    have : Real.sqrt (1 + 4 * t ^ 2) ≤ 5 / 2 := by
      rw [Real.sqrt_le_left (by norm_num)]
      linarith
    linarith

/-- From the verdict "feasible" the speed at all times follows up to the change in one interval. -/
theorem exRampFl_sampled_speed (v : ℝ) (fuel : ℕ)
    (hr : exRampFl.checkSamplingFl plainStateFl (exPlainLimits v) ⟨1 / 128⟩ fuel = .ok .feasible)
    (t : ℝ) (ht : t ∈ Icc 0 exRampFl.time.val) : speed (realPolys exRampFl) t ≤ v + 1 / 8 := by
  have h1 : exRampFl.time.val = 1 := rfl
  have h3 : Real.sqrt 3 ≤ 2 := by rw [Real.sqrt_le_left (by norm_num)]; norm_num
  have := (C130_rounded round53_rounding exRampGravity (fun _ => 0) plainStateFl (exPlainLimits v) ⟨1 / 128⟩ (by norm_num) exRampFl
    (exRampFl_input 3).wf (Or.inr rfl) _ _ _ (exRampFl_input 3).errors (fun t _ => plainStateFl_reports _) fuel hr t ht).vMax v rfl
  rw [h1] at this
  norm_num at this
  have h0 := Real.sqrt_nonneg 3
  linarith

example (t : ℝ) (ht : t ∈ Icc 0 exRampFl.time.val) : speed (realPolys exRampFl) t ≤ 3 + 1 / 8 :=
  exRampFl_sampled_speed 3 258 (exRampFl_sampled 258 (by norm_num)) t ht

/-- With the limit 2 the check complains about the speed, and the speed is above the limit at the sample, up to the error. -/
example : exRampFl.checkSamplingFl plainStateFl (exPlainLimits 2) ⟨1 / 128⟩ 258 = .ok .velocity ∧
    ∃ m, 2 < speed (realPolys exRampFl) (sampleTime (⟨1 / 128⟩ : Fl round53) m).val + 1 / 10 ^ 13 := by
  have h3 : Real.sqrt 3 ≤ 2 := by rw [Real.sqrt_le_left (by norm_num)]; norm_num
  obtain ⟨r, hr⟩ := exRampFl_returns 2
  have hr := hr 258 (by norm_num)
  have hf : r ≠ .feasible := by
    rintro rfl
    have := exRampFl_sampled_speed 2 258 hr 1 ⟨zero_le_one, le_rfl⟩
    rw [exRampFl_speed, Real.sqrt_le_left (by norm_num)] at this
    norm_num at this
  obtain ⟨m, -, hv⟩ := C130_rounded_genuine round53_rounding exRampGravity (fun _ => 0) plainStateFl (exPlainLimits 2) ⟨1 / 128⟩
    (by norm_num) exRampFl (exRampFl_input 2).wf (Or.inr rfl) _ _ _ (exRampFl_input 2).errors
    (fun t _ => plainStateFl_reports _) 258 r hr hf
  rcases C130_rounded_samples round53_rounding plainStateFl (exPlainLimits 2) ⟨1 / 128⟩ exRampFl (exRampFl_input 2).wf
    (Or.inr rfl) 258 r hr with ⟨h1, -⟩ | ⟨-, hi, -, -, -, ds, -, hw⟩
  · exact absurd h1 hf
  rw [hr]
  cases r with
  | thrustHigh =>
    obtain ⟨l, hl, hlt⟩ := hv
    obtain rfl : (⟨20⟩ : Fl round53) = l := Option.some.inj hl
    rw [exRampFl_thrust] at hlt
    norm_num at hlt
    linarith
  | thrustLow =>
    obtain ⟨l, hl, hlt⟩ := hv
    obtain rfl : (⟨5⟩ : Fl round53) = l := Option.some.inj hl
    rw [exRampFl_thrust] at hlt
    norm_num at hlt
    linarith
  | velocity =>
    obtain ⟨l, hl, hlt⟩ := hv
    obtain rfl : (⟨2⟩ : Fl round53) = l := Option.some.inj hl
    exact ⟨rfl, m, lt_of_lt_of_le hlt (by linarith)⟩
  | rollPitchRates => obtain ⟨l, hl, -⟩ := hw; cases hl
  | yawRates => obtain ⟨l, hl, -⟩ := hw; cases hl
  | yawAcc => obtain ⟨l, hl, -⟩ := hw; cases hl
  | feasible => exact absurd rfl hf
  | indeterminable => exact absurd rfl hi

/-- A flight of `2 ^ 23` seconds (97 days) sampled at intervals of `2 ^ -31` seconds is never finished. -/
example (conv : List (List (Fl round53)) → MavState (Fl round53)) (fuel : ℕ) :
    (⟨exRampFl.polys, ⟨2 ^ 23⟩, 4⟩ : Segment (Fl round53)).checkSamplingFl conv ⟨[]⟩ ⟨1 / 2 ^ 31⟩ fuel = .hang :=
  C130_rounded_hangs round53_rounding (by norm_num) conv ⟨1 / 2 ^ 31⟩ (by norm_num) ⟨exRampFl.polys, ⟨2 ^ 23⟩, 4⟩
    ⟨(exRampFl_input 3).wf.polysN, (exRampFl_input 3).wf.small⟩ (Or.inr rfl) (2 ^ 23) le_rfl (by norm_num)
    (by rw [round53_eq 23 (2 ^ 52) (by norm_num) (by norm_num) (by norm_num) (by norm_num)]; norm_num) (by norm_num) fuel

end Verif
