import Verif.Proofs.FeasibilityAnalytic
import Verif.Props.FeasibilityRecursive

/-
Property C42: the analytic feasibility check.

The English claim (no false positives for thrust, speed and roll/pitch rates) is false of the code for the
roll/pitch rates, for two independent reasons (`C42_rate_false`, `C42_section_false`). Proved: no false
positives for thrust, speed and yaw, no false negatives, termination, and what the rate check establishes
when it does not subdivide.
-/
namespace Verif

open Polynomial Spec Set

/-- **C42, partial.** If the analytic check returns "feasible", thrust, speed and yaw limits hold at every
time of the segment. Missing: the roll and pitch rate limit, see the refutations below. -/
theorem C42_limits_partial (rf : RootFinder ℝ) (hrf : Complete rf) (ic : InputConstraints ℝ)
    (g : Fin 3 → ℝ) (minSection : ℝ) (s : Segment ℝ) (h : s.WF) (hD : s.D = 3 ∨ s.D = 4) (hN : 4 ≤ s.N)
    (hT : 0 ≤ s.time) (hfin : Bounded s.polys s.time) (fuel : ℕ)
    (hres : s.checkAnalytic rf Real.sqrt ic g minSection fuel = .ok .feasible) (t : ℝ)
    (ht : t ∈ Icc 0 s.time) :
    (∀ l, ic.getConstraint kFMin = some l → l ≤ thrust g s.polys t) ∧
    (∀ l, ic.getConstraint kFMax = some l → thrust g s.polys t ≤ l) ∧
    (∀ l, ic.getConstraint kVMax = some l → speed s.polys t ≤ l) ∧
    (s.D = 4 → YawLimitsHold ic s.polys t) := by
  rcases checkAnalytic_cases rf hrf ic g minSection s h hD hN hT hfin with ⟨v, h1, h2, _⟩ | ⟨h1, _⟩
  · rw [h1] at hres
    obtain rfl : v = .feasible := by simpa using hres
    simp at h2
  · exact ⟨fun l hl => h1.fMin l hl t ht, fun l hl => h1.fMax l hl t ht, fun l hl => h1.vMax l hl t ht,
      fun h4 => h1.yaw h4 t ht⟩

/-- **C42.** A segment that is neither three- nor four-dimensional is never called feasible. -/
theorem C42_dimension (rf : RootFinder ℝ) (ic : InputConstraints ℝ) (g : Fin 3 → ℝ) (minSection : ℝ)
    (s : Segment ℝ) (hD : ¬ (s.D = 3 ∨ s.D = 4)) (fuel : ℕ) :
    s.checkAnalytic rf Real.sqrt ic g minSection fuel = .ok .indeterminable := by
  unfold Segment.checkAnalytic
  rw [if_neg hD]

/-- **C42.** If the analytic check returns "infeasible" for some reason, there is a time of the segment at
which the named limit is violated (and the reason is never the roll and pitch rates). -/
theorem C42_genuine (rf : RootFinder ℝ) (hrf : Complete rf) (ic : InputConstraints ℝ)
    (g : Fin 3 → ℝ) (minSection : ℝ) (s : Segment ℝ) (h : s.WF) (hD : s.D = 3 ∨ s.D = 4) (hN : 4 ≤ s.N)
    (hT : 0 ≤ s.time) (hfin : Bounded s.polys s.time) (fuel : ℕ) (r : Verdict)
    (hres : s.checkAnalytic rf Real.sqrt ic g minSection fuel = .ok r)
    (hr1 : r ≠ .feasible) (hr2 : r ≠ .indeterminable) :
    r ≠ .rollPitchRates ∧ ∃ t ∈ Icc 0 s.time, Violated ic g s.polys t r := by
  rcases checkAnalytic_cases rf hrf ic g minSection s h hD hN hT hfin with
    ⟨v, h1, h2, h3⟩ | ⟨_, ⟨_, h1⟩ | ⟨l, times, jt, _, _, _, h1⟩⟩
  · rw [h1] at hres
    obtain rfl : v = r := by simpa using hres
    exact ⟨by rintro rfl; simp at h2, h3⟩
  · rw [h1] at hres
    exact absurd (by simpa using hres.symm) hr1
  · rw [h1] at hres
    rcases recursiveRollPitch_range Real.sqrt ic minSection _ _ fuel 0 s.time with e | e | e <;>
      rw [e] at hres
    · simp at hres
    · exact absurd (by simpa using hres.symm) hr1
    · exact absurd (by simpa using hres.symm) hr2

/-- **C42.** With a positive minimum section time the check terminates: `n` nested halvings are enough when
`duration < minSection * 2^n`. -/
theorem C42_terminates (rf : RootFinder ℝ) (hrf : Complete rf) (ic : InputConstraints ℝ)
    (g : Fin 3 → ℝ) (minSection : ℝ) (s : Segment ℝ) (h : s.WF) (hD : s.D = 3 ∨ s.D = 4) (hN : 4 ≤ s.N)
    (hT : 0 ≤ s.time) (hfin : Bounded s.polys s.time) (n : ℕ) (hn : s.time < minSection * 2 ^ n) :
    ∃ r, ∀ fuel, n < fuel → s.checkAnalytic rf Real.sqrt ic g minSection fuel = .ok r := by
  rcases checkAnalytic_cases rf hrf ic g minSection s h hD hN hT hfin with
    ⟨v, h1, _, _⟩ | ⟨_, ⟨_, h1⟩ | ⟨l, times, jt, _, _, _, h1⟩⟩
  · exact ⟨v, fun fuel _ => h1 fuel⟩
  · exact ⟨_, fun fuel _ => h1 fuel⟩
  · obtain ⟨r, hr⟩ := recursiveRollPitch_terminates Real.sqrt ic minSection
      (times.map fun t => ⟨t, thrust g s.polys t, 0⟩) (jt.map fun t => ⟨t, jerk s.polys t, 0⟩) n 0 s.time
      (by linarith)
    exact ⟨r, fun fuel hf => by rw [h1 fuel, hr fuel hf]⟩

/-- **C42, partial.** When the segment is too short to be halved (duration below twice the minimum section
time), "feasible" with a roll and pitch rate limit `l` means jerk / thrust ≤ `l²` (not `l`) throughout. -/
theorem C42_rate_partial (rf : RootFinder ℝ) (hrf : Complete rf) (ic : InputConstraints ℝ)
    (g : Fin 3 → ℝ) (minSection : ℝ) (hm : 0 ≤ minSection) (s : Segment ℝ) (h : s.WF)
    (hD : s.D = 3 ∨ s.D = 4) (hN : 4 ≤ s.N) (hT : 0 ≤ s.time) (hfin : Bounded s.polys s.time)
    (hfin' : ∀ t ∈ Icc 0 s.time, thrust g s.polys t < dblMax ∧ jerk s.polys t < dblMax)
    (hshort : s.time < 2 * minSection) (fuel : ℕ) (l : ℝ) (hl : ic.getConstraint kOmegaXYMax = some l)
    (hlim : l < dblMax)
    (hres : s.checkAnalytic rf Real.sqrt ic g minSection fuel = .ok .feasible) (t : ℝ)
    (ht : t ∈ Icc 0 s.time) :
    0 < thrust g s.polys t ∧ jerk s.polys t / thrust g s.polys t ≤ l ^ 2 := by
  rcases checkAnalytic_cases rf hrf ic g minSection s h hD hN hT hfin with
    ⟨v, h1, h2, _⟩ | ⟨_, ⟨h1, _⟩ | ⟨l', times, jt, hl', htc, hjc, h1⟩⟩
  · rw [h1] at hres
    obtain rfl : v = .feasible := by simpa using hres
    simp at h2
  · rw [hl] at h1; simp at h1
  obtain rfl : l = l' := by rw [hl] at hl'; simpa using hl'
  rw [h1] at hres
  have hmax : (0 : ℝ) < dblMax := lt_trans (by norm_num) dblMax_gt
  have n0 : ∀ t, 0 ≤ thrust g s.polys t := fun t => Real.sqrt_nonneg _
  have n1 : ∀ t, 0 ≤ jerk s.polys t := fun t => Real.sqrt_nonneg _
  have z : (0 : ℝ) ∈ Icc 0 s.time := ⟨le_rfl, hT⟩
  obtain ⟨jr, hjr⟩ := hjc.first
  obtain ⟨tm, htm, _, _, htm', _, ef, hf⟩ := select_ok (fun t => thrust g s.polys t) hT times 0 htc.zero z
    ⟨by have := n0 0; linarith, (hfin' 0 z).1⟩ Extremum.zero Extremum.zero
  obtain ⟨_, _, tM, htM, _, htM', ej, hj⟩ := select_ok (fun t => jerk s.polys t) hT jt 0
    (by rw [hjr]; simp) z ⟨by have := n1 0; linarith, (hfin' 0 z).2⟩
    Extremum.zero Extremum.zero
  match fuel with
  | 0 => simp [recursiveRollPitch] at hres
  | fuel + 1 =>
    by_cases hlen : s.time - 0 < minSection
    · rw [recursiveRollPitch_succ, if_pos hlen] at hres; simp at hres
    rw [recursiveRollPitch_step Real.sqrt ic minSection hm _ _ l hl fuel 0 s.time hlen, ef, ej] at hres
    simp only at hres
    generalize hu : (if thrust g s.polys tm > 1 / 10 ^ 6 then
      Real.sqrt (jerk s.polys tM / thrust g s.polys tm) else dblMax) = u at hres
    by_cases hup : u > l
    · exfalso
      rw [if_pos hup] at hres
      match fuel, hres with
      | 0, hres =>
        change Res.hang = _ at hres
        simp at hres
      | fuel + 1, hres =>
        rw [recursiveRollPitch_succ, if_pos (by linarith), Res.ok_bind, if_neg (by simp)] at hres
        simp [Res.pure_eq] at hres
    · push Not at hup
      rw [← hu] at hup
      split at hup
      · next hpos =>
        have hpos' : 0 < thrust g s.polys tm := lt_trans (by positivity) hpos
        obtain ⟨x, hx, hxle⟩ := htc.lower t ht
        have e1 : thrust g s.polys tm ≤ thrust g s.polys t :=
          le_trans (hf x hx (htc.inside x hx)).1 hxle
        obtain ⟨y, hy, hyle⟩ := hjc.upper t ht
        have hds : ∀ d ∈ ([0, 1, 2] : List ℕ), d < s.D := by
          intro d hd
          simp only [List.mem_cons, List.not_mem_nil, or_false] at hd
          omega
        have e2 : jerk s.polys t ≤ jerk s.polys tM := by
          refine le_trans ?_ (hj y hy (hjc.inside y hy)).2
          rw [← magnitude_jerk, ← magnitude_jerk, magnitude_eq s _ hds, magnitude_eq s _ hds]
          exact Real.sqrt_le_sqrt hyle
        refine ⟨lt_of_lt_of_le hpos' e1, ?_⟩
        have e3 : jerk s.polys tM / thrust g s.polys tm ≤ l ^ 2 := by
          have := Real.sqrt_nonneg (jerk s.polys tM / thrust g s.polys tm)
          rw [← Real.sq_sqrt (div_nonneg (n1 tM) (n0 tm))]
          exact pow_le_pow_left₀ this hup 2
        refine le_trans ?_ e3
        exact div_le_div₀ (n1 tM) e2 hpos' e1
      · exact absurd hup (not_le.mpr hlim)

/-! ### refutation: the square root -/

/-- One second along x with constant jerk 40 m/s³, starting at rest; gravity 10. -/
noncomputable def exJerk : Segment ℝ := ⟨[⟨[0, 0, 0, 20 / 3]⟩, ⟨[0, 0, 0, 0]⟩, ⟨[0, 0, 0, 0]⟩], 1, 4⟩

/-- Gravity 10 along z. -/
def exGravity : Fin 3 → ℝ := ![0, 0, 10]

theorem exJerk_axis (k i : ℕ) (hk : k ≤ 3) (hi : i < 3) (t : ℝ) : axisVal exJerk k i t =
    if i = 0 then (if k = 0 then 20 / 3 * t ^ 3 else if k = 1 then 20 * t ^ 2 else if k = 2 then 40 * t
      else 40) else 0 := by
  have e : axisVal exJerk k i t = derivAt (exJerk.polys[i]'hi).coeffs k t := axisVal_eq exJerk k i t hi
  rw [e, derivAt_eq_sum]
  interval_cases k <;> interval_cases i <;>
    norm_num [exJerk, Finset.sum_range_succ, Nat.descFactorial]

theorem exJerk_thrust (t : ℝ) : thrust exGravity exJerk.polys t = Real.sqrt ((40 * t) ^ 2 + 10 ^ 2) := by
  rw [thrust_eq3]
  congr 1
  rw [exJerk_axis 2 0 (by omega) (by omega), exJerk_axis 2 1 (by omega) (by omega),
    exJerk_axis 2 2 (by omega) (by omega)]
  have g2 : exGravity 2 = 10 := rfl
  have g1 : exGravity 1 = 0 := rfl
  have g0 : exGravity 0 = 0 := rfl
  rw [g0, g1, g2]
  norm_num

theorem exJerk_jerk (t : ℝ) : jerk exJerk.polys t = 40 := by
  rw [jerk_eq3, exJerk_axis 3 0 (by omega) (by omega), exJerk_axis 3 1 (by omega) (by omega),
    exJerk_axis 3 2 (by omega) (by omega)]
  norm_num
  rw [show (1600 : ℝ) = 40 ^ 2 by norm_num, Real.sqrt_sq (by norm_num)]

theorem exJerk_bounded : Bounded exJerk.polys exJerk.time := by
  refine ⟨?_, ?_⟩
  · intro k hk i t ht
    have h1 : 0 ≤ t := ht.1
    have h2 : t ≤ 1 := ht.2
    have e : vec3 exJerk.polys k t i = axisVal exJerk k i t := vec3_eq_axisVal exJerk k t i
    rw [e, exJerk_axis k i hk (by omega)]
    refine lt_of_le_of_lt ?_ dblMax_gt
    have q2 : t ^ 2 ≤ 1 := pow_le_one₀ h1 h2
    have q3 : t ^ 3 ≤ 1 := pow_le_one₀ h1 h2
    rw [abs_of_nonneg (by split_ifs <;> positivity)]
    split_ifs <;> linarith
  · intro k hk t ht
    have : yaw exJerk.polys k t = 0 := by
      simp [Spec.yaw, exJerk, valuesAt]
    rw [this, abs_zero]
    exact lt_trans (by norm_num) dblMax_gt

/-- **C42 is false: the square root.** The check compares the square root of jerk / thrust with the limit. A
segment with constant jerk 40 m/s³ is accepted with a roll and pitch rate limit of 3 rad/s, although its rate
at the start is 40/10 = 4 rad/s; for every complete root finder. -/
theorem C42_rate_false (rf : RootFinder ℝ) (hrf : Complete rf) (minSection : ℝ) (h0 : 0 ≤ minSection)
    (h1 : minSection ≤ 1) (fuel : ℕ) (hfuel : 0 < fuel) :
    exJerk.checkAnalytic rf Real.sqrt ⟨[(kOmegaXYMax, 3)]⟩ exGravity minSection fuel = .ok .feasible ∧
    jerk exJerk.polys 0 / thrust exGravity exJerk.polys 0 = 4 := by
  have t0 : thrust exGravity exJerk.polys 0 = 10 := by
    rw [exJerk_thrust]
    norm_num
    rw [show (100 : ℝ) = 10 ^ 2 by norm_num, Real.sqrt_sq (by norm_num)]
  refine ⟨?_, by rw [t0, exJerk_jerk]; norm_num⟩
  have hwf : exJerk.WF := ⟨by simp [exJerk, Poly.N], by simp [exJerk]⟩
  have hT : (0 : ℝ) ≤ exJerk.time := by simp [exJerk]
  have hl : (⟨[(kOmegaXYMax, 3)]⟩ : InputConstraints ℝ).getConstraint kOmegaXYMax = some 3 := by
    simp [InputConstraints.getConstraint, mapFind]
  rcases checkAnalytic_cases rf hrf ⟨[(kOmegaXYMax, 3)]⟩ exGravity minSection exJerk hwf
    (Or.inl rfl) (by simp [exJerk]) hT exJerk_bounded with
    ⟨v, _, h2, t, _, hv⟩ | ⟨_, ⟨hn, _⟩ | ⟨l', times, jt, hl', htc, hjc, hc⟩⟩
  · exfalso
    rcases h2 with rfl | rfl | rfl | rfl | rfl <;>
      simp [Violated, InputConstraints.getConstraint, mapFind, kFMax, kFMin, kVMax, kOmegaXYMax,
        kOmegaZMax, kOmegaZDotMax] at hv
  · rw [hl] at hn; simp at hn
  obtain ⟨fuel, rfl⟩ : ∃ f, fuel = f + 1 := ⟨fuel - 1, by omega⟩
  have hmax : (1000 : ℝ) < dblMax := lt_trans (by norm_num) dblMax_gt
  have z : (0 : ℝ) ∈ Icc 0 exJerk.time := ⟨le_rfl, hT⟩
  obtain ⟨jr, hjr⟩ := hjc.first
  obtain ⟨tm, htm, _, _, htm', _, ef, hf⟩ := select_ok (fun t => thrust exGravity exJerk.polys t) hT times 0
    htc.zero z ⟨by simp only [t0]; linarith, by simp only [t0]; linarith⟩ Extremum.zero Extremum.zero
  obtain ⟨_, _, tM, htM, _, htM', ej, hj⟩ := select_ok (fun t => jerk exJerk.polys t) hT jt 0
    (by rw [hjr]; simp) z ⟨by simp only [exJerk_jerk]; linarith, by simp only [exJerk_jerk]; linarith⟩
    Extremum.zero Extremum.zero
  have hge : 10 ≤ thrust exGravity exJerk.polys tm := by
    rw [exJerk_thrust]
    apply Real.le_sqrt_of_sq_le
    nlinarith [sq_nonneg (40 * tm)]
  rw [hc, recursiveRollPitch_step Real.sqrt _ minSection h0 _ _ 3 hl fuel 0 exJerk.time
    (by simp [exJerk]; linarith), ef, ej]
  simp only
  rw [if_neg]
  rw [if_pos (by linarith), not_lt, exJerk_jerk]
  rw [Real.sqrt_le_left (by norm_num), div_le_iff₀ (by linarith)]
  linarith

/-! ### refutation: the section boundaries -/

/-- One second along x with x = 10/3 t⁴, jerk 80 t. -/
noncomputable def exRamp : Segment ℝ :=
  ⟨[⟨[0, 0, 0, 0, 10 / 3]⟩, ⟨[0, 0, 0, 0, 0]⟩, ⟨[0, 0, 0, 0, 0]⟩], 1, 5⟩

theorem exRamp_axis (k i : ℕ) (hk : k ≤ 3) (hi : i < 3) (t : ℝ) : axisVal exRamp k i t =
    if i = 0 then (if k = 0 then 10 / 3 * t ^ 4 else if k = 1 then 40 / 3 * t ^ 3 else if k = 2 then
      40 * t ^ 2 else 80 * t) else 0 := by
  have e : axisVal exRamp k i t = derivAt (exRamp.polys[i]'hi).coeffs k t := axisVal_eq exRamp k i t hi
  rw [e, derivAt_eq_sum]
  interval_cases k <;> interval_cases i <;>
    norm_num [exRamp, Finset.sum_range_succ, Nat.descFactorial]

theorem exRamp_thrust (t : ℝ) :
    thrust exGravity exRamp.polys t = Real.sqrt ((40 * t ^ 2) ^ 2 + 10 ^ 2) := by
  rw [thrust_eq3]
  congr 1
  rw [exRamp_axis 2 0 (by omega) (by omega), exRamp_axis 2 1 (by omega) (by omega),
    exRamp_axis 2 2 (by omega) (by omega)]
  have g2 : exGravity 2 = 10 := rfl
  have g1 : exGravity 1 = 0 := rfl
  have g0 : exGravity 0 = 0 := rfl
  rw [g0, g1, g2]
  norm_num

theorem exRamp_jerk (t : ℝ) (ht : 0 ≤ t) : jerk exRamp.polys t = 80 * t := by
  rw [jerk_eq3, exRamp_axis 3 0 (by omega) (by omega), exRamp_axis 3 1 (by omega) (by omega),
    exRamp_axis 3 2 (by omega) (by omega)]
  simp only [if_true, if_false, OfNat.ofNat_ne_zero, OfNat.ofNat_ne_one, one_ne_zero]
  norm_num
  rw [Real.sqrt_sq (by positivity)]

theorem exRamp_bounded : Bounded exRamp.polys exRamp.time := by
  refine ⟨?_, ?_⟩
  · intro k hk i t ht
    have h1 : 0 ≤ t := ht.1
    have h2 : t ≤ 1 := ht.2
    have e : vec3 exRamp.polys k t i = axisVal exRamp k i t := vec3_eq_axisVal exRamp k t i
    rw [e, exRamp_axis k i hk (by omega)]
    refine lt_of_le_of_lt ?_ dblMax_gt
    have q2 : t ^ 2 ≤ 1 := pow_le_one₀ h1 h2
    have q3 : t ^ 3 ≤ 1 := pow_le_one₀ h1 h2
    have q4 : t ^ 4 ≤ 1 := pow_le_one₀ h1 h2
    rw [abs_of_nonneg (by split_ifs <;> positivity)]
    split_ifs <;> linarith
  · intro k hk t ht
    have : yaw exRamp.polys k t = 0 := by
      simp [Spec.yaw, exRamp, valuesAt]
    rw [this, abs_zero]
    exact lt_trans (by norm_num) dblMax_gt

/-- **C42 is false: the section boundaries.** After halving, a section is judged by the extremum candidates
of the whole segment that lie in it; its own boundaries are not candidates. With an exact root finder and a
limit of 1.5 rad/s the check accepts a segment whose rate at its midpoint is 40 / √200 = 2.83 rad/s (more
even than the square of the limit). -/
theorem C42_section_false (rf : RootFinder ℝ) (hrf : Complete rf) (hex : Exact rf) (minSection : ℝ)
    (h0 : 0 ≤ minSection) (h1 : minSection ≤ 1 / 2) (fuel : ℕ) (hfuel : 1 < fuel) :
    exRamp.checkAnalytic rf Real.sqrt ⟨[(kOmegaXYMax, 3 / 2)]⟩ exGravity minSection fuel =
      .ok .feasible ∧
    (1 / 2 : ℝ) ∈ Icc 0 exRamp.time ∧
    (3 / 2) ^ 2 < jerk exRamp.polys (1 / 2) / thrust exGravity exRamp.polys (1 / 2) := by
  have hT : (0 : ℝ) ≤ exRamp.time := by simp [exRamp]
  have hT1 : exRamp.time = 1 := rfl
  refine ⟨?_, by norm_num [exRamp], ?_⟩
  swap
  · rw [exRamp_jerk _ (by norm_num), exRamp_thrust, lt_div_iff₀ (Real.sqrt_pos.mpr (by norm_num))]
    have : Real.sqrt ((40 * (1 / 2 : ℝ) ^ 2) ^ 2 + 10 ^ 2) < 15 := by
      rw [Real.sqrt_lt' (by norm_num)]; norm_num
    linarith
  have hwf : exRamp.WF := ⟨by simp [exRamp, Poly.N], by simp [exRamp]⟩
  have hl : (⟨[(kOmegaXYMax, 3 / 2)]⟩ : InputConstraints ℝ).getConstraint kOmegaXYMax =
      some (3 / 2) := by simp [InputConstraints.getConstraint, mapFind]
  rcases checkAnalytic_cases rf hrf ⟨[(kOmegaXYMax, 3 / 2)]⟩ exGravity minSection exRamp hwf
    (Or.inl rfl) (by simp [exRamp]) hT exRamp_bounded with
    ⟨v, _, h2, t, _, hv⟩ | ⟨_, ⟨hn, _⟩ | ⟨l', times, jt, hl', htc, hjc, hc⟩⟩
  · exfalso
    rcases h2 with rfl | rfl | rfl | rfl | rfl <;>
      simp [Violated, InputConstraints.getConstraint, mapFind, kFMax, kFMin, kVMax, kOmegaXYMax,
        kOmegaZMax, kOmegaZDotMax] at hv
  · rw [hl] at hn; simp at hn
  obtain ⟨fuel, rfl⟩ : ∃ f, fuel = f + 2 := ⟨fuel - 2, by omega⟩
  have hmax : (1000 : ℝ) < dblMax := lt_trans (by norm_num) dblMax_gt
  -- all candidates are 0 or 1
  have htimes : ∀ t ∈ times, t = 0 ∨ t = 1 := by
    intro t ht
    rcases htc.only hex t ht with h | h | h
    · exact Or.inl h
    · exact Or.inr h
    · left
      have e : (fun x => thrust exGravity exRamp.polys x ^ 2) = fun x => 1600 * x ^ 4 + 100 := by
        funext x
        rw [exRamp_thrust, Real.sq_sqrt (by positivity)]; ring
      rw [e] at h
      have hd : deriv (fun x : ℝ => 1600 * x ^ 4 + 100) t = 1600 * (4 * t ^ 3) := by
        simp
      rw [hd] at h
      have : t ^ 3 = 0 := by linarith
      exact pow_eq_zero_iff (by norm_num) |>.mp this
  have hjt : ∀ t ∈ jt, t = 0 ∨ t = 1 := by
    intro t ht
    have hds : ∀ d ∈ ([0, 1, 2] : List ℕ), d < exRamp.D := by
      intro d hd
      simp only [List.mem_cons, List.not_mem_nil, or_false] at hd
      simp only [Segment.D, exRamp, List.length_cons, List.length_nil]
      omega
    rcases hjc.only (by simp) hex t ht with h | h | h
    · exact Or.inl h
    · exact Or.inr h
    · left
      rw [← deriv_magnitude_sq exRamp _ hds] at h
      have e : (fun x => magnitude exRamp.polys [0, 1, 2] 3 x ^ 2) = fun x => 6400 * x ^ 2 := by
        funext x
        rw [magnitude_jerk, jerk_eq3, exRamp_axis 3 0 (by omega) (by omega),
          exRamp_axis 3 1 (by omega) (by omega), exRamp_axis 3 2 (by omega) (by omega),
          Real.sq_sqrt (by positivity)]
        norm_num; ring
      rw [e] at h
      have hd : deriv (fun x : ℝ => 6400 * x ^ 2) t = 6400 * (2 * t) := by
        simp
      rw [hd] at h
      linarith
  have T0 : thrust exGravity exRamp.polys 0 = 10 := by
    rw [exRamp_thrust]
    norm_num
    rw [show (100 : ℝ) = 10 ^ 2 by norm_num, Real.sqrt_sq (by norm_num)]
  have T1 : 40 ≤ thrust exGravity exRamp.polys 1 := by
    rw [exRamp_thrust]
    apply Real.le_sqrt_of_sq_le
    norm_num
  have T1' : thrust exGravity exRamp.polys 1 ≤ 50 := by
    rw [exRamp_thrust, Real.sqrt_le_left (by norm_num)]
    norm_num
  have J0 : jerk exRamp.polys 0 = 0 := by rw [exRamp_jerk 0 le_rfl]; ring
  have J1 : jerk exRamp.polys 1 = 80 := by rw [exRamp_jerk 1 (by norm_num)]; ring
  obtain ⟨jr, hjr⟩ := hjc.first
  have j0 : (0 : ℝ) ∈ jt := by rw [hjr]; simp
  have j1 : (1 : ℝ) ∈ jt := by rw [hjr]; simp [hT1]
  have f0 := htc.zero
  have f1 : (1 : ℝ) ∈ times := htc.last
  -- the selections in the first and in the second half
  have secA : ∀ b, 0 ≤ b → b < 1 → ∃ x, (1 / 10 ^ 6 < x.2.1.value ∧
      selectMinMaxMagnitude 0 b (times.map fun t => ⟨t, thrust exGravity exRamp.polys t, 0⟩)
        Extremum.zero Extremum.zero = x) ∧
      (selectMinMaxMagnitude 0 b (jt.map fun t => ⟨t, jerk exRamp.polys t, 0⟩)
        Extremum.zero Extremum.zero).2.2.value = 0 := by
    intro b hb hb1
    obtain ⟨tm, htm, _, _, htm', _, ef, _⟩ := select_ok (fun t => thrust exGravity exRamp.polys t) hb times
      0 f0 ⟨le_rfl, hb⟩ ⟨by simp only [T0]; linarith, by simp only [T0]; linarith⟩
      Extremum.zero Extremum.zero
    obtain ⟨_, _, tM, htM, _, htM', ej, _⟩ := select_ok (fun t => jerk exRamp.polys t) hb jt 0
      j0 ⟨le_rfl, hb⟩ ⟨by simp only [J0]; linarith, by simp only [J0]; linarith⟩
      Extremum.zero Extremum.zero
    refine ⟨_, ⟨?_, rfl⟩, ?_⟩
    · rw [ef]
      rcases htimes tm htm with rfl | rfl
      · simp only [T0]; norm_num
      · exact absurd htm'.2 (not_le.mpr hb1)
    · rw [ej]
      rcases hjt tM htM with rfl | rfl
      · exact J0
      · exact absurd htM'.2 (not_le.mpr hb1)
  have secB : (selectMinMaxMagnitude ((0 + 1) / 2) 1 (times.map fun t =>
        ⟨t, thrust exGravity exRamp.polys t, 0⟩) Extremum.zero Extremum.zero).2.1.value =
        thrust exGravity exRamp.polys 1 ∧
      (selectMinMaxMagnitude ((0 + 1) / 2) 1 (jt.map fun t => ⟨t, jerk exRamp.polys t, 0⟩)
        Extremum.zero Extremum.zero).2.2.value = 80 := by
    have hb : ((0 + 1) / 2 : ℝ) ≤ 1 := by norm_num
    obtain ⟨tm, htm, _, _, htm', _, ef, _⟩ := select_ok (fun t => thrust exGravity exRamp.polys t) hb times
      1 f1 ⟨hb, le_rfl⟩ ⟨by linarith, by linarith⟩
      Extremum.zero Extremum.zero
    obtain ⟨_, _, tM, htM, _, htM', ej, _⟩ := select_ok (fun t => jerk exRamp.polys t) hb jt 1
      j1 ⟨hb, le_rfl⟩ ⟨by simp only [J1]; linarith, by simp only [J1]; linarith⟩
      Extremum.zero Extremum.zero
    constructor
    · rw [ef]
      rcases htimes tm htm with rfl | rfl
      · exact absurd htm'.1 (by norm_num)
      · rfl
    · rw [ej]
      rcases hjt tM htM with rfl | rfl
      · exact absurd htM'.1 (by norm_num)
      · exact J1
  have runA : recursiveRollPitch Real.sqrt ⟨[(kOmegaXYMax, 3 / 2)]⟩ minSection
      (times.map fun t => ⟨t, thrust exGravity exRamp.polys t, 0⟩)
      (jt.map fun t => ⟨t, jerk exRamp.polys t, 0⟩) (fuel + 1) 0 ((0 + 1) / 2) = .ok .feasible := by
    obtain ⟨x, ⟨hx1, hx2⟩, hx3⟩ := secA ((0 + 1) / 2) (by norm_num) (by norm_num)
    rw [recursiveRollPitch_step Real.sqrt _ minSection h0 _ _ (3 / 2) hl fuel _ _ (by linarith), hx2, hx3,
      if_neg]
    rw [if_pos hx1, zero_div, Real.sqrt_zero]
    norm_num
  have runB : recursiveRollPitch Real.sqrt ⟨[(kOmegaXYMax, 3 / 2)]⟩ minSection
      (times.map fun t => ⟨t, thrust exGravity exRamp.polys t, 0⟩)
      (jt.map fun t => ⟨t, jerk exRamp.polys t, 0⟩) (fuel + 1) ((0 + 1) / 2) 1 = .ok .feasible := by
    rw [recursiveRollPitch_step Real.sqrt _ minSection h0 _ _ (3 / 2) hl fuel _ _ (by linarith), secB.1,
      secB.2, if_neg]
    rw [if_pos (by linarith), not_lt, Real.sqrt_le_left (by norm_num), div_le_iff₀ (by linarith)]
    linarith
  rw [hc, hT1, recursiveRollPitch_step Real.sqrt _ minSection h0 _ _ (3 / 2) hl (fuel + 1) 0 1
    (by linarith)]
  rw [runA, Res.ok_bind, if_pos rfl, runB, ite_self]

/-! ### the hypotheses are met -/

/-- A complete and exact root finder. -/
example : ∃ rf : RootFinder ℝ, Complete rf ∧ Exact rf := by
  classical
  refine ⟨fun c => if ofCoeffs c = 0 then (true, []) else
    (true, (ofCoeffs c).roots.toList.map fun x => (x, 0)), ?_, ?_⟩
  · intro c hc x hx
    simp only [hc, if_false]
    simp only [List.mem_map, Prod.mk.injEq, and_true, exists_eq_right, Multiset.mem_toList]
    exact (mem_roots hc).mpr hx
  · intro c z hz _
    by_cases hc : ofCoeffs c = 0
    · simp [hc]
    · simp only [hc, if_false, List.mem_map, Multiset.mem_toList] at hz
      obtain ⟨x, hx, rfl⟩ := hz
      exact (mem_roots hc).mp hx

/-- Straight flight meets the hypotheses of the positive statements. -/
example : ∃ rf : RootFinder ℝ, Complete rf ∧ exCruise.WF ∧ exCruise.D = 4 ∧ 4 ≤ exCruise.N ∧
    0 ≤ exCruise.time ∧ Bounded exCruise.polys exCruise.time ∧ exCruise.time < 2 * (3 / 4) := by
  obtain ⟨rf, hrf⟩ := complete_rootFinder_exists
  exact ⟨rf, hrf, exCruise_wf, rfl, by simp [exCruise], by simp [exCruise], exCruise_bounded,
    by norm_num [exCruise]⟩

/-- Straight flight in the rationals, gravity 10: within the limits; then each limit is made too tight in
turn. -/
example :
    let s : Segment ℚ := ⟨[⟨[0, 1, 0, 0]⟩, ⟨[0, 0, 0, 0]⟩, ⟨[0, 0, 0, 0]⟩, ⟨[0, 1, 0, 0]⟩], 1, 4⟩
    let run := fun ic => s.checkAnalytic (fun _ => (true, [])) sqTable ic ![0, 0, 10] (1 / 10) 5
    run ⟨[(0, 5), (1, 15), (2, 3), (3, 2), (4, 2), (5, 6)]⟩ = .ok .feasible ∧
    run ⟨[(0, 11), (1, 15), (2, 3), (3, 2), (4, 2), (5, 6)]⟩ = .ok .thrustLow ∧
    run ⟨[(0, 5), (1, 9), (2, 3), (3, 2), (4, 2), (5, 6)]⟩ = .ok .thrustHigh ∧
    run ⟨[(0, 5), (1, 15), (2, 1 / 2), (3, 2), (4, 2), (5, 6)]⟩ = .ok .velocity ∧
    run ⟨[(0, 5), (1, 15), (2, 3), (3, 2), (4, 1 / 2), (5, 6)]⟩ = .ok .yawRates := by decide +kernel

end Verif
