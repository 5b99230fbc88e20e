import Verif.Proofs.RoundedAnalyticCheck
import Verif.Props.RoundedFeasibility
import Verif.Props.RoundedSampling

/-
C131: the analytic feasibility check in floating point, for any root finder and for the one of the code. The specification is in
`Spec/RoundedAnalytic` and `Spec/RoundedFeasibility`: `ThrustSpeedKept` and `YawLimitsUpTo` are the limits up to an error,
`ViolatedUpTo` is the violation a verdict names up to an error, `FeasInput` and `AnalyticErrors` are what is assumed of the input,
`ApproxCall` is the accuracy of the root finder. Nothing is claimed about the roll and pitch rates of a feasible segment: the check
compares the wrong quantity with the limit (C42).
-/
set_option linter.unusedSectionVars false

namespace Verif

open Polynomial Spec Set

/-- The check with rounded numbers is the check of `Model/FeasibilityAnalytic` when the numbers are a field. -/
theorem C131_same_code {K : Type} [Field K] [LinearOrder K] (rf : RootFinder K) (sq : K → K) (ic : InputConstraints K)
    (g : Fin 3 → K) (m : K) (fuel : ℕ) (s : Segment K) :
    s.checkAnalyticG (fieldFeasLib sq) (fun c => .ok (rf c)) ic g m fuel = s.checkAnalytic rf sq ic g m fuel :=
  checkAnalyticG_field rf sq ic g m fuel s

section
variable {rnd : ℝ → ℝ} {u : ℝ}

/-- **C131.** When the check finds a segment feasible, the limits of thrust, speed and yaw hold at all times up to the errors, provided
the root finder is accurate up to `ε`. -/
theorem C131_feasible (h : Rounding rnd u) (rc : RootCall (Fl rnd)) (ic : InputConstraints (Fl rnd)) (g : Fin 3 → Fl rnd) (m : Fl rnd)
    (Ey By : ℕ → ℝ) (F A E V : ℝ) (s : Segment (Fl rnd)) (hi : FeasInput u ic g m Ey By F s) (he : AnalyticErrors u s g A E V)
    {ε : ℝ} (hε : 0 ≤ ε) (hrc : ApproxCall ε 0 s.time.val rc) (fuel : ℕ) (hr : s.checkAnalyticFl rc ic g m fuel = .ok .feasible) :
    ∀ t ∈ Icc 0 s.time.val,
      ThrustSpeedKept (fun k => candidateErrors E V k + searchError u ε s A E) ic g (realPolys s) t ∧
      (s.D = 4 → YawLimitsUpTo (fun k => 3 * Ey k + By (k + 2) * ε ^ 2) ic (realPolys s) t) := by
  rcases checkAnalyticG_near h _ ic g s hi.wf hi.dim hi.coeffs hi.time A E V he Ey By F hi.errors rc m fuel .feasible hr with
    ⟨hv, -⟩ | ⟨-, hv⟩ | ⟨-, hv, -⟩
  · cases hv
  · exact hv ε hε hrc
  · exact absurd rfl hv

/-- Whatever the root finder returns: a verdict that names a limit is right up to the errors, at some time of the segment. Roll and
pitch rates are never named. -/
theorem C131_genuine (h : Rounding rnd u) (rc : RootCall (Fl rnd)) (ic : InputConstraints (Fl rnd)) (g : Fin 3 → Fl rnd) (m : Fl rnd)
    (Ey By : ℕ → ℝ) (F A E V : ℝ) (s : Segment (Fl rnd)) (hi : FeasInput u ic g m Ey By F s) (he : AnalyticErrors u s g A E V)
    (fuel : ℕ) (r : Verdict) (hr : s.checkAnalyticFl rc ic g m fuel = .ok r) (h1 : r ≠ .feasible) (h2 : r ≠ .indeterminable) :
    ∃ t ∈ Icc 0 s.time.val, ViolatedUpTo 0 (candidateErrors E V) Ey ic g (realPolys s) t r := by
  rcases checkAnalyticG_near h _ ic g s hi.wf hi.dim hi.coeffs hi.time A E V he Ey By F hi.errors rc m fuel r hr with
    ⟨hv, -⟩ | ⟨hv, -⟩ | ⟨-, -, hv⟩
  · exact absurd hv h2
  · exact absurd hv h1
  · exact hv

/-- Without a limit of the roll and pitch rates the check always decides. -/
theorem C131_decides (h : Rounding rnd u) (rc : RootCall (Fl rnd)) (ic : InputConstraints (Fl rnd)) (g : Fin 3 → Fl rnd) (m : Fl rnd)
    (Ey By : ℕ → ℝ) (F A E V : ℝ) (s : Segment (Fl rnd)) (hi : FeasInput u ic g m Ey By F s) (he : AnalyticErrors u s g A E V)
    (ho : ic.getConstraint kOmegaXYMax = none) (fuel : ℕ) (r : Verdict) (hr : s.checkAnalyticFl rc ic g m fuel = .ok r) :
    r ≠ .indeterminable := by
  rcases checkAnalyticG_near h _ ic g s hi.wf hi.dim hi.coeffs hi.time A E V he Ey By F hi.errors rc m fuel r hr with
    ⟨-, hv⟩ | ⟨rfl, -⟩ | ⟨hv, -⟩
  · obtain ⟨l, hl⟩ := (hasConstraintG_iff ic _).mp hv
    rw [ho] at hl
    cases hl
  · simp
  · exact hv

/-- The recursion ends after `n` nested calls, where `n` is such that the duration of the segment is less than half the smallest
section times `(5 / 4) ^ n`: if the root finder returns, then so does the check, and more calls would give nothing else. -/
theorem C131_terminates (h : Rounding rnd u) (hu : u ≤ 1 / 100) (rc : RootCall (Fl rnd)) (ic : InputConstraints (Fl rnd))
    (g : Fin 3 → Fl rnd) (m : Fl rnd) (Ey By : ℕ → ℝ) (F A E V : ℝ) (s : Segment (Fl rnd)) (hi : FeasInput u ic g m Ey By F s)
    (he : AnalyticErrors u s g A E V) (hrc : ∀ c, c.length ≤ 101 → ∃ x, rc c = .ok x) (n : ℕ)
    (hn : s.time.val < m.val / 2 * (5 / 4) ^ n) :
    ∃ r, ∀ fuel, n < fuel → s.checkAnalyticFl rc ic g m fuel = .ok r :=
  checkAnalyticG_returns h _ ic g s hi.wf hi.dim hi.coeffs hi.time A E V he Ey By F hi.errors hu m hi.section_pos hi.section_time
    rc hrc n hn

/-- A segment that keeps the limits of thrust, speed and yaw with the errors to spare is found feasible when the roll and pitch
rates are not limited, whatever the root finder returns. -/
theorem C131_accepts (h : Rounding rnd u) (hu : u ≤ 1 / 100) (rc : RootCall (Fl rnd)) (ic : InputConstraints (Fl rnd))
    (g : Fin 3 → Fl rnd) (m : Fl rnd) (Ey By : ℕ → ℝ) (F A E V : ℝ) (s : Segment (Fl rnd)) (hi : FeasInput u ic g m Ey By F s)
    (he : AnalyticErrors u s g A E V) (hrc : ∀ c, c.length ≤ 101 → ∃ x, rc c = .ok x)
    (ho : ic.getConstraint kOmegaXYMax = none)
    (hin : ∀ t ∈ Icc 0 s.time.val, ThrustSpeedKept (fun k => -candidateErrors E V k) ic g (realPolys s) t ∧
      YawLimitsUpTo (fun k => -Ey k) ic (realPolys s) t) (n : ℕ) (hn : s.time.val < m.val / 2 * (5 / 4) ^ n) (fuel : ℕ) (hf : n < fuel) :
    s.checkAnalyticFl rc ic g m fuel = .ok .feasible := by
  obtain ⟨r, hr⟩ := C131_terminates h hu rc ic g m Ey By F A E V s hi he hrc n hn
  have hr := hr fuel hf
  have hd := C131_decides h rc ic g m Ey By F A E V s hi he ho fuel r hr
  by_cases hfe : r = .feasible
  · rw [← hfe]
    exact hr
  exfalso
  obtain ⟨t, ht, hv⟩ := C131_genuine h rc ic g m Ey By F A E V s hi he fuel r hr hfe hd
  obtain ⟨⟨k1, k2, k3⟩, k4, k5⟩ := hin t ht
  cases r with
  | thrustHigh =>
    obtain ⟨l, hl, hlt⟩ := hv
    have := k2 l.val (by rw [hl]; rfl)
    linarith
  | thrustLow =>
    obtain ⟨l, hl, hlt⟩ := hv
    have := k1 l.val (by rw [hl]; rfl)
    linarith
  | velocity =>
    obtain ⟨l, hl, hlt⟩ := hv
    have := k3 l.val (by rw [hl]; rfl)
    linarith
  | rollPitchRates => exact hv
  | yawRates =>
    obtain ⟨l, hl, hlt⟩ := hv
    have := k4 l hl
    linarith
  | yawAcc =>
    obtain ⟨l, hl, hlt⟩ := hv
    have := k5 l hl
    linarith
  | feasible => exact hfe rfl
  | indeterminable => exact hd rfl

/-- With the root finder of the code, every operation of which is rounded: the check returns a verdict `r`, for every number of
iterations of the root finder from `N` on the same. If `r` names a limit, then it is violated up to the errors. If `r` is
feasible, then the limits of thrust, speed and yaw hold up to the errors, provided the result of the root finder is accurate up to
`ε`. -/
theorem C131_code (h : Rounding rnd u) (hu : u ≤ 1 / 10 ^ 11) (math : RMath (Fl rnd)) (hmath : RoundedMath math)
    (ic : InputConstraints (Fl rnd)) (g : Fin 3 → Fl rnd) (m : Fl rnd) (Ey By : ℕ → ℝ) (F A E V : ℝ) (s : Segment (Fl rnd))
    (hi : FeasInput u ic g m Ey By F s) (he : AnalyticErrors u s g A E V) (n : ℕ) (hn : s.time.val < m.val / 2 * (5 / 4) ^ n) :
    ∃ r N, (∀ iter, N ≤ iter → ∀ fuel, n < fuel → s.checkAnalyticFl (codeRoots math iter) ic g m fuel = .ok r) ∧
      (r ≠ .feasible → r ≠ .indeterminable →
        ∃ t ∈ Icc 0 s.time.val, ViolatedUpTo 0 (candidateErrors E V) Ey ic g (realPolys s) t r) ∧
      (r = .feasible → ∀ ε, 0 ≤ ε → (∀ iter, ApproxCall ε 0 s.time.val (codeRoots math iter)) → ∀ t ∈ Icc 0 s.time.val,
        ThrustSpeedKept (fun k => candidateErrors E V k + searchError u ε s A E) ic g (realPolys s) t ∧
        (s.D = 4 → YawLimitsUpTo (fun k => 3 * Ey k + By (k + 2) * ε ^ 2) ic (realPolys s) t)) := by
  have hu' : u ≤ 1 / 100 := hu.trans (by norm_num)
  obtain ⟨rf, hl⟩ := codeRoots_limit h hu math hmath
  have hev := checkAnalyticG_ev hl (flFeasLib rnd fun _ _ _ => 0) ic g m s hi.wf.isSmall
  obtain ⟨N, hN⟩ := Filter.eventually_atTop.mp hev
  obtain ⟨r, hr⟩ := C131_terminates h hu' (fun c => .ok (rf c)) ic g m Ey By F A E V s hi he (fun c _ => ⟨_, rfl⟩) n hn
  have key : ∀ iter, N ≤ iter → ∀ fuel, n < fuel → s.checkAnalyticFl (codeRoots math iter) ic g m fuel = .ok r :=
    fun iter hit fuel hf => (hN iter hit fuel).trans (hr fuel hf)
  refine ⟨r, N, key, ?_, ?_⟩
  · exact C131_genuine h _ ic g m Ey By F A E V s hi he (n + 1) r (key N le_rfl _ (Nat.lt_succ_self n))
  · rintro rfl ε hε hA
    exact C131_feasible h _ ic g m Ey By F A E V s hi he hε (hA N) (n + 1) (key N le_rfl _ (Nat.lt_succ_self n))

/-- The check of a whole trajectory in floating point: feasible means that there is a segment, and that the limits of thrust, speed
and yaw hold on all of them up to the errors; a named limit is violated on one of them up to the errors. -/
theorem C131_trajectory (h : Rounding rnd u) (rc : RootCall (Fl rnd)) (ic : InputConstraints (Fl rnd)) (g : Fin 3 → Fl rnd)
    (m : Fl rnd) (Ey By : ℕ → ℝ) (F A E V : ℝ) (tr : Trajectory (Fl rnd))
    (hi : ∀ s ∈ tr.segments, FeasInput u ic g m Ey By F s ∧ AnalyticErrors u s g A E V) (fuel : ℕ) (r : Verdict)
    (hr : tr.checkInputFeasibility (fun s => s.checkAnalyticFl rc ic g m fuel) = .ok r) :
    (r = .feasible → tr.segments ≠ [] ∧ ∀ ε, 0 ≤ ε → (∀ s ∈ tr.segments, ApproxCall ε 0 s.time.val rc) → ∀ s ∈ tr.segments,
      ∀ t ∈ Icc 0 s.time.val,
        ThrustSpeedKept (fun k => candidateErrors E V k + searchError u ε s A E) ic g (realPolys s) t ∧
        (s.D = 4 → YawLimitsUpTo (fun k => 3 * Ey k + By (k + 2) * ε ^ 2) ic (realPolys s) t)) ∧
    (r ≠ .feasible → r ≠ .indeterminable → ∃ s ∈ tr.segments, ∃ t ∈ Icc 0 s.time.val,
      ViolatedUpTo 0 (candidateErrors E V) Ey ic g (realPolys s) t r) := by
  rcases checkTrajectory_cases _ _ _ _ hr with ⟨-, rfl⟩ | ⟨hne, rfl, hall⟩ | ⟨hf, s, hs, e⟩
  · exact ⟨fun h => Verdict.noConfusion h, fun _ h => absurd rfl h⟩
  · exact ⟨fun _ => ⟨hne, fun ε hε hA s hs => C131_feasible h rc ic g m Ey By F A E V s (hi s hs).1 (hi s hs).2 hε (hA s hs) fuel
      (hall s hs)⟩, fun h => absurd rfl h⟩
  · exact ⟨fun h => absurd h hf, fun h1 h2 => ⟨s, hs, C131_genuine h rc ic g m Ey By F A E V s (hi s hs).1 (hi s hs).2 fuel r e h1 h2⟩⟩

end

/-! #### the flight of `Props/RoundedFeasibility` -/

theorem exRampFl_analytic : AnalyticErrors (1 / 2 ^ 53) exRampFl exRampGravity 20 (1 / 10 ^ 13) (1 / 10 ^ 12) := by
  have hn : exRampFl.N = 4 := rfl
  have ht : exRampFl.time.val = 1 := rfl
  refine ⟨fun k hk hk3 => ?_, ?_, by norm_num⟩
  · have hsz : absSize exRampFl [0, 1, 2] k 1 ≤ 9 := by
      unfold absSize
      simp only [List.map_cons, List.map_nil, List.sum_cons, List.sum_nil, add_zero]
      have h0 := (exRampFl_size k 0 (by omega) (by decide)).2
      have h1 := (exRampFl_size k 1 (by omega) (by decide)).2
      have h2 := (exRampFl_size k 2 (by omega) (by decide)).2
      unfold axisSize at h0 h1 h2
      linarith
    have hg : ∑ i, |(exRampGravity i).val| = 10 := by
      rw [Fin.sum_univ_three]
      norm_num [exRampGravity, cons3_two]
    rw [hn, ht, hg]
    refine le_trans (mul_le_mul_of_nonneg_left (show _ ≤ (19 : ℝ) by linarith) (by norm_num)) ?_
    norm_num
  · rw [hn]
    norm_num

theorem exRampFl_plain (v : ℝ) : FeasInput (1 / 2 ^ 53) (exPlainLimits v) exRampGravity ⟨1 / 128⟩ (fun _ => 1 / 10 ^ 14)
    (fun _ => 4) (1 / 10 ^ 13) exRampFl :=
  { exRampFl_input v with omega := fun l hl => by cases hl }

/-- Its speed grows from 1 to `√5`: with the limit 3 the check finds it feasible, whatever root finder is used. -/
theorem exRampFl_accepted (rf : RootFinder (Fl round53)) (fuel : ℕ) (hf : 25 < fuel) :
    exRampFl.checkAnalyticFl (fun c => .ok (rf c)) (exPlainLimits 3) exRampGravity ⟨1 / 128⟩ fuel = .ok .feasible := by
  have ht : exRampFl.time.val = 1 := rfl
  refine C131_accepts round53_rounding (by norm_num) _ (exPlainLimits 3) exRampGravity ⟨1 / 128⟩ _ _ _ _ _ _ exRampFl
    (exRampFl_plain 3) exRampFl_analytic (fun c _ => ⟨_, rfl⟩) rfl (fun t hm => ?_) 25 (by rw [ht]; norm_num) fuel hf
  have h1 : t ≤ 1 := hm.2
  have ht2 : t ^ 2 ≤ 1 := pow_le_one₀ hm.1 h1
  refine ⟨⟨fun l hl => ?_, fun l hl => ?_, fun l hl => ?_⟩, ⟨fun l hl => (by cases hl), fun l hl => (by cases hl)⟩⟩
  · obtain rfl : (5 : ℝ) = l := Option.some.inj hl
    rw [exRampFl_thrust]
    norm_num [candidateErrors]
  · obtain rfl : (20 : ℝ) = l := Option.some.inj hl
    rw [exRampFl_thrust]
    norm_num [candidateErrors]
  · obtain rfl : (3 : ℝ) = l := Option.some.inj hl
    rw [exRampFl_speed]
    have : Real.sqrt (1 + 4 * t ^ 2) ≤ 5 / 2 := by
      rw [Real.sqrt_le_left (by norm_num)]
      linarith
    norm_num [candidateErrors]
    linarith

/-- With the limit 2, a root finder that rounds the zeros to doubles, the check
complains about the speed. -/
example : ∃ r, (∀ fuel, 25 < fuel → exRampFl.checkAnalyticFl (fun c => .ok (roundedRoots round53 c)) (exPlainLimits 2) exRampGravity
    ⟨1 / 128⟩ fuel = .ok r) ∧ r = .velocity := by
  have ht : exRampFl.time.val = 1 := rfl
  obtain ⟨r, hr⟩ := C131_terminates round53_rounding (by norm_num) (fun c => .ok (roundedRoots round53 c)) (exPlainLimits 2)
    exRampGravity ⟨1 / 128⟩ _ _ _ _ _ _ exRampFl (exRampFl_plain 2) exRampFl_analytic (fun c _ => ⟨_, rfl⟩) 25 (by rw [ht]; norm_num)
  refine ⟨r, hr, ?_⟩
  have hr := hr 26 (by norm_num)
  have hrf := roundedRoots_approx (rnd := round53) round53_rounding (T := 1) (a := 0) (b := 1) (by norm_num) (by norm_num)
  have hA : ApproxCall (1 / 2 ^ 53 * 1) 0 exRampFl.time.val (fun c => .ok (roundedRoots round53 c)) := by
    intro c r hcr x y hx hxy hy hs
    rw [← Res.ok.inj hcr]
    exact hrf c x y hx hxy (by rw [ht] at hy; exact hy) hs
  have hf : r ≠ .feasible := by
    rintro rfl
    have h2 := (C131_feasible round53_rounding _ (exPlainLimits 2) exRampGravity ⟨1 / 128⟩ _ _ _ _ _ _ exRampFl (exRampFl_plain 2)
      exRampFl_analytic (by norm_num) hA 26 hr 1 ⟨by norm_num, by rw [ht]⟩).1.vMax 2 rfl
    rw [exRampFl_speed] at h2
    have h5 : (11 / 5 : ℝ) ≤ Real.sqrt (1 + 4 * 1 ^ 2) := Real.le_sqrt_of_sq_le (by norm_num)
    have hs : searchError (1 / 2 ^ 53) (1 / 2 ^ 53 * 1) exRampFl 20 (1 / 10 ^ 13) ≤ 1 / 10 := by
      have hn : exRampFl.N = 4 := rfl
      unfold searchError
      rw [hn, ht]
      have : Real.sqrt (2 * ((1 + 1 / 2 ^ 53) ^ (5 * 4 + 4) - 1) * (20 : ℝ) ^ 2 * 1) ≤ 1 / 100 := by
        rw [Real.sqrt_le_left (by norm_num)]
        norm_num
      have e : (20 : ℝ) * (1 / 2 ^ 53 * 1) + 2 * (1 / 10 ^ 13) ≤ 1 / 100 := by norm_num
      linarith
    have hc : candidateErrors (1 / 10 ^ 13) (1 / 10 ^ 12) 1 ≤ 1 / 100 := by norm_num [candidateErrors]
    linarith
  have hd := C131_decides round53_rounding _ (exPlainLimits 2) exRampGravity ⟨1 / 128⟩ _ _ _ _ _ _ exRampFl (exRampFl_plain 2)
    exRampFl_analytic rfl 26 r hr
  obtain ⟨t, ⟨t0, t1⟩, hvi⟩ := C131_genuine round53_rounding _ (exPlainLimits 2) exRampGravity ⟨1 / 128⟩ _ _ _ _ _ _ exRampFl
    (exRampFl_plain 2) exRampFl_analytic 26 r hr hf hd
  cases r with
  | thrustHigh =>
    obtain ⟨l, hl, hlt⟩ := hvi
    obtain rfl : (⟨20⟩ : Fl round53) = l := Option.some.inj hl
    rw [exRampFl_thrust] at hlt
    norm_num [candidateErrors] at hlt
  | thrustLow =>
    obtain ⟨l, hl, hlt⟩ := hvi
    obtain rfl : (⟨5⟩ : Fl round53) = l := Option.some.inj hl
    rw [exRampFl_thrust] at hlt
    norm_num [candidateErrors] at hlt
  | velocity => rfl
  | rollPitchRates => exact hvi.elim
  | yawRates =>
    obtain ⟨l, hl, hlt⟩ := hvi
    cases hl
  | yawAcc =>
    obtain ⟨l, hl, hlt⟩ := hvi
    cases hl
  | feasible => exact absurd rfl hf
  | indeterminable => exact absurd rfl hd

/-- The root finder of the code, with a limit of the roll and pitch rates: the hypotheses of `C131_code` are met. -/
example : ∃ r N, ∀ iter, N ≤ iter → ∀ fuel, 25 < fuel →
    exRampFl.checkAnalyticFl (codeRoots (flMath round53) iter) (exRampLimits 3) exRampGravity ⟨1 / 128⟩ fuel = .ok r := by
  have ht : exRampFl.time.val = 1 := rfl
  obtain ⟨r, N, h1, -⟩ := C131_code round53_rounding (by norm_num) (flMath round53)
    (flMath_rounded round53_rounding (by norm_num)) (exRampLimits 3) exRampGravity ⟨1 / 128⟩ _ _ _ _ _ _ exRampFl (exRampFl_input 3)
    exRampFl_analytic 25 (by rw [ht]; norm_num)
  exact ⟨r, N, h1⟩

end Verif
