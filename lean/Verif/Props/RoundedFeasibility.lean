import Verif.Proofs.RoundedFeasibilityCheck
import Verif.Proofs.RoundedFeasibilityField
import Verif.Props.RoundedCost

/-
C128: the recursive feasibility check in floating point, for any root finder and for the one of the code. The specification is in
`Spec/RoundedFeasibility`: `LimitsUpTo` and `YawLimitsUpTo` are the limits up to an error, `ViolatedUpTo` is the violation a
verdict names up to an error, `FeasInput` is what is assumed of the input, `ApproxCall` the accuracy of the root finder.
-/
set_option linter.unusedSectionVars false

namespace Verif

open Polynomial Spec Set

/-- The check with rounded numbers is the check of `Model/Feasibility` when the numbers are a field. -/
theorem C128_same_code {K : Type} [Field K] [LinearOrder K] (rf : RootFinder K) (sq : K → K) (ic : InputConstraints K)
    (g : Fin 3 → K) (m : K) (fuel : ℕ) (s : Segment K) :
    s.checkRecursiveG (fieldFeasLib sq) (fun c => .ok (rf c)) ic g m fuel = s.checkRecursive rf sq ic g m fuel :=
  checkRecursiveG_field rf sq ic g m fuel s

section
variable {rnd : ℝ → ℝ} {u : ℝ}

/-- **C128.** When the check finds a segment feasible, all limits hold at all times up to the errors, provided the root finder is
accurate up to `ε`. -/
theorem C128_feasible (h : Rounding rnd u) (hu : u ≤ 1 / 100) {dot : Dot (Fl rnd)} (hd : DotOk u dot)
    (rc : RootCall (Fl rnd)) (ic : InputConstraints (Fl rnd)) (g : Fin 3 → Fl rnd) (m : Fl rnd) (E B : ℕ → ℝ) (F : ℝ)
    (s : Segment (Fl rnd)) (hi : FeasInput u ic g m E B F s) {ε : ℝ} (hε : 0 ≤ ε) (hrc : ApproxCall ε 0 s.time.val rc)
    (fuel : ℕ) (hr : s.checkRecursiveFl dot rc ic g m fuel = .ok .feasible) :
    (∀ t ∈ Icc 0 s.time.val, LimitsUpTo (16 * u) (boundErrors ε E B F) ic g (realPolys s) t) ∧
    (s.D = 4 → ∀ t ∈ Icc 0 s.time.val, YawLimitsUpTo (fun k => 3 * E k + B (k + 2) * ε ^ 2) ic (realPolys s) t) := by
  rcases checkRecursiveFl_near h hu dot hd rc ε ic s hi.wf hi.coeffs g E B F hi.errors hi.dim hi.time hi.omega m hi.section_pos
    hi.section_time fuel .feasible hr with hv | ⟨-, hv⟩ | ⟨hv, -⟩
  · cases hv
  · exact hv ⟨hε, hrc⟩
  · exact absurd rfl hv

/-- Whatever the root finder returns: a verdict that names a limit is right up to the errors, at some time of the segment. -/
theorem C128_genuine (h : Rounding rnd u) (hu : u ≤ 1 / 100) {dot : Dot (Fl rnd)} (hd : DotOk u dot)
    (rc : RootCall (Fl rnd)) (ic : InputConstraints (Fl rnd)) (g : Fin 3 → Fl rnd) (m : Fl rnd) (E B : ℕ → ℝ) (F : ℝ)
    (s : Segment (Fl rnd)) (hi : FeasInput u ic g m E B F s) (fuel : ℕ) (r : Verdict)
    (hr : s.checkRecursiveFl dot rc ic g m fuel = .ok r) (h1 : r ≠ .feasible) (h2 : r ≠ .indeterminable) :
    ∃ t ∈ Icc 0 s.time.val, ViolatedUpTo (16 * u) (evalErrors E F) E ic g (realPolys s) t r := by
  rcases checkRecursiveFl_near h hu dot hd rc 0 ic s hi.wf hi.coeffs g E B F hi.errors hi.dim hi.time hi.omega m hi.section_pos
    hi.section_time fuel r hr with hv | ⟨hv, -⟩ | ⟨-, -, hv⟩
  · exact absurd hv h2
  · exact absurd hv h1
  · exact hv

/-- The recursion ends after `n` nested calls, where `n` is such that the duration of the segment is less than half the smallest
section times `(5 / 4) ^ n`: if the root finder returns, then so does the check, and more calls would give nothing else. -/
theorem C128_terminates (h : Rounding rnd u) (hu : u ≤ 1 / 100) {dot : Dot (Fl rnd)} (hd : DotOk u dot)
    (rc : RootCall (Fl rnd)) (ic : InputConstraints (Fl rnd)) (g : Fin 3 → Fl rnd) (m : Fl rnd) (E B : ℕ → ℝ) (F : ℝ)
    (s : Segment (Fl rnd)) (hi : FeasInput u ic g m E B F s) (hrc : ∀ c, c.length = s.N → ∃ x, rc c = .ok x) (n : ℕ)
    (hn : s.time.val < m.val / 2 * (5 / 4) ^ n) :
    ∃ r, ∀ fuel, n < fuel → s.checkRecursiveFl dot rc ic g m fuel = .ok r :=
  checkRecursiveFl_returns h hu dot hd rc ic s hi.wf hi.coeffs g E B F hi.errors hi.dim hi.time hi.omega m hi.section_pos
    hi.section_time hrc n hn

/-- With the root finder of the code, every operation of which is rounded: the check returns a verdict `r`, for every number of
iterations of the root finder from `N` on the same. If `r` names a limit, then it is violated up to the errors. If `r` is
feasible, then the limits hold up to the errors, provided the result of the root finder is accurate up to `ε`. -/
theorem C128_code (h : Rounding rnd u) (hu : u ≤ 1 / 10 ^ 11) {dot : Dot (Fl rnd)} (hd : DotOk u dot)
    (math : RMath (Fl rnd)) (hmath : RoundedMath math) (ic : InputConstraints (Fl rnd)) (g : Fin 3 → Fl rnd) (m : Fl rnd)
    (E B : ℕ → ℝ) (F : ℝ) (s : Segment (Fl rnd)) (hi : FeasInput u ic g m E B F s) (n : ℕ)
    (hn : s.time.val < m.val / 2 * (5 / 4) ^ n) :
    ∃ r N, (∀ iter, N ≤ iter → ∀ fuel, n < fuel → s.checkRecursiveFl dot (codeRoots math iter) ic g m fuel = .ok r) ∧
      (r ≠ .feasible → r ≠ .indeterminable →
        ∃ t ∈ Icc 0 s.time.val, ViolatedUpTo (16 * u) (evalErrors E F) E ic g (realPolys s) t r) ∧
      (r = .feasible → ∀ ε, 0 ≤ ε → (∀ iter, ApproxCall ε 0 s.time.val (codeRoots math iter)) →
        (∀ t ∈ Icc 0 s.time.val, LimitsUpTo (16 * u) (boundErrors ε E B F) ic g (realPolys s) t) ∧
        (s.D = 4 → ∀ t ∈ Icc 0 s.time.val, YawLimitsUpTo (fun k => 3 * E k + B (k + 2) * ε ^ 2) ic (realPolys s) t)) := by
  have hu' : u ≤ 1 / 100 := hu.trans (by norm_num)
  obtain ⟨rf, hl⟩ := codeRoots_limit h hu math hmath
  have hev := checkRecursiveG_on (flFeasLib rnd dot) ic g m s
    (fun p hp d _ => hl.coefficients p ((hi.wf.isSmall.2 p hp).trans (by norm_num)) d)
  obtain ⟨N, hN⟩ := Filter.eventually_atTop.mp hev
  obtain ⟨r, hr⟩ := C128_terminates h hu' hd (fun c => .ok (rf c)) ic g m E B F s hi (fun c _ => ⟨_, rfl⟩) n hn
  have key : ∀ iter, N ≤ iter → ∀ fuel, n < fuel → s.checkRecursiveFl dot (codeRoots math iter) ic g m fuel = .ok r :=
    fun iter hit fuel hf => (hN iter hit fuel).trans (hr fuel hf)
  refine ⟨r, N, key, ?_, ?_⟩
  · exact C128_genuine h hu' hd _ ic g m E B F s hi (n + 1) r (key N le_rfl _ (Nat.lt_succ_self n))
  · rintro rfl ε hε hA
    exact C128_feasible h hu' hd _ ic g m E B F s hi hε (hA N) (n + 1) (key N le_rfl _ (Nat.lt_succ_self n))

/-- The check of a trajectory, for any check of a segment: feasible means that there is a segment and all are found feasible, any
other verdict is that of a segment, or there are no segments. -/
theorem checkTrajectory_cases {K : Type} (check : Segment K → Res Verdict) (l : List (Segment K)) (r0 r : Verdict)
    (h : checkTrajectory check l r0 = .ok r) :
    (l = [] ∧ r = r0) ∨ (l ≠ [] ∧ r = .feasible ∧ ∀ s ∈ l, check s = .ok .feasible) ∨
      (r ≠ .feasible ∧ ∃ s ∈ l, check s = .ok r) := by
  induction l generalizing r0 with
  | nil => exact Or.inl ⟨rfl, (Res.ok.inj h).symm⟩
  | cons s ss ih =>
    unfold checkTrajectory at h
    rw [Res.bind_eq_ok] at h
    obtain ⟨r1, e1, h⟩ := h
    by_cases hf : r1 = .feasible
    · subst hf
      rw [if_neg (by simp)] at h
      rcases ih _ h with ⟨rfl, rfl⟩ | ⟨-, rfl, hall⟩ | ⟨hr, s', hs', e⟩
      · exact Or.inr (Or.inl ⟨by simp, rfl, by simpa using e1⟩)
      · refine Or.inr (Or.inl ⟨by simp, rfl, ?_⟩)
        intro s' hs'
        rcases List.mem_cons.mp hs' with rfl | hs'
        · exact e1
        · exact hall s' hs'
      · exact Or.inr (Or.inr ⟨hr, s', by simp [hs'], e⟩)
    · rw [if_pos hf] at h
      obtain rfl : r1 = r := Res.ok.inj h
      exact Or.inr (Or.inr ⟨hf, s, by simp, e1⟩)

/-- The same for `checkInputFeasibilityTrajectory`: feasible means that there are segments and the limits hold throughout, and a
verdict that names a limit is right at some time of some segment. -/
theorem C128_trajectory (h : Rounding rnd u) (hu : u ≤ 1 / 100) {dot : Dot (Fl rnd)} (hd : DotOk u dot)
    (rc : RootCall (Fl rnd)) (ic : InputConstraints (Fl rnd)) (g : Fin 3 → Fl rnd) (m : Fl rnd) (E B : ℕ → ℝ) (F : ℝ)
    (tr : Trajectory (Fl rnd)) (hi : ∀ s ∈ tr.segments, FeasInput u ic g m E B F s) (fuel : ℕ) (r : Verdict)
    (hr : tr.checkInputFeasibility (fun s => s.checkRecursiveFl dot rc ic g m fuel) = .ok r) :
    (r = .feasible → tr.segments ≠ [] ∧ ∀ ε, 0 ≤ ε → (∀ s ∈ tr.segments, ApproxCall ε 0 s.time.val rc) → ∀ s ∈ tr.segments,
      ∀ t ∈ Icc 0 s.time.val, LimitsUpTo (16 * u) (boundErrors ε E B F) ic g (realPolys s) t ∧
        (s.D = 4 → YawLimitsUpTo (fun k => 3 * E k + B (k + 2) * ε ^ 2) ic (realPolys s) t)) ∧
    (r ≠ .feasible → r ≠ .indeterminable → ∃ s ∈ tr.segments, ∃ t ∈ Icc 0 s.time.val,
      ViolatedUpTo (16 * u) (evalErrors E F) E ic g (realPolys s) t r) := by
  rcases checkTrajectory_cases _ _ _ _ hr with ⟨-, rfl⟩ | ⟨hne, rfl, hall⟩ | ⟨hf, s, hs, e⟩
  · exact ⟨fun h => Verdict.noConfusion h, fun _ h => absurd rfl h⟩
  · refine ⟨fun _ => ⟨hne, fun ε hε hA s hs t ht => ?_⟩, fun h => absurd rfl h⟩
    obtain ⟨h1, h2⟩ := C128_feasible h hu hd rc ic g m E B F s (hi s hs) hε (hA s hs) fuel (hall s hs)
    exact ⟨h1 t ht, fun h4 => h2 h4 t ht⟩
  · refine ⟨fun h => absurd h hf, fun h1 h2 => ⟨s, hs, ?_⟩⟩
    exact C128_genuine h hu hd rc ic g m E B F s (hi s hs) fuel r e h1 h2

end

/-- A flight of one second with doubles: `x(t) = t`, `y = 2`, `z(t) = 1 + t²` and yaw `t`. -/
def exRampFl : Segment (Fl round53) :=
  ⟨[⟨[⟨0⟩, ⟨1⟩, ⟨0⟩, ⟨0⟩]⟩, ⟨[⟨2⟩, ⟨0⟩, ⟨0⟩, ⟨0⟩]⟩, ⟨[⟨1⟩, ⟨0⟩, ⟨1⟩, ⟨0⟩]⟩, ⟨[⟨0⟩, ⟨1⟩, ⟨0⟩, ⟨0⟩]⟩], ⟨1⟩, 4⟩

/-- Limits of the thrust from 5 to 20, of the speed `v`, of the roll and pitch rates 1 and of the yaw rate 2. -/
def exRampLimits (v : ℝ) : InputConstraints (Fl round53) :=
  ⟨[(kFMin, ⟨5⟩), (kFMax, ⟨20⟩), (kVMax, ⟨v⟩), (kOmegaXYMax, ⟨1⟩), (kOmegaZMax, ⟨2⟩)]⟩

def exRampGravity : Fin 3 → Fl round53 := ![⟨0⟩, ⟨0⟩, ⟨10⟩]

theorem exRampFl_size (k i : ℕ) (hk : k ≤ 5) (hi : i < exRampFl.D) : 0 ≤ axisSize exRampFl k i 1 ∧ axisSize exRampFl k i 1 ≤ 3 := by
  have h4 : exRampFl.D = 4 := rfl
  rw [h4] at hi
  rw [axisSize_eq _ _ _ _ (by rw [h4]; exact hi), derivAt_eq_sum]
  interval_cases i <;> interval_cases k <;> norm_num [exRampFl, vals, Finset.sum_range_succ, Nat.descFactorial]

theorem exRampFl_input (v : ℝ) : FeasInput (1 / 2 ^ 53) (exRampLimits v) exRampGravity ⟨1 / 128⟩ (fun _ => 1 / 10 ^ 14)
    (fun _ => 4) (1 / 10 ^ 13) exRampFl where
  wf := ⟨by simp [exRampFl, Poly.N], by simp [exRampFl]⟩
  coeffs := le_rfl
  dim := Or.inr rfl
  time := zero_le_one
  errors := by
    have hn : exRampFl.N = 4 := rfl
    have ht : exRampFl.time.val = 1 := rfl
    refine ⟨fun k hk i hi => ?_, fun k hk i hi => ?_, fun i => ?_, fun k hk i hi => ?_⟩
    · obtain ⟨h0, h1⟩ := exRampFl_size k i (by omega) hi
      rw [hn, ht]
      refine le_trans (mul_le_mul_of_nonneg_left h1 (by norm_num)) ?_
      norm_num
    · obtain ⟨h0, h1⟩ := exRampFl_size (k + 2) i (by omega) hi
      rw [hn, ht]
      refine le_trans (mul_le_mul_of_nonneg_left h1 (by norm_num)) ?_
      norm_num
    · obtain ⟨h0, h1⟩ := exRampFl_size 2 i (by omega) (by have : exRampFl.D = 4 := rfl; omega)
      rw [ht]
      have hg : |(exRampGravity i).val| ≤ 10 := by
        fin_cases i <;> norm_num [exRampGravity]
      linarith
    · obtain ⟨h0, h1⟩ := exRampFl_size k i (by omega) hi
      rw [ht]
      refine lt_of_le_of_lt (add_le_add h1 le_rfl) (lt_trans ?_ dblMax_gt)
      norm_num
  omega := by
    intro l hl
    obtain rfl : (⟨1⟩ : Fl round53) = l := Option.some.inj hl
    exact lt_trans (by norm_num) dblMax_gt
  section_pos := by norm_num
  section_time := by
    have ht : exRampFl.time.val = 1 := rfl
    rw [ht]
    norm_num

theorem exRampFl_speed (t : ℝ) : speed (realPolys exRampFl) t = Real.sqrt (1 + 4 * t ^ 2) := by
  unfold speed realPolys
  simp only [exRampFl, List.map_cons, List.map_nil]
  simp only [vec3_cons, Fin.sum_univ_three, derivAt_eq_sum, vals, cons3_two]
  congr 1
  norm_num [Finset.sum_range_succ]
  ring

theorem exRampFl_thrust (t : ℝ) : thrust (fun i => (exRampGravity i).val) (realPolys exRampFl) t = 12 := by
  unfold thrust realPolys
  simp only [exRampFl, List.map_cons, List.map_nil]
  simp only [vec3_cons, Fin.sum_univ_three, derivAt_eq_sum, vals, cons3_two, exRampGravity]
  rw [Real.sqrt_eq_iff_mul_self_eq_of_pos (by norm_num)]
  norm_num [Finset.sum_range_succ]

theorem exRampFl_yaw (t : ℝ) : yaw (realPolys exRampFl) 1 t = 1 := by
  unfold yaw valuesAt realPolys
  simp only [exRampFl, List.map_cons, List.map_nil, iteratedDeriv_curve]
  simp only [List.getD_cons_succ, List.getD_cons_zero, derivAt_eq_sum, vals]
  norm_num [Finset.sum_range_succ]

/-- Its speed grows from 1 to `√5`. With the root finder of the code and doubles, the check returns within 26 nested calls: with
the limit 3 it does not complain about any limit, and with the limit 2 about no other than the speed. -/
example (v : ℝ) (hv : v = 2 ∨ v = 3) : ∃ r N, (∀ iter, N ≤ iter → ∀ fuel, 25 < fuel →
      exRampFl.checkRecursiveFl seqDot (codeRoots (flMath round53) iter) (exRampLimits v) exRampGravity ⟨1 / 128⟩ fuel = .ok r) ∧
    (r = .feasible ∨ r = .indeterminable ∨ v = 2 ∧ r = .velocity) := by
  obtain ⟨r, N, h1, h2, -⟩ := C128_code round53_rounding (by norm_num) (seqDot_ok round53_rounding) (flMath round53)
    (flMath_rounded round53_rounding (by norm_num)) (exRampLimits v) exRampGravity ⟨1 / 128⟩ _ _ _ exRampFl (exRampFl_input v) 25
    (by
      have ht : exRampFl.time.val = 1 := rfl
      rw [ht]
      norm_num)
  refine ⟨r, N, h1, ?_⟩
  by_cases hf : r = .feasible
  · exact Or.inl hf
  by_cases hi : r = .indeterminable
  · exact Or.inr (Or.inl hi)
  right
  right
  obtain ⟨t, ⟨t0, t1⟩, hvi⟩ := h2 hf hi
  have ht : exRampFl.time.val = 1 := rfl
  rw [ht] at t1
  have h3 : Real.sqrt 3 ≤ 2 := by rw [Real.sqrt_le_iff]; norm_num
  have hs3 : 0 ≤ Real.sqrt 3 := Real.sqrt_nonneg 3
  cases r with
  | thrustHigh =>
    obtain ⟨l, hl, hlt⟩ := hvi
    obtain rfl : (⟨20⟩ : Fl round53) = l := Option.some.inj hl
    rw [exRampFl_thrust] at hlt
    norm_num [evalErrors] at hlt
    linarith
  | thrustLow =>
    obtain ⟨l, hl, hlt⟩ := hvi
    obtain rfl : (⟨5⟩ : Fl round53) = l := Option.some.inj hl
    rw [exRampFl_thrust] at hlt
    norm_num [evalErrors] at hlt
    linarith
  | velocity =>
    obtain ⟨l, hl, hlt⟩ := hvi
    obtain rfl : (⟨v⟩ : Fl round53) = l := Option.some.inj hl
    rw [exRampFl_speed] at hlt
    have h5 : Real.sqrt (1 + 4 * t ^ 2) ≤ 5 / 2 := by
      rw [Real.sqrt_le_iff]
      refine ⟨by norm_num, ?_⟩
      have : t ^ 2 ≤ 1 := pow_le_one₀ t0 t1
      linarith
    rcases hv with rfl | rfl
    · exact ⟨rfl, rfl⟩
    · norm_num [evalErrors] at hlt
      linarith
  | rollPitchRates => exact hvi.elim
  | yawRates =>
    obtain ⟨l, hl, hlt⟩ := hvi
    obtain rfl : (⟨2⟩ : Fl round53) = l := Option.some.inj hl
    rw [exRampFl_yaw] at hlt
    norm_num at hlt
  | yawAcc =>
    obtain ⟨l, hl, hlt⟩ := hvi
    cases hl
  | feasible => exact absurd rfl hf
  | indeterminable => exact absurd rfl hi

/-- With a root finder that rounds the zeros to doubles, the check does not find the flight feasible for the speed limit 2. -/
example (fuel : ℕ) : exRampFl.checkRecursiveFl seqDot (fun c => .ok (roundedRoots round53 c)) (exRampLimits 2) exRampGravity
    ⟨1 / 128⟩ fuel ≠ .ok .feasible := by
  intro hr
  have ht : exRampFl.time.val = 1 := rfl
  have hrf := roundedRoots_approx (rnd := round53) round53_rounding (T := 1) (a := 0) (b := 1) (by norm_num) (by norm_num)
  have hA : ApproxCall (1 / 2 ^ 53 * 1) 0 exRampFl.time.val (fun c => .ok (roundedRoots round53 c)) := by
    intro c r hcr x y hx hxy hy hs
    rw [← Res.ok.inj hcr]
    exact hrf c x y hx hxy (by rw [ht] at hy; exact hy) hs
  obtain ⟨h1, -⟩ := C128_feasible round53_rounding (by norm_num) (seqDot_ok round53_rounding) _ (exRampLimits 2) exRampGravity
    ⟨1 / 128⟩ _ _ _ exRampFl (exRampFl_input 2) (by norm_num) hA fuel hr
  have h2 := (h1 1 ⟨by norm_num, by rw [ht]⟩).vMax ⟨2⟩ rfl
  rw [exRampFl_speed] at h2
  have h3 : Real.sqrt 3 ≤ 2 := by rw [Real.sqrt_le_iff]; norm_num
  have h5 : (11 / 5 : ℝ) ≤ Real.sqrt (1 + 4 * 1 ^ 2) := Real.le_sqrt_of_sq_le (by norm_num)
  norm_num [boundErrors] at h2 h5
  linarith

end Verif
