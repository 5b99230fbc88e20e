import Verif.Proofs.FeasibilityShort
import Verif.Props.FeasibilityAnalytic

/-
Properties C39 to C42 for polynomials of any length: the feasibility checks without the assumption that the
polynomials have at least four coefficients. A short polynomial never produces a wrong verdict, but it can end the
program: the recursive check asks for the roots of a derivative that does not exist (a failed check), and the
analytic check builds vectors of negative size.

`Spec.Enough` and `Spec.EnoughAnalytic` say which numbers of coefficients suffice for the limits that are set.
-/
namespace Verif

open Polynomial Spec Set

/-! ### the recursive check -/

/-- **C39** for any number of coefficients. -/
theorem C39_any (rf : RootFinder ℝ) (hrf : Complete rf) (ic : InputConstraints ℝ) (g : Fin 3 → ℝ)
    (minSection : ℝ) (hm : 0 ≤ minSection) (s : Segment ℝ) (h : s.WF) (hD : s.D = 3 ∨ s.D = 4)
    (hT : 0 ≤ s.time) (hom : ∀ l, ic.getConstraint kOmegaXYMax = some l → l < dblMax)
    (hfin : Bounded s.polys s.time) (fuel : ℕ)
    (hres : s.checkRecursive rf Real.sqrt ic g minSection fuel = .ok .feasible) :
    (∀ t ∈ Icc 0 s.time, LimitsHold ic g s.polys t) ∧
      (s.D = 4 → ∀ t ∈ Icc 0 s.time, YawLimitsHold ic s.polys t) := by
  rcases checkRecursive_spec' rf hrf ic g minSection hm s h hD hT hom hfin fuel with
    e | ⟨_, e⟩ | ⟨r, e, hr⟩
  · rw [e] at hres; simp at hres
  · rw [e] at hres; simp at hres
  · rw [e] at hres
    obtain rfl : r = .feasible := by simpa using hres
    rcases hr with hr | ⟨_, hr⟩ | ⟨hr, _⟩
    · simp at hr
    · exact hr
    · exact absurd rfl hr

/-- **C40** for any number of coefficients. -/
theorem C40_any (rf : RootFinder ℝ) (hrf : Complete rf) (ic : InputConstraints ℝ) (g : Fin 3 → ℝ)
    (minSection : ℝ) (hm : 0 ≤ minSection) (s : Segment ℝ) (h : s.WF) (hD : s.D = 3 ∨ s.D = 4)
    (hT : 0 ≤ s.time) (hom : ∀ l, ic.getConstraint kOmegaXYMax = some l → l < dblMax)
    (hfin : Bounded s.polys s.time) (fuel : ℕ) (r : Verdict)
    (hres : s.checkRecursive rf Real.sqrt ic g minSection fuel = .ok r)
    (hr1 : r ≠ .feasible) (hr2 : r ≠ .indeterminable) :
    r ≠ .rollPitchRates ∧ ∃ t ∈ Icc 0 s.time, Violated ic g s.polys t r := by
  rcases checkRecursive_spec' rf hrf ic g minSection hm s h hD hT hom hfin fuel with
    e | ⟨_, e⟩ | ⟨r', e, hr⟩
  · rw [e] at hres; simp at hres
  · rw [e] at hres; simp at hres
  · rw [e] at hres
    obtain rfl : r' = r := by simpa using hres
    rcases hr with hr | ⟨hr, _⟩ | ⟨_, hr, hr'⟩
    · exact absurd hr hr2
    · exact absurd hr hr1
    · exact ⟨hr, hr'⟩

/-- **C41, partial.** With enough coefficients for the limits that are set and a positive minimum section time, the
recursive check returns a verdict. Missing: polynomials with fewer coefficients, see `C41_short_false`. -/
theorem C41_any_partial (rf : RootFinder ℝ) (hrf : Complete rf) (ic : InputConstraints ℝ) (g : Fin 3 → ℝ)
    (minSection : ℝ) (hm : 0 < minSection) (s : Segment ℝ) (h : s.WF) (hD : s.D = 3 ∨ s.D = 4)
    (hE : Enough ic s.N) (hT : 0 ≤ s.time)
    (hom : ∀ l, ic.getConstraint kOmegaXYMax = some l → l < dblMax) (hfin : Bounded s.polys s.time)
    (n : ℕ) (hn : s.time < minSection * 2 ^ n) :
    ∃ r, ∀ fuel, n < fuel → s.checkRecursive rf Real.sqrt ic g minSection fuel = .ok r := by
  rcases checkRecursive_cases' rf ic g minSection s h hD hE with ⟨h1, _⟩ | ⟨ra, rj, rs, hr, h1⟩
  · exact ⟨_, fun fuel _ => h1 fuel⟩
  obtain ⟨r, hr⟩ := recursive_terminates rf hrf ic g s h (by omega) ra rj rs hr hom minSection hm.le n
    (a := 0) (b := s.time) (by linarith) (bounded_axis hfin)
  obtain ⟨y, ey, _⟩ := yawChecks_any rf hrf ic g s h hT hfin
  by_cases hf : r = .feasible
  · refine ⟨y.getD .feasible, fun fuel hfu => ?_⟩
    rw [h1 fuel, hr fuel hfu, Res.ok_bind, if_neg (by simpa using hf), ey, Res.ok_bind]
    cases y <;> rfl
  · refine ⟨r, fun fuel hfu => ?_⟩
    rw [h1 fuel, hr fuel hfu, Res.ok_bind, if_pos hf]
    rfl

/-- **C41 is false for short polynomials.** Without enough coefficients for the limits that are set, the recursive
check ends the program for every segment of three or four dimensions, provided the root finder does not fail
first. -/
theorem C41_short_false (rf : RootFinder ℝ) (hflag : ∀ c, (rf c).1 = true) (ic : InputConstraints ℝ)
    (g : Fin 3 → ℝ) (minSection : ℝ) (s : Segment ℝ) (h : s.WF) (hD : s.D = 3 ∨ s.D = 4)
    (hE : ¬ Enough ic s.N) (fuel : ℕ) :
    s.checkRecursive rf Real.sqrt ic g minSection fuel = .abort := by
  rcases checkRecursive_short rf ic g minSection s h hD hE with ⟨_, c, hc⟩ | h1
  · rw [hflag c] at hc; simp at hc
  · exact h1 fuel

/-! ### the analytic check -/

/-- **C42, partial,** for any number of coefficients: "feasible" means that thrust, speed and yaw limits hold at every
time of the segment. Missing: the roll and pitch rate limit (`C42_rate_false`, `C42_section_false`). -/
theorem C42_any_limits_partial (rf : RootFinder ℝ) (hrf : Complete rf) (ic : InputConstraints ℝ)
    (g : Fin 3 → ℝ) (minSection : ℝ) (s : Segment ℝ) (h : s.WF) (hD : s.D = 3 ∨ s.D = 4)
    (hT : 0 ≤ s.time) (hfin : Bounded s.polys s.time) (fuel : ℕ)
    (hres : s.checkAnalytic rf Real.sqrt ic g minSection fuel = .ok .feasible) (t : ℝ)
    (ht : t ∈ Icc 0 s.time) :
    (∀ l, ic.getConstraint kFMin = some l → l ≤ thrust g s.polys t) ∧
    (∀ l, ic.getConstraint kFMax = some l → thrust g s.polys t ≤ l) ∧
    (∀ l, ic.getConstraint kVMax = some l → speed s.polys t ≤ l) ∧
    (s.D = 4 → YawLimitsHold ic s.polys t) := by
  rcases checkAnalytic_any rf hrf ic g minSection s h hD hT hfin with
    ⟨_, e⟩ | ⟨v, e, h2, _⟩ | e | ⟨h1, _⟩
  · rw [e] at hres; simp at hres
  · rw [e] at hres
    obtain rfl : v = .feasible := by simpa using hres
    simp at h2
  · rw [e] at hres; simp at hres
  · exact ⟨fun l hl => h1.fMin l hl t ht, fun l hl => h1.fMax l hl t ht, fun l hl => h1.vMax l hl t ht,
      fun h4 => h1.yaw h4 t ht⟩

/-- **C42** for any number of coefficients: a reported violation is genuine. -/
theorem C42_any_genuine (rf : RootFinder ℝ) (hrf : Complete rf) (ic : InputConstraints ℝ)
    (g : Fin 3 → ℝ) (minSection : ℝ) (s : Segment ℝ) (h : s.WF) (hD : s.D = 3 ∨ s.D = 4)
    (hT : 0 ≤ s.time) (hfin : Bounded s.polys s.time) (fuel : ℕ) (r : Verdict)
    (hres : s.checkAnalytic rf Real.sqrt ic g minSection fuel = .ok r)
    (hr1 : r ≠ .feasible) (hr2 : r ≠ .indeterminable) :
    r ≠ .rollPitchRates ∧ ∃ t ∈ Icc 0 s.time, Violated ic g s.polys t r := by
  rcases checkAnalytic_any rf hrf ic g minSection s h hD hT hfin with
    ⟨_, e⟩ | ⟨v, e, h2, h3⟩ | e | ⟨_, ⟨_, e⟩ | ⟨_, tc, jc, e⟩⟩
  · rw [e] at hres; simp at hres
  · rw [e] at hres
    obtain rfl : v = r := by simpa using hres
    exact ⟨by rintro rfl; simp at h2, h3⟩
  · rw [e] at hres
    exact absurd (by simpa using hres.symm) hr2
  · rw [e] at hres
    exact absurd (by simpa using hres.symm) hr1
  · rw [e] at hres
    rcases recursiveRollPitch_range Real.sqrt ic minSection tc jc fuel 0 s.time with e | e | e <;>
      rw [e] at hres
    · simp at hres
    · exact absurd (by simpa using hres.symm) hr1
    · exact absurd (by simpa using hres.symm) hr2

/-- **C42** for any number of coefficients: with enough of them for the limits that are set, the analytic check returns
a verdict. -/
theorem C42_any_terminates (rf : RootFinder ℝ) (hrf : Complete rf) (ic : InputConstraints ℝ)
    (g : Fin 3 → ℝ) (minSection : ℝ) (s : Segment ℝ) (h : s.WF) (hD : s.D = 3 ∨ s.D = 4)
    (hE : EnoughAnalytic ic s.N) (hT : 0 ≤ s.time) (hfin : Bounded s.polys s.time) (n : ℕ)
    (hn : s.time < minSection * 2 ^ n) :
    ∃ r, ∀ fuel, n < fuel → s.checkAnalytic rf Real.sqrt ic g minSection fuel = .ok r := by
  rcases checkAnalytic_any rf hrf ic g minSection s h hD hT hfin with
    ⟨hn', _⟩ | ⟨v, e, _⟩ | e | ⟨_, ⟨_, e⟩ | ⟨_, tc, jc, e⟩⟩
  · exact absurd hE hn'
  · exact ⟨v, fun fuel _ => e fuel⟩
  · exact ⟨_, fun fuel _ => e fuel⟩
  · exact ⟨_, fun fuel _ => e fuel⟩
  · obtain ⟨r, hr⟩ := recursiveRollPitch_terminates Real.sqrt ic minSection tc jc n 0 s.time (by linarith)
    exact ⟨r, fun fuel hf => by rw [e fuel, hr fuel hf]⟩

/-- **C42 is false for short polynomials.** A segment standing still at the origin, its polynomials one constant
coefficient each, is undefined behaviour even when no limit is set; with two coefficients (constant velocity) it is when a
thrust limit is set, and with three (constant acceleration) when a roll and pitch rate limit is. -/
theorem C42_short_false :
    (⟨[⟨[0]⟩, ⟨[0]⟩, ⟨[0]⟩], 1, 1⟩ : Segment ℚ).checkAnalytic (fun _ => (true, [])) id ⟨[]⟩ ![0, 0, 10] 1 9
      = .ub ∧
    (⟨[⟨[0, 1]⟩, ⟨[0, 0]⟩, ⟨[0, 0]⟩], 1, 2⟩ : Segment ℚ).checkAnalytic (fun _ => (true, [])) id
      ⟨[(kFMax, 20)]⟩ ![0, 0, 10] 1 9 = .ub ∧
    (⟨[⟨[0, 1, 2]⟩, ⟨[0, 0, 0]⟩, ⟨[0, 0, 0]⟩], 1, 3⟩ : Segment ℚ).checkAnalytic (fun _ => (true, [])) id
      ⟨[(kOmegaXYMax, 20)]⟩ ![0, 0, 10] 1 9 = .ub := by decide +kernel

/-! ### the hypotheses are met -/

/-- Straight flight along x at 1 m/s for 1 s, with two coefficients. -/
def exStraight : Segment ℝ := ⟨[⟨[0, 1]⟩, ⟨[0, 0]⟩, ⟨[0, 0]⟩, ⟨[0, 1]⟩], 1, 2⟩

theorem exStraight_bounded : Bounded exStraight.polys exStraight.time := by
  have key : ∀ k i t, t ∈ Icc (0 : ℝ) 1 → k ≤ 3 → i < 4 → |axisVal exStraight k i t| < dblMax := by
    intro k i t ht hk hi
    refine lt_of_le_of_lt ?_ dblMax_gt
    have h1 := ht.1
    have h2 := ht.2
    have e : axisVal exStraight k i t = derivAt (exStraight.polys[i]'hi).coeffs k t :=
      axisVal_eq exStraight k i t hi
    have ha : |t| ≤ 1 := by rw [abs_of_nonneg h1]; exact h2
    rw [e, derivAt_eq_sum]
    interval_cases k <;> interval_cases i <;> norm_num [exStraight, Finset.sum_range_succ] <;> linarith
  exact ⟨fun k hk i t ht => key k i t ht hk (by omega), fun k hk t ht => key k 3 t ht (by omega) (by omega)⟩

example : ∃ rf : RootFinder ℝ, Complete rf ∧ exStraight.WF ∧ exStraight.D = 4 ∧ 0 ≤ exStraight.time ∧
    Bounded exStraight.polys exStraight.time ∧ exStraight.time < (1 / 10) * 2 ^ 4 ∧
    Enough ⟨[(kVMax, 2)]⟩ exStraight.N ∧ EnoughAnalytic ⟨[(kVMax, 2)]⟩ exStraight.N ∧
    ¬ Enough ⟨[(kFMax, 20)]⟩ exStraight.N := by
  obtain ⟨rf, hrf⟩ := complete_rootFinder_exists
  refine ⟨rf, hrf, ⟨by simp [exStraight, Poly.N], by simp [exStraight]⟩, rfl, by simp [exStraight],
    exStraight_bounded, by norm_num [exStraight], ?_, ?_, ?_⟩
  · constructor <;> simp [exStraight, InputConstraints.hasConstraint, mapFind, kVMax, kFMin, kFMax, kOmegaXYMax]
  · constructor <;> simp [exStraight, InputConstraints.hasConstraint, mapFind, kVMax, kFMin, kFMax, kOmegaXYMax]
  · intro h
    have := h.thrust (by simp [InputConstraints.hasConstraint, mapFind, kFMax])
    simp [exStraight] at this

/-- The same flight in the rationals: a verdict for a speed limit, the end of the program for a thrust limit. -/
example :
    let s : Segment ℚ := ⟨[⟨[0, 1]⟩, ⟨[0, 0]⟩, ⟨[0, 0]⟩, ⟨[0, 1]⟩], 1, 2⟩
    let run := fun ic => s.checkRecursive (fun _ => (true, [])) sqTable ic ![0, 0, 10] (1 / 10) 5
    run ⟨[(kVMax, 2)]⟩ = .ok .feasible ∧ run ⟨[(kVMax, 1 / 2)]⟩ = .ok .velocity ∧
    run ⟨[(kFMax, 20)]⟩ = .abort := by decide +kernel

end Verif
