import Mathlib.Tactic.IntervalCases
import Verif.Proofs.FeasibilityRecursive
import Verif.Props.Polynomial

/-
Properties C39, C40 and C41: the recursive feasibility check.

`Spec.thrust g ps t`, `Spec.speed ps t`, `Spec.jerk ps t`, `Spec.yaw ps k t` are the physical quantities at
time `t`; `Spec.LimitsHold` and `Spec.YawLimitsHold` say that they are within the limits, and
`Spec.Violated ic g ps t r` that the limit named by the verdict `r` is violated. `fuel` is the number of
nested calls the recursion may use; running out of it is the outcome `hang`.
-/
namespace Verif

open Polynomial Spec Set

/-! ### C39 no false positives -/

/-- **C39.** If the recursive check returns "feasible", all limits hold at every time of the segment. (The
root finder returns all real roots; the polynomials have at least four coefficients; values are below the
largest double.) -/
theorem C39_sound (rf : RootFinder ℝ) (hrf : Complete rf) (ic : InputConstraints ℝ) (g : Fin 3 → ℝ)
    (minSection : ℝ) (hm : 0 ≤ minSection) (s : Segment ℝ) (h : s.WF) (hD : s.D = 3 ∨ s.D = 4)
    (hN : 4 ≤ s.N) (hT : 0 ≤ s.time)
    (hom : ∀ l, ic.getConstraint kOmegaXYMax = some l → l < dblMax) (hfin : Bounded s.polys s.time)
    (fuel : ℕ) (hres : s.checkRecursive rf Real.sqrt ic g minSection fuel = .ok .feasible) :
    (∀ t ∈ Icc 0 s.time, LimitsHold ic g s.polys t) ∧
      (s.D = 4 → ∀ t ∈ Icc 0 s.time, YawLimitsHold ic s.polys t) := by
  rcases checkRecursive_spec rf hrf ic g minSection hm s h hD hN hT hom hfin fuel with
    e | ⟨r, e, hr⟩
  · rw [e] at hres; simp at hres
  · rw [e] at hres
    obtain rfl : r = .feasible := by simpa using hres
    rcases hr with hr | ⟨_, hr⟩ | ⟨hr, _⟩
    · simp at hr
    · exact hr
    · exact absurd rfl hr

/-- **C39.** A segment that is neither three- nor four-dimensional is never called feasible. -/
theorem C39_dimension (rf : RootFinder ℝ) (ic : InputConstraints ℝ) (g : Fin 3 → ℝ) (minSection : ℝ)
    (s : Segment ℝ) (hD : ¬ (s.D = 3 ∨ s.D = 4)) (fuel : ℕ) :
    s.checkRecursive rf Real.sqrt ic g minSection fuel = .ok .indeterminable := by
  unfold Segment.checkRecursive
  rw [if_neg hD]

/-! ### C40 no false negatives -/

/-- **C40.** If the recursive check returns "infeasible" for some reason, there is a time of the segment at
which the named limit is violated. -/
theorem C40_genuine (rf : RootFinder ℝ) (hrf : Complete rf) (ic : InputConstraints ℝ) (g : Fin 3 → ℝ)
    (minSection : ℝ) (hm : 0 ≤ minSection) (s : Segment ℝ) (h : s.WF) (hD : s.D = 3 ∨ s.D = 4)
    (hN : 4 ≤ s.N) (hT : 0 ≤ s.time)
    (hom : ∀ l, ic.getConstraint kOmegaXYMax = some l → l < dblMax) (hfin : Bounded s.polys s.time)
    (fuel : ℕ) (r : Verdict) (hres : s.checkRecursive rf Real.sqrt ic g minSection fuel = .ok r)
    (hr1 : r ≠ .feasible) (hr2 : r ≠ .indeterminable) :
    r ≠ .rollPitchRates ∧ ∃ t ∈ Icc 0 s.time, Violated ic g s.polys t r := by
  rcases checkRecursive_spec rf hrf ic g minSection hm s h hD hN hT hom hfin fuel with
    e | ⟨r', e, hr⟩
  · rw [e] at hres; simp at hres
  · rw [e] at hres
    obtain rfl : r' = r := by simpa using hres
    rcases hr with hr | ⟨hr, _⟩ | ⟨_, hr, hr'⟩
    · exact absurd hr hr2
    · exact absurd hr hr1
    · exact ⟨hr, hr'⟩

/-! ### C41 termination -/

/-- **C41.** With a positive minimum section time, `n` nested halvings are enough when
`duration < minSection * 2^n`: the check returns a verdict, the same for every larger depth allowed. -/
theorem C41_terminates (rf : RootFinder ℝ) (hrf : Complete rf) (ic : InputConstraints ℝ) (g : Fin 3 → ℝ)
    (minSection : ℝ) (hm : 0 < minSection) (s : Segment ℝ) (h : s.WF) (hD : s.D = 3 ∨ s.D = 4)
    (hN : 4 ≤ s.N) (hT : 0 ≤ s.time)
    (hom : ∀ l, ic.getConstraint kOmegaXYMax = some l → l < dblMax) (hfin : Bounded s.polys s.time)
    (n : ℕ) (hn : s.time < minSection * 2 ^ n) :
    ∃ r, ∀ fuel, n < fuel → s.checkRecursive rf Real.sqrt ic g minSection fuel = .ok r := by
  rcases checkRecursive_cases rf ic g minSection s h hD hN with ⟨h1, _⟩ | ⟨ra, rj, rs, hr, h1⟩
  · exact ⟨_, fun fuel _ => h1 fuel⟩
  obtain ⟨r, hr⟩ := recursive_terminates rf hrf ic g s h (by omega) ra rj rs hr hom minSection hm.le n
    (a := 0) (b := s.time) (by linarith) (bounded_axis hfin)
  obtain ⟨y, ey, _⟩ := yawChecks_ok rf hrf ic g s h hT (by omega) hfin
  by_cases hf : r = .feasible
  · refine ⟨y.getD .feasible, fun fuel hfu => ?_⟩
    rw [h1 fuel, hr fuel hfu, Res.ok_bind, if_neg (by simpa using hf), ey, Res.ok_bind]
    cases y <;> rfl
  · refine ⟨r, fun fuel hfu => ?_⟩
    rw [h1 fuel, hr fuel hfu, Res.ok_bind, if_pos hf]
    rfl

/-- **C41.** For every positive minimum section time and every duration there is such a depth. -/
theorem C41_depth (minSection T : ℝ) (hm : 0 < minSection) : ∃ n : ℕ, T < minSection * 2 ^ n := by
  obtain ⟨n, hn⟩ := pow_unbounded_of_one_lt (T / minSection) (by norm_num : (1 : ℝ) < 2)
  exact ⟨n, by rw [mul_comm]; exact (div_lt_iff₀ hm).mp hn⟩

/-- **C41 needs a positive minimum section time.** With a minimum section time of 0 and only a roll and
pitch rate limit, a segment that starts in free fall (zero thrust at time 0) is halved for ever. -/
theorem C41_zero_section_hangs (rf : RootFinder ℝ) (hrf : Complete rf) (hflag : ∀ c, (rf c).1 = true)
    (l : ℝ) (hl : l < dblMax) (g : Fin 3 → ℝ) (s : Segment ℝ) (h : s.WF) (hD : s.D = 3 ∨ s.D = 4)
    (hN : 4 ≤ s.N) (hT : 0 ≤ s.time) (hfin : Bounded s.polys s.time) (hfall : thrust g s.polys 0 = 0)
    (fuel : ℕ) :
    s.checkRecursive rf Real.sqrt ⟨[(kOmegaXYMax, l)]⟩ g 0 fuel = .hang := by
  rcases checkRecursive_cases rf ⟨[(kOmegaXYMax, l)]⟩ g 0 s h hD hN with
    ⟨_, c, hc⟩ | ⟨ra, rj, rs, hr, h1⟩
  · rw [hflag c] at hc; simp at hc
  rw [h1 fuel]
  have hsec : ∀ b, 0 ≤ b → b ≤ s.time →
      sectionCheck Real.sqrt ⟨[(kOmegaXYMax, l)]⟩ g s ra rj rs 0 b = .ok none := by
    intro b hb hbT
    have hfin' : ∀ k ≤ 3, ∀ i < 3, ∀ t ∈ Icc 0 b, |axisVal s k i t| < dblMax :=
      fun k hk i hi t ht => bounded_axis hfin k hk i hi t ⟨ht.1, le_trans ht.2 hbT⟩
    obtain ⟨r, hr1, hr2⟩ := sectionCheck_ok rf hrf ⟨[(kOmegaXYMax, l)]⟩ g s h (by omega) ra rj rs hr
      (by
        intro l' hl'
        obtain rfl : l = l' := by simpa [InputConstraints.getConstraint, mapFind] using hl'
        exact hl) hb hfin'
    rw [hr1]
    cases r with
    | none => rfl
    | some v =>
      exfalso
      rcases hr2 v rfl with ⟨_, hv⟩ | ⟨hv, t, _, hvi⟩
      · have := ((hv 0 ⟨le_refl 0, hb⟩).omegaXY l (by simp [InputConstraints.getConstraint, mapFind])).1
        rw [hfall] at this
        exact lt_irrefl _ this
      · rcases hv with rfl | rfl | rfl <;>
          simp [Violated, InputConstraints.getConstraint, mapFind, kFMax, kFMin, kVMax, kOmegaXYMax] at hvi
  have hrec : ∀ fuel b, 0 ≤ b → b ≤ s.time →
      recursiveFeasibility Real.sqrt ⟨[(kOmegaXYMax, l)]⟩ g 0 s ra rj rs fuel 0 b = .hang := by
    intro fuel
    induction fuel with
    | zero => intro b _ _; rfl
    | succ fuel ih =>
      intro b hb hbT
      rw [recursiveFeasibility_succ, if_neg (by linarith), hsec b hb hbT, Res.ok_bind]
      simp only
      rw [ih ((0 + b) / 2) (by linarith) (by linarith)]
      rfl
  rw [hrec fuel s.time hT le_rfl]
  rfl

/-! ### the hypotheses are met -/

/-- Straight flight along x at 1 m/s for 1 s. -/
def exCruise : Segment ℝ := ⟨[⟨[0, 1, 0, 0]⟩, ⟨[0, 0, 0, 0]⟩, ⟨[0, 0, 0, 0]⟩, ⟨[0, 1, 0, 0]⟩], 1, 4⟩

theorem exCruise_wf : exCruise.WF := ⟨by simp [exCruise, Poly.N], by simp [exCruise]⟩

theorem exCruise_bounded : Bounded exCruise.polys exCruise.time := by
  have key : ∀ k i t, t ∈ Icc (0 : ℝ) 1 → k ≤ 3 → i < 4 → |axisVal exCruise k i t| < dblMax := by
    intro k i t ht hk hi
    refine lt_of_le_of_lt ?_ dblMax_gt
    have h1 := ht.1
    have h2 := ht.2
    have e : axisVal exCruise k i t = derivAt (exCruise.polys[i]'hi).coeffs k t := axisVal_eq exCruise k i t hi
    have ha : |t| ≤ 1 := by rw [abs_of_nonneg h1]; exact h2
    rw [e, derivAt_eq_sum]
    interval_cases k <;> interval_cases i <;> norm_num [exCruise, Finset.sum_range_succ] <;> linarith
  exact ⟨fun k hk i t ht => key k i t ht hk (by omega), fun k hk t ht => key k 3 t ht (by omega) (by omega)⟩

example : ∃ rf : RootFinder ℝ, Complete rf ∧ exCruise.WF ∧ exCruise.D = 4 ∧ 4 ≤ exCruise.N ∧
    0 ≤ exCruise.time ∧ Bounded exCruise.polys exCruise.time ∧
    exCruise.time < (1 / 10) * 2 ^ 4 := by
  obtain ⟨rf, hrf⟩ := complete_rootFinder_exists
  exact ⟨rf, hrf, exCruise_wf, rfl, by simp [exCruise], by simp [exCruise], exCruise_bounded,
    by norm_num [exCruise]⟩

/-- One second of hovering, with gravity 0 (the zero-thrust case of `C41_zero_section_hangs`). -/
example : ∃ rf : RootFinder ℝ, Complete rf ∧ (∀ c, (rf c).1 = true) ∧
    thrust (fun _ => 0) exCruise.polys 0 = 0 := by
  classical
  refine ⟨fun c => (true, (ofCoeffs c).roots.toList.map fun x => (x, 0)), ?_, fun _ => rfl, ?_⟩
  · intro c hc x hx
    simp only [List.mem_map, Prod.mk.injEq, and_true, exists_eq_right, Multiset.mem_toList]
    exact (mem_roots hc).mpr hx
  · rw [thrust_eq]
    have e : ∀ i (hi : i < 4), axisVal exCruise 2 i 0 = derivAt (exCruise.polys[i]'hi).coeffs 2 0 :=
      fun i hi => axisVal_eq exCruise 2 i 0 hi
    have h0 := e 0 (by omega)
    have h1 := e 1 (by omega)
    have h2 := e 2 (by omega)
    rw [derivAt_eq_sum] at h0 h1 h2
    norm_num [exCruise, Finset.sum_range_succ] at h0 h1 h2
    simp [h0, h1, h2, exCruise]

/-- Exact square roots of the squares of small integers. -/
def sqTable (x : ℚ) : ℚ := if x = 1 then 1 else if x = 100 then 10 else if x = 4 then 2 else 0

/-- The same flight in the rationals, gravity 10. Within the limits; then each limit is made too tight in
turn. -/
example :
    let s : Segment ℚ := ⟨[⟨[0, 1, 0, 0]⟩, ⟨[0, 0, 0, 0]⟩, ⟨[0, 0, 0, 0]⟩, ⟨[0, 1, 0, 0]⟩], 1, 4⟩
    let run := fun ic => s.checkRecursive (fun _ => (true, [])) sqTable ic ![0, 0, 10] (1 / 10) 5
    run ⟨[(0, 5), (1, 15), (2, 3), (3, 2), (4, 2), (5, 6)]⟩ = .ok .feasible ∧
    run ⟨[(0, 11), (1, 15), (2, 3), (3, 2), (4, 2), (5, 6)]⟩ = .ok .thrustLow ∧
    run ⟨[(0, 5), (1, 9), (2, 3), (3, 2), (4, 2), (5, 6)]⟩ = .ok .thrustHigh ∧
    run ⟨[(0, 5), (1, 15), (2, 1 / 2), (3, 2), (4, 2), (5, 6)]⟩ = .ok .velocity ∧
    run ⟨[(0, 5), (1, 15), (2, 3), (3, 2), (4, 1 / 2), (5, 6)]⟩ = .ok .yawRates := by decide +kernel

/-- Free fall for 1 s in the rationals: undecided with a positive section time, out of fuel with 0. -/
example :
    let s : Segment ℚ := ⟨[⟨[0, 0, 0, 0]⟩, ⟨[0, 0, 0, 0]⟩, ⟨[0, 0, -5, 0]⟩], 1, 4⟩
    s.checkRecursive (fun _ => (true, [])) sqTable ⟨[(3, 2)]⟩ ![0, 0, 10] (1 / 10) 5 = .ok .indeterminable ∧
    s.checkRecursive (fun _ => (true, [])) sqTable ⟨[(3, 2)]⟩ ![0, 0, 10] 0 5 = .hang := by decide +kernel

end Verif
