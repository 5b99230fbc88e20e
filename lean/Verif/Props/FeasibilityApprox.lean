import Verif.Proofs.FeasibilityApprox
import Verif.Props.ApproxRoots
import Verif.Props.FeasibilityAnalytic
import Verif.Props.HalfPlane

/-
Property C104: feasibility verdicts and the accuracy of the root finder.

C39 to C43 assume a root finder that returns all real roots exactly. Here: verdicts of infeasibility and
termination do not depend on the root finder at all, and with a root finder of accuracy `ε`
(`Spec.Approx ε rf`) "feasible" means that the limits hold up to an error that goes to zero with `ε`.
-/
namespace Verif

open Polynomial Spec Set

/-! ### C104 feasibility with a root finder of limited accuracy -/

/-- **C104 (infeasible).** Whatever the root finder returns: if the recursive check calls a segment infeasible
for some reason, there is a time at which the named limit is violated. -/
theorem C104_genuine (rf : RootFinder ℝ) (ic : InputConstraints ℝ) (g : Fin 3 → ℝ)
    (minSection : ℝ) (hm : 0 ≤ minSection) (s : Segment ℝ) (h : s.WF) (hD : s.D = 3 ∨ s.D = 4)
    (hN : 4 ≤ s.N) (hT : 0 ≤ s.time)
    (hom : ∀ l, ic.getConstraint kOmegaXYMax = some l → l < dblMax) (hfin : Bounded s.polys s.time)
    (fuel : ℕ) (r : Verdict) (hres : s.checkRecursive rf Real.sqrt ic g minSection fuel = .ok r)
    (hr1 : r ≠ .feasible) (hr2 : r ≠ .indeterminable) :
    r ≠ .rollPitchRates ∧ ∃ t ∈ Icc 0 s.time, Violated ic g s.polys t r := by
  rcases checkRecursive_near rf 0 (fun _ => 0) ic g minSection hm s h hD hN hT hom hfin fuel with
    e | ⟨r', e, hr⟩
  · rw [e] at hres; simp at hres
  · rw [e] at hres
    obtain rfl : r' = r := by simpa using hres
    rcases hr with hr | ⟨hr, _⟩ | ⟨_, hr, hr'⟩
    · exact absurd hr hr2
    · exact absurd hr hr1
    · exact ⟨hr, hr'⟩

/-- **C104 (termination).** Whatever the root finder returns: with a positive minimum section time the
recursive check returns a verdict, within the same depth as in C41. -/
theorem C104_terminates (rf : RootFinder ℝ) (ic : InputConstraints ℝ) (g : Fin 3 → ℝ)
    (minSection : ℝ) (hm : 0 < minSection) (s : Segment ℝ) (h : s.WF) (hD : s.D = 3 ∨ s.D = 4)
    (hN : 4 ≤ s.N) (hT : 0 ≤ s.time)
    (hom : ∀ l, ic.getConstraint kOmegaXYMax = some l → l < dblMax) (hfin : Bounded s.polys s.time)
    (n : ℕ) (hn : s.time < minSection * 2 ^ n) :
    ∃ r, ∀ fuel, n < fuel → s.checkRecursive rf Real.sqrt ic g minSection fuel = .ok r := by
  rcases checkRecursive_cases rf ic g minSection s h hD hN with ⟨h1, _⟩ | ⟨ra, rj, rs, hr, h1⟩
  · exact ⟨_, fun fuel _ => h1 fuel⟩
  obtain ⟨r, hr⟩ := recursive_terminates_any rf ic g s h (by omega) ra rj rs hr hom minSection
    hm.le (bounded_axis hfin) n (a := 0) (b := s.time) (by linarith) le_rfl
  obtain ⟨y, ey, _⟩ := yawChecks_near rf 0 (fun _ => 0) ic g s h hT (by omega) hfin
  by_cases hf : r = .feasible
  · refine ⟨y.getD .feasible, fun fuel hfu => ?_⟩
    rw [h1 fuel, hr fuel hfu, Res.ok_bind, if_neg (by simpa using hf), ey, Res.ok_bind]
    cases y <;> rfl
  · refine ⟨r, fun fuel hfu => ?_⟩
    rw [h1 fuel, hr fuel hfu, Res.ok_bind, if_pos hf]
    rfl

/-- **C104 (feasible).** With a root finder of accuracy `ε`, if the recursive check calls a segment feasible,
speed, thrust and jerk / thrust are within their limits at every time up to errors of `√3 B ε²`, and the yaw
rates up to `B ε²`, where `B` bounds the second derivative of the quantity: `B 3` the jerk, `B 4` the snap
and `B 5` the derivative after it, of every coordinate. -/
theorem C104_sound (rf : RootFinder ℝ) {ε : ℝ} (hε : 0 ≤ ε) (hrf : Approx ε rf) (ic : InputConstraints ℝ)
    (g : Fin 3 → ℝ) (minSection : ℝ) (hm : 0 ≤ minSection) (s : Segment ℝ) (h : s.WF)
    (hD : s.D = 3 ∨ s.D = 4) (hN : 4 ≤ s.N) (hT : 0 ≤ s.time)
    (hom : ∀ l, ic.getConstraint kOmegaXYMax = some l → l < dblMax) (hfin : Bounded s.polys s.time)
    (B : ℕ → ℝ) (hB : DerivativesBelow B s.polys s.time)
    (fuel : ℕ) (hres : s.checkRecursive rf Real.sqrt ic g minSection fuel = .ok .feasible) :
    (∀ t ∈ Icc 0 s.time, LimitsNear (fun k => Real.sqrt 3 * (B (k + 2) * ε ^ 2)) ic g s.polys t) ∧
      (s.D = 4 → ∀ t ∈ Icc 0 s.time, YawLimitsNear (fun k => B (k + 2) * ε ^ 2) ic s.polys t) := by
  rcases checkRecursive_near rf ε B ic g minSection hm s h hD hN hT hom hfin fuel with
    e | ⟨r, e, hr⟩
  · rw [e] at hres; simp at hres
  · rw [e] at hres
    obtain rfl : r = .feasible := by simpa using hres
    rcases hr with hr | ⟨_, hr⟩ | ⟨hr, _⟩
    · simp at hr
    · exact hr ⟨hε, hrf, hB⟩
    · exact absurd rfl hr

/-- **C104 (feasible, no error).** A root finder of accuracy 0 - it may miss the roots where the sign does not
change and return anything else besides - is enough for the statement of C39. -/
theorem C104_sound_zero (rf : RootFinder ℝ) (hrf : Approx 0 rf) (ic : InputConstraints ℝ)
    (g : Fin 3 → ℝ) (minSection : ℝ) (hm : 0 ≤ minSection) (s : Segment ℝ) (h : s.WF)
    (hD : s.D = 3 ∨ s.D = 4) (hN : 4 ≤ s.N) (hT : 0 ≤ s.time)
    (hom : ∀ l, ic.getConstraint kOmegaXYMax = some l → l < dblMax) (hfin : Bounded s.polys s.time)
    (B : ℕ → ℝ) (hB : DerivativesBelow B s.polys s.time)
    (fuel : ℕ) (hres : s.checkRecursive rf Real.sqrt ic g minSection fuel = .ok .feasible) :
    (∀ t ∈ Icc 0 s.time, LimitsHold ic g s.polys t) ∧
      (s.D = 4 → ∀ t ∈ Icc 0 s.time, YawLimitsHold ic s.polys t) := by
  obtain ⟨h1, h2⟩ := C104_sound rf le_rfl hrf ic g minSection hm s h hD hN hT hom hfin B hB fuel hres
  constructor
  · intro t ht
    obtain ⟨q1, q2, q3, q4⟩ := h1 t ht
    norm_num at q1 q2 q3 q4
    refine ⟨q1, q2, q3, fun l hl => ⟨(q4 l hl).1, ?_⟩⟩
    rw [div_le_iff₀ (q4 l hl).1]
    exact (q4 l hl).2
  · intro h4 t ht
    obtain ⟨q1, q2⟩ := h2 h4 t ht
    norm_num at q1 q2
    exact ⟨q1, q2⟩

/-- **C104 (half planes).** Whatever the root finder returns: if the half plane check returns false, the
position leaves one of the half planes. With a root finder of accuracy `ε`, if it returns true, the position is
nowhere further than `B ε²` (times the length of the normal) on the wrong side, where `B` bounds the
acceleration along the normal. -/
theorem C104_half_planes (rf : RootFinder ℝ) (s : Segment ℝ) (h : s.WF)
    (hD : s.D = 3 ∨ s.D = 4) (hN : 1 ≤ s.N) (hT : 0 ≤ s.time) (hps : List (HalfPlane ℝ)) :
    ∃ b, s.checkHalfPlanes rf hps = .ok b ∧
      (b = false → ∃ hp ∈ hps, ∃ t ∈ Icc 0 s.time, ¬ Inside hp (vec3 s.polys 0 t)) ∧
      (b = true → ∀ ε, 0 ≤ ε → Approx ε rf → ∀ hp ∈ hps, ∀ B,
        (∀ t ∈ Icc 0 s.time, |∑ i, hp.normal i * vec3 s.polys 2 t i| ≤ B) → ∀ t ∈ Icc 0 s.time,
          -(B * ε ^ 2) < ∑ i, (vec3 s.polys 0 t i - hp.point i) * hp.normal i) := by
  obtain ⟨b, hb, h1, _⟩ := halfPlaneLoop_near rf 0 s h (by omega) hN hT hps
  refine ⟨b, ?_, h1, ?_⟩
  · unfold Segment.checkHalfPlanes
    rw [if_pos hD, hb]
  · intro hbt ε hε hrf
    obtain ⟨b', hb', _, h3⟩ := halfPlaneLoop_near rf ε s h (by omega) hN hT hps
    rw [hb] at hb'
    obtain rfl : b = b' := by simpa using hb'
    exact h3 hbt hε hrf

/-- **C104 (analytic, infeasible).** Whatever the root finder returns: if the analytic check calls a segment
infeasible for some reason, there is a time at which the named limit is violated. -/
theorem C104_analytic_genuine (rf : RootFinder ℝ) (ic : InputConstraints ℝ)
    (g : Fin 3 → ℝ) (minSection : ℝ) (s : Segment ℝ) (h : s.WF) (hD : s.D = 3 ∨ s.D = 4) (hN : 4 ≤ s.N)
    (hT : 0 ≤ s.time) (hfin : Bounded s.polys s.time) (fuel : ℕ) (r : Verdict)
    (hres : s.checkAnalytic rf Real.sqrt ic g minSection fuel = .ok r)
    (hr1 : r ≠ .feasible) (hr2 : r ≠ .indeterminable) :
    r ≠ .rollPitchRates ∧ ∃ t ∈ Icc 0 s.time, Violated ic g s.polys t r := by
  rcases checkAnalytic_near rf 0 (fun _ => 0) (fun _ => 0) ic g minSection s h hD hN hT hfin with
    ⟨v, h1, h2, h3⟩ | ⟨_, _, h1 | ⟨tc, jc, h1⟩⟩
  · rw [h1] at hres
    obtain rfl : v = r := by simpa using hres
    exact ⟨by rintro rfl; simp at h2, h3⟩
  · rw [h1] at hres
    exact absurd (by simpa using hres.symm) hr1
  · rw [h1] at hres
    rcases recursiveRollPitch_range Real.sqrt ic minSection tc jc fuel 0 s.time with e | e | e <;>
      rw [e] at hres
    · simp at hres
    · exact absurd (by simpa using hres.symm) hr1
    · exact absurd (by simpa using hres.symm) hr2

/-- **C104 (analytic, termination).** Whatever the root finder returns, the analytic check returns a verdict. -/
theorem C104_analytic_terminates (rf : RootFinder ℝ) (ic : InputConstraints ℝ)
    (g : Fin 3 → ℝ) (minSection : ℝ) (s : Segment ℝ) (h : s.WF) (hD : s.D = 3 ∨ s.D = 4) (hN : 4 ≤ s.N)
    (hT : 0 ≤ s.time) (hfin : Bounded s.polys s.time) (n : ℕ) (hn : s.time < minSection * 2 ^ n) :
    ∃ r, ∀ fuel, n < fuel → s.checkAnalytic rf Real.sqrt ic g minSection fuel = .ok r := by
  rcases checkAnalytic_near rf 0 (fun _ => 0) (fun _ => 0) ic g minSection s h hD hN hT hfin with
    ⟨v, h1, h2, h3⟩ | ⟨_, _, h1 | ⟨tc, jc, h1⟩⟩
  · exact ⟨v, fun fuel _ => h1 fuel⟩
  · exact ⟨_, fun fuel _ => h1 fuel⟩
  · obtain ⟨r, hr⟩ := recursiveRollPitch_terminates Real.sqrt ic minSection tc jc n 0 s.time (by linarith)
    exact ⟨r, fun fuel hf => by rw [h1 fuel, hr fuel hf]⟩

/-- **C104 (analytic, feasible).** With a root finder of accuracy `ε`, if the analytic check calls a segment
feasible, the thrust is within its limits up to `J ε` and the speed up to `A ε`, where `J` bounds the jerk and
`A` the acceleration, and the yaw rates up to `B ε²`. (The limit on roll and pitch rates is not established
by this check, see C42.) -/
theorem C104_analytic (rf : RootFinder ℝ) {ε : ℝ} (hε : 0 ≤ ε) (hrf : Approx ε rf) (ic : InputConstraints ℝ)
    (g : Fin 3 → ℝ) (minSection : ℝ) (s : Segment ℝ) (h : s.WF) (hD : s.D = 3 ∨ s.D = 4) (hN : 4 ≤ s.N)
    (hT : 0 ≤ s.time) (hfin : Bounded s.polys s.time) (A J : ℝ)
    (hA : ∀ t ∈ Icc 0 s.time, Real.sqrt (∑ i, vec3 s.polys 2 t i ^ 2) ≤ A)
    (hJ : ∀ t ∈ Icc 0 s.time, jerk s.polys t ≤ J)
    (B : ℕ → ℝ) (hB : DerivativesBelow B s.polys s.time) (fuel : ℕ)
    (hres : s.checkAnalytic rf Real.sqrt ic g minSection fuel = .ok .feasible) (t : ℝ)
    (ht : t ∈ Icc 0 s.time) :
    (∀ l, ic.getConstraint kFMin = some l → l ≤ thrust g s.polys t + J * ε) ∧
    (∀ l, ic.getConstraint kFMax = some l → thrust g s.polys t ≤ l + J * ε) ∧
    (∀ l, ic.getConstraint kVMax = some l → speed s.polys t ≤ l + A * ε) ∧
    (s.D = 4 → YawLimitsNear (fun k => B (k + 2) * ε ^ 2) ic s.polys t) := by
  rcases checkAnalytic_near rf ε (fun k => if k = 2 then A else J) B ic g minSection s h hD hN hT hfin with
    ⟨v, h1, h2, _⟩ | ⟨h1, h2, _⟩
  · rw [h1] at hres
    obtain rfl : v = .feasible := by simpa using hres
    simp at h2
  · obtain ⟨q1, q2, q3⟩ := h1 ⟨hε, hrf, fun t ht => by
      have := hA t ht
      simp only [if_true]
      refine le_trans (le_of_eq ?_) this
      unfold magnitude
      simp only [List.map_cons, List.map_nil, List.sum_cons, List.sum_nil, Fin.sum_univ_three, add_zero]
      congr 1
      rw [add_assoc]
      rfl, fun t ht => by simpa using hJ t ht⟩ t ht
    exact ⟨by simpa using q1, by simpa using q2, by simpa using q3, fun h4 => h2 ⟨hε, hrf, hB⟩ h4 t ht⟩

/-! ### the hypotheses are met -/

theorem exCruise_below : DerivativesBelow (fun _ => 1) exCruise.polys exCruise.time := by
  intro k hk t ht v hv
  have h1 := ht.1
  have h2 : t ≤ 1 := ht.2
  have ha : |t| ≤ 1 := by rw [abs_of_nonneg h1]; exact h2
  unfold valuesAt at hv
  rw [List.mem_map] at hv
  obtain ⟨p, hp, rfl⟩ := hv
  simp only [exCruise, List.mem_cons, List.not_mem_nil, or_false] at hp
  rw [iteratedDeriv_curve, derivAt_eq_sum]
  rcases hp with rfl | rfl | rfl | rfl <;> interval_cases k <;>
    norm_num [Finset.sum_range_succ, Nat.descFactorial] <;> linarith

/-- A root finder that is off by a billionth, and the straight flight of `exCruise`. -/
example : Approx (1 / 10 ^ 9) (shifted (1 / 10 ^ 9)) ∧ exCruise.WF ∧ exCruise.D = 4 ∧ 4 ≤ exCruise.N ∧
    0 ≤ exCruise.time ∧ Bounded exCruise.polys exCruise.time ∧
    DerivativesBelow (fun _ => 1) exCruise.polys exCruise.time :=
  ⟨shifted_approx (by norm_num), exCruise_wf, rfl, by simp [exCruise], by simp [exCruise], exCruise_bounded,
    exCruise_below⟩

/-- A complete root finder has accuracy 0. -/
example : ∃ rf : RootFinder ℝ, Approx 0 rf :=
  let ⟨rf, hrf⟩ := complete_rootFinder_exists
  ⟨rf, complete_approx hrf le_rfl⟩

/-- Without any accuracy "feasible" means nothing between the ends of the section: a flight starting and ending
at rest, with speed 1 in the middle, is called feasible for the speed limit 1 / 2 by a root finder that
returns nothing; with the roots it is not. -/
example :
    let s : Segment ℚ := ⟨[⟨[0, 0, 2, -4 / 3]⟩, ⟨[0, 0, 0, 0]⟩, ⟨[0, 0, 0, 0]⟩], 1, 4⟩
    s.checkRecursive (fun _ => (true, [])) (fun x => x) ⟨[(2, 1 / 2)]⟩ ![0, 0, 10] (1 / 10) 5 = .ok .feasible ∧
    s.checkRecursive (fun _ => (true, [(1 / 2, 0)])) (fun x => x) ⟨[(2, 1 / 2)]⟩ ![0, 0, 10] (1 / 10) 5 =
      .ok .velocity := by decide +kernel

end Verif
