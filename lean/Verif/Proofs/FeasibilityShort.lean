import Verif.Proofs.FeasibilityAnalytic
import Verif.Spec.FeasibilityShort

/- The recursive feasibility check for polynomials with few coefficients. -/
namespace Verif

open Polynomial Spec Set

set_option linter.unusedSectionVars false

theorem roots_if' (rf : RootFinder ℝ) (s : Segment ℝ) (h : s.WF) (hD : 3 ≤ s.D) (k : ℕ)
    (hk2 : k < 22) (c : Prop) [Decidable c] (hk : c → k ≤ s.N) :
    ((if c then rootsLoop rf s k [0, 1, 2] [] else .ok (some [])) = .ok none ∧ ∃ c, (rf c).1 = false) ∨
      ∃ roots, (if c then rootsLoop rf s k [0, 1, 2] [] else .ok (some [])) = .ok (some roots) ∧
        (c → RootsFor rf s k roots) := by
  by_cases hc : c
  · exact roots_if rf s h hD k (hk hc) hk2 c
  · rw [if_neg hc]
    exact Or.inr ⟨[], rfl, fun h => absurd h hc⟩

theorem rootsLoop_short (rf : RootFinder ℝ) (s : Segment ℝ) (h : s.WF) (hD : 3 ≤ s.D) (k : ℕ)
    (hk : s.N < k) : rootsLoop rf s k [0, 1, 2] [] = .abort := by
  have h0 : 0 < s.D := by omega
  have hN : (s.polys[0]'h0).N = s.N := h.polysN _ (List.getElem_mem _)
  rw [rootsLoop_cons, segment_get_ok s 0 h0, Res.ok_bind]
  unfold Poly.getRoots Poly.getCoefficients
  rw [Res.check_of_not (by rw [hN]; omega)]
  rfl

theorem checkRecursive_cases' (rf : RootFinder ℝ) (ic : InputConstraints ℝ) (g : Fin 3 → ℝ) (m : ℝ)
    (s : Segment ℝ) (h : s.WF) (hD : s.D = 3 ∨ s.D = 4) (hE : Enough ic s.N) :
    ((∀ fuel, s.checkRecursive rf Real.sqrt ic g m fuel = .ok .indeterminable) ∧
      ∃ c, (rf c).1 = false) ∨
    ∃ ra rj rs, RootsOk rf ic s ra rj rs ∧ ∀ fuel, s.checkRecursive rf Real.sqrt ic g m fuel = (do
      let r ← recursiveFeasibility Real.sqrt ic g m s ra rj rs fuel 0 s.time
      if r ≠ .feasible then pure r
      else
        match ← yawChecks rf ic s with
        | some r => pure r
        | none => pure .feasible) := by
  have hD3 : 3 ≤ s.D := by omega
  have r1 := roots_if' rf s h hD3 2 (by omega) (ic.hasConstraint kVMax = true) hE.speed
  have r2 := roots_if' rf s h hD3 3 (by omega)
    (ic.hasConstraint kFMin = true ∨ ic.hasConstraint kFMax = true ∨ ic.hasConstraint kOmegaXYMax = true)
    hE.thrust
  have r3 := roots_if' rf s h hD3 4 (by omega) (ic.hasConstraint kOmegaXYMax = true) hE.rates
  simp only [Nat.cast_ofNat] at r1 r2 r3
  rcases r1 with ⟨e1, hc⟩ | ⟨ra, e1, ha⟩
  · left
    refine ⟨fun fuel => ?_, hc⟩
    unfold Segment.checkRecursive
    rw [if_pos hD, e1]; rfl
  rcases r2 with ⟨e2, hc⟩ | ⟨rj, e2, hj⟩
  · left
    refine ⟨fun fuel => ?_, hc⟩
    unfold Segment.checkRecursive
    rw [if_pos hD, e1, Res.ok_bind]
    simp only
    rw [e2]; rfl
  rcases r3 with ⟨e3, hc⟩ | ⟨rs, e3, hs⟩
  · left
    refine ⟨fun fuel => ?_, hc⟩
    unfold Segment.checkRecursive
    rw [if_pos hD, e1, Res.ok_bind]
    simp only
    rw [e2, Res.ok_bind]
    simp only
    rw [e3]; rfl
  right
  refine ⟨ra, rj, rs, ⟨ha, hj, hs⟩, fun fuel => ?_⟩
  unfold Segment.checkRecursive
  rw [if_pos hD, e1, Res.ok_bind]
  simp only
  rw [e2, Res.ok_bind]
  simp only
  rw [e3, Res.ok_bind]
  rfl

/-- Without enough coefficients the check ends the process, unless the root finder failed before. -/
theorem checkRecursive_short (rf : RootFinder ℝ) (ic : InputConstraints ℝ) (g : Fin 3 → ℝ) (m : ℝ)
    (s : Segment ℝ) (h : s.WF) (hD : s.D = 3 ∨ s.D = 4) (hE : ¬ Enough ic s.N) :
    ((∀ fuel, s.checkRecursive rf Real.sqrt ic g m fuel = .ok .indeterminable) ∧
      ∃ c, (rf c).1 = false) ∨
    ∀ fuel, s.checkRecursive rf Real.sqrt ic g m fuel = .abort := by
  have hD3 : 3 ≤ s.D := by omega
  by_cases h1 : ic.hasConstraint kVMax = true → 2 ≤ s.N
  · have r1 := roots_if' rf s h hD3 2 (by omega) (ic.hasConstraint kVMax = true) h1
    simp only [Nat.cast_ofNat] at r1
    rcases r1 with ⟨e1, hc⟩ | ⟨ra, e1, ha⟩
    · left
      refine ⟨fun fuel => ?_, hc⟩
      unfold Segment.checkRecursive
      rw [if_pos hD, e1]; rfl
    by_cases h2 : (ic.hasConstraint kFMin = true ∨ ic.hasConstraint kFMax = true ∨
        ic.hasConstraint kOmegaXYMax = true) → 3 ≤ s.N
    · have r2 := roots_if' rf s h hD3 3 (by omega)
        (ic.hasConstraint kFMin = true ∨ ic.hasConstraint kFMax = true ∨
          ic.hasConstraint kOmegaXYMax = true) h2
      simp only [Nat.cast_ofNat] at r2
      rcases r2 with ⟨e2, hc⟩ | ⟨rj, e2, hj⟩
      · left
        refine ⟨fun fuel => ?_, hc⟩
        unfold Segment.checkRecursive
        rw [if_pos hD, e1, Res.ok_bind]
        simp only
        rw [e2]; rfl
      right
      by_cases h3 : ic.hasConstraint kOmegaXYMax = true → 4 ≤ s.N
      · exact absurd ⟨h1, h2, h3⟩ hE
      · simp only [Classical.not_imp, not_le] at h3
        have e3 := rootsLoop_short rf s h hD3 4 h3.2
        simp only [Nat.cast_ofNat] at e3
        intro fuel
        unfold Segment.checkRecursive
        rw [if_pos hD, e1, Res.ok_bind]
        simp only
        rw [e2, Res.ok_bind]
        simp only
        rw [if_pos h3.1, e3]; rfl
    · simp only [Classical.not_imp, not_le] at h2
      have e2 := rootsLoop_short rf s h hD3 3 h2.2
      simp only [Nat.cast_ofNat] at e2
      right
      intro fuel
      unfold Segment.checkRecursive
      rw [if_pos hD, e1, Res.ok_bind]
      simp only
      rw [if_pos h2.1, e2]; rfl
  · simp only [Classical.not_imp, not_le] at h1
    have e1 := rootsLoop_short rf s h hD3 2 h1.2
    simp only [Nat.cast_ofNat] at e1
    right
    intro fuel
    unfold Segment.checkRecursive
    rw [if_pos hD, if_pos h1.1, e1]; rfl

theorem yawCheck_any (rf : RootFinder ℝ) (hrf : Complete rf) (ic : InputConstraints ℝ) (s : Segment ℝ)
    (h : s.WF) (hD : 3 < s.D) (hT : 0 ≤ s.time) (type : ℤ) (k : ℕ) (hk2 : k ≤ 2)
    (bad : Verdict) (hfin : ∀ t ∈ Icc 0 s.time, |yaw s.polys k t| < dblMax) :
    ∃ r, yawCheck rf ic s type k bad = .ok r ∧
      ((r = none ∧ ∀ l, ic.getConstraint type = some l → ∀ t ∈ Icc 0 s.time, |yaw s.polys k t| ≤ l) ∨
       (r = some bad ∧ ∃ l, ic.getConstraint type = some l ∧ ∃ t ∈ Icc 0 s.time, l < |yaw s.polys k t|) ∨
       r = some .indeterminable) := by
  by_cases hk : k < s.N
  · obtain ⟨r, e, hr⟩ := yawCheck_ok rf hrf ic s h hD hT type k hk hk2 bad hfin
    exact ⟨r, e, hr.imp_right Or.inl⟩
  · cases hl : ic.getConstraint type with
    | none => exact ⟨none, by unfold yawCheck; rw [hl], Or.inl ⟨rfl, by simp⟩⟩
    | some l =>
      refine ⟨some .indeterminable, ?_, Or.inr (Or.inr rfl)⟩
      have hpN : (s.polys[3]'hD).N = s.N := h.polysN _ (List.getElem_mem _)
      unfold yawCheck
      rw [hl]
      simp only
      rw [segment_get_ok s 3 hD, Res.ok_bind]
      unfold Poly.computeMinMax Poly.computeMinMaxCandidates
      rw [if_pos (by rw [hpN]; omega), Res.ok_bind]
      rfl

theorem yawChecks_any (rf : RootFinder ℝ) (hrf : Complete rf) (ic : InputConstraints ℝ) (g : Fin 3 → ℝ)
    (s : Segment ℝ) (h : s.WF) (hT : 0 ≤ s.time) (hfin : Bounded s.polys s.time) :
    ∃ r, yawChecks rf ic s = .ok r ∧
      ((r = none ∧ (s.D = 4 → ∀ t ∈ Icc 0 s.time, YawLimitsHold ic s.polys t)) ∨
       (∃ v, r = some v ∧ (v = .yawRates ∨ v = .yawAcc) ∧ ∃ t ∈ Icc 0 s.time, Violated ic g s.polys t v) ∨
       r = some .indeterminable) := by
  unfold yawChecks
  by_cases hD : s.D = 4
  · rw [if_pos hD]
    obtain ⟨r1, e1, h1⟩ := yawCheck_any rf hrf ic s h (by omega) hT kOmegaZMax 1 (by omega)
      .yawRates (hfin.yaw 1 (by omega))
    have e1' : yawCheck rf ic s kOmegaZMax 1 .yawRates = .ok r1 := e1
    rw [e1', Res.ok_bind]
    rcases h1 with ⟨rfl, h1⟩ | ⟨rfl, l, hl, t, ht, hlt⟩ | rfl
    · simp only
      obtain ⟨r2, e2, h2⟩ := yawCheck_any rf hrf ic s h (by omega) hT kOmegaZDotMax 2 (by omega)
        .yawAcc (hfin.yaw 2 (by omega))
      have e2' : yawCheck rf ic s kOmegaZDotMax 2 .yawAcc = .ok r2 := e2
      refine ⟨r2, e2', ?_⟩
      rcases h2 with ⟨rfl, h2⟩ | ⟨rfl, l, hl, t, ht, hlt⟩ | rfl
      · left
        exact ⟨rfl, fun _ t ht => ⟨fun l hl => h1 l hl t ht, fun l hl => h2 l hl t ht⟩⟩
      · right; left
        exact ⟨_, rfl, Or.inr rfl, t, ht, l, hl, hlt⟩
      · exact Or.inr (Or.inr rfl)
    · exact ⟨_, rfl, Or.inr (Or.inl ⟨_, rfl, Or.inl rfl, t, ht, l, hl, hlt⟩)⟩
    · exact ⟨_, rfl, Or.inr (Or.inr rfl)⟩
  · rw [if_neg hD]
    exact ⟨none, rfl, Or.inl ⟨rfl, fun hh => absurd hh hD⟩⟩

/-- What the verdict of the whole check means, for any number of coefficients. -/
theorem checkRecursive_spec' (rf : RootFinder ℝ) (hrf : Complete rf) (ic : InputConstraints ℝ)
    (g : Fin 3 → ℝ) (m : ℝ) (hm : 0 ≤ m) (s : Segment ℝ) (h : s.WF) (hD : s.D = 3 ∨ s.D = 4)
    (hT : 0 ≤ s.time)
    (hom : ∀ l, ic.getConstraint kOmegaXYMax = some l → l < dblMax) (hfin : Bounded s.polys s.time)
    (fuel : ℕ) :
    s.checkRecursive rf Real.sqrt ic g m fuel = .hang ∨
    (¬ Enough ic s.N ∧ s.checkRecursive rf Real.sqrt ic g m fuel = .abort) ∨
    ∃ r, s.checkRecursive rf Real.sqrt ic g m fuel = .ok r ∧
      (r = .indeterminable ∨
       (r = .feasible ∧ (∀ t ∈ Icc 0 s.time, LimitsHold ic g s.polys t) ∧
         (s.D = 4 → ∀ t ∈ Icc 0 s.time, YawLimitsHold ic s.polys t)) ∨
       (r ≠ .feasible ∧ r ≠ .rollPitchRates ∧ ∃ t ∈ Icc 0 s.time, Violated ic g s.polys t r)) := by
  by_cases hE : Enough ic s.N
  · rcases checkRecursive_cases' rf ic g m s h hD hE with ⟨h1, _⟩ | ⟨ra, rj, rs, hr, h1⟩
    · exact Or.inr (Or.inr ⟨_, h1 fuel, Or.inl rfl⟩)
    rw [h1 fuel]
    rcases recursive_spec rf hrf ic g s h (by omega) ra rj rs hr hom m hm fuel (bounded_axis hfin) with
      e | ⟨r, e, hv⟩
    · left; rw [e]; rfl
    right; right
    rw [e, Res.ok_bind]
    rcases hv with rfl | ⟨rfl, hv⟩ | ⟨hv, t, ht, hvi⟩
    · exact ⟨_, rfl, Or.inl rfl⟩
    · obtain ⟨y, ey, hy⟩ := yawChecks_any rf hrf ic g s h hT hfin
      simp only [ne_eq, not_true_eq_false, if_false]
      rw [ey, Res.ok_bind]
      rcases hy with ⟨rfl, hy⟩ | ⟨v, rfl, hy, t, ht, hvi⟩ | rfl
      · exact ⟨_, rfl, Or.inr (Or.inl ⟨rfl, hv, hy⟩)⟩
      · refine ⟨v, rfl, Or.inr (Or.inr ⟨?_, ?_, t, ht, hvi⟩)⟩ <;> rcases hy with rfl | rfl <;> simp
      · exact ⟨_, rfl, Or.inl rfl⟩
    · refine ⟨r, ?_, Or.inr (Or.inr ⟨?_, ?_, t, ht, hvi⟩)⟩
      · rw [if_pos (by rcases hv with rfl | rfl | rfl <;> simp)]; rfl
      · rcases hv with rfl | rfl | rfl <;> simp
      · rcases hv with rfl | rfl | rfl <;> simp
  · rcases checkRecursive_short rf ic g m s h hD hE with ⟨h1, _⟩ | h1
    · exact Or.inr (Or.inr ⟨_, h1 fuel, Or.inl rfl⟩)
    · exact Or.inr (Or.inl ⟨hE, h1 fuel⟩)

/-! ### the analytic check -/

theorem thrustPart_any (rf : RootFinder ℝ) (hrf : Complete rf) (ic : InputConstraints ℝ)
    (g : Fin 3 → ℝ) (s : Segment ℝ) (h : s.WF) (hD : 3 ≤ s.D) (hT : 0 ≤ s.time)
    (hN : (ic.hasConstraint kFMin = true ∨ ic.hasConstraint kFMax = true ∨
      ic.hasConstraint kOmegaXYMax = true) → 3 ≤ s.N) :
    ∃ v tc, thrustPart rf Real.sqrt ic g s = .ok (v, tc) ∧
      ((v = .feasible ∧ (∀ l, ic.getConstraint kFMin = some l → ∀ t ∈ Icc 0 s.time, l ≤ thrust g s.polys t) ∧
        (∀ l, ic.getConstraint kFMax = some l → ∀ t ∈ Icc 0 s.time, thrust g s.polys t ≤ l)) ∨
       ((v = .thrustLow ∨ v = .thrustHigh) ∧ ∃ t ∈ Icc 0 s.time, Violated ic g s.polys t v)) := by
  by_cases hc : ic.hasConstraint kFMin = true ∨ ic.hasConstraint kFMax = true ∨
      ic.hasConstraint kOmegaXYMax = true
  · obtain ⟨v, tc, e, _, h2⟩ := thrustPart_ok rf hrf ic g s h hD (hN hc) hT
    exact ⟨v, tc, e, h2⟩
  · refine ⟨.feasible, [], ?_, Or.inl ⟨rfl, ?_, ?_⟩⟩
    · unfold thrustPart
      rw [if_neg hc]
    · intro l hl
      exact absurd (Or.inl ((hasConstraint_iff ic _).mpr ⟨l, hl⟩)) hc
    · intro l hl
      exact absurd (Or.inr (Or.inl ((hasConstraint_iff ic _).mpr ⟨l, hl⟩))) hc

theorem thrustPart_short (rf : RootFinder ℝ) (ic : InputConstraints ℝ)
    (g : Fin 3 → ℝ) (s : Segment ℝ) (h : s.WF) (hD : 3 ≤ s.D) (hN : s.N = 2)
    (hc : ic.hasConstraint kFMin = true ∨ ic.hasConstraint kFMax = true ∨
      ic.hasConstraint kOmegaXYMax = true) :
    thrustPart rf Real.sqrt ic g s = .ub := by
  have h0 : 0 < s.D := by omega
  have hpN : (s.polys[0]'h0).N = s.N := h.polysN _ (List.getElem_mem _)
  obtain ⟨c, e, hl, _⟩ := getCoefficients_ok (s.polys[0]'h0) 2 (by omega) (by rw [hpN]; exact h.small)
    (by unfold kMaxConvolutionSize; omega)
  have e' : (s.polys[0]'h0).getCoefficients 2 = .ok c := e
  have hp : thrustPoly g s 0 = .ub := by
    unfold thrustPoly
    have e0 : s.get ((0 : Fin 3) : ℕ) = .ok (s.polys[0]'h0) := segment_get_ok s 0 h0
    rw [e0, Res.ok_bind, e', Res.ok_bind, hN]
    unfold headN
    rw [if_pos (by omega), Res.ok_bind]
    simp
  unfold thrustPart
  rw [if_pos hc]
  unfold analyticThrust thrustSegment
  rw [List.mapM_cons, hp]
  rfl

theorem magnitudeCandidates_short (rf : RootFinder ℝ) (s : Segment ℝ) (d : ℕ) (hN : s.N ≤ d) (a b : ℝ) :
    s.magnitudeCandidates rf Real.sqrt d a b kPosDim = .ub := by
  unfold Segment.magnitudeCandidates Segment.candidateTimes kPosDim
  simp only
  rw [if_pos (by omega)]
  rfl

/-- What the verdict of the analytic check means, for any number of coefficients. -/
theorem checkAnalytic_any (rf : RootFinder ℝ) (hrf : Complete rf) (ic : InputConstraints ℝ)
    (g : Fin 3 → ℝ) (m : ℝ) (s : Segment ℝ) (h : s.WF) (hD : s.D = 3 ∨ s.D = 4)
    (hT : 0 ≤ s.time) (hfin : Bounded s.polys s.time) :
    (¬ EnoughAnalytic ic s.N ∧ ∀ fuel, s.checkAnalytic rf Real.sqrt ic g m fuel = .ub) ∨
    (∃ v, (∀ fuel, s.checkAnalytic rf Real.sqrt ic g m fuel = .ok v) ∧
      (v = .thrustLow ∨ v = .thrustHigh ∨ v = .velocity ∨ v = .yawRates ∨ v = .yawAcc) ∧
      ∃ t ∈ Icc 0 s.time, Violated ic g s.polys t v) ∨
    (∀ fuel, s.checkAnalytic rf Real.sqrt ic g m fuel = .ok .indeterminable) ∨
    (OtherLimits ic g s ∧
      ((ic.getConstraint kOmegaXYMax = none ∧
        ∀ fuel, s.checkAnalytic rf Real.sqrt ic g m fuel = .ok .feasible) ∨
       (4 ≤ s.N ∧ ∃ tc jc, ∀ fuel, s.checkAnalytic rf Real.sqrt ic g m fuel =
          recursiveRollPitch Real.sqrt ic m tc jc fuel 0 s.time))) := by
  have hD3 : 3 ≤ s.D := by omega
  by_cases h2 : 2 ≤ s.N
  swap
  · left
    refine ⟨fun hE => h2 hE.always, fun fuel => ?_⟩
    unfold Segment.checkAnalytic
    rw [if_pos hD, if_pos (by omega)]
  by_cases hth : (ic.hasConstraint kFMin = true ∨ ic.hasConstraint kFMax = true ∨
      ic.hasConstraint kOmegaXYMax = true) → 3 ≤ s.N
  swap
  · left
    refine ⟨fun hE => hth hE.thrust, fun fuel => ?_⟩
    simp only [Classical.not_imp, not_le] at hth
    unfold Segment.checkAnalytic
    rw [if_pos hD, if_neg (by omega), thrustPart_short rf ic g s h hD3 (by omega) hth.1]
    rfl
  obtain ⟨v, tc, e1, h1⟩ := thrustPart_any rf hrf ic g s h hD3 hT hth
  rcases h1 with ⟨rfl, hf1, hf2⟩ | ⟨hv, hviol⟩
  swap
  · right; left
    refine ⟨v, fun fuel => ?_, by tauto, hviol⟩
    unfold Segment.checkAnalytic
    rw [if_pos hD, if_neg (by omega), e1, Res.ok_bind]
    simp only
    rw [if_pos (by rcases hv with rfl | rfl <;> simp)]; rfl
  obtain ⟨r2, e2, h2'⟩ := analyticVelocity_ok rf hrf ic g s h hD3 (by omega) hT
  rcases h2' with ⟨rfl, hv⟩ | ⟨rfl, hviol⟩
  swap
  · right; left
    refine ⟨.velocity, fun fuel => ?_, by tauto, hviol⟩
    unfold Segment.checkAnalytic
    rw [if_pos hD, if_neg (by omega), e1, Res.ok_bind]
    simp only [ne_eq, not_true_eq_false, if_false]
    rw [e2]; rfl
  obtain ⟨r3, e3, h3⟩ := yawChecks_any rf hrf ic g s h hT hfin
  have red3 : ∀ w, r3 = some w → ∀ fuel, s.checkAnalytic rf Real.sqrt ic g m fuel = .ok w := by
    rintro w rfl fuel
    unfold Segment.checkAnalytic
    rw [if_pos hD, if_neg (by omega), e1, Res.ok_bind]
    simp only [ne_eq, not_true_eq_false, if_false]
    rw [e2, Res.ok_bind]
    simp only
    rw [e3]; rfl
  rcases h3 with ⟨rfl, hy⟩ | ⟨w, rfl, hw, hviol⟩ | rfl
  rotate_left
  · right; left
    exact ⟨w, red3 w rfl, by tauto, hviol⟩
  · right; right; left
    exact red3 _ rfl
  have red : ∀ fuel, s.checkAnalytic rf Real.sqrt ic g m fuel =
      if ic.hasConstraint kOmegaXYMax then (do
        let j ← s.magnitudeCandidates rf Real.sqrt 3 0 s.time kPosDim
        if !j.1 then pure .indeterminable
        else recursiveRollPitch Real.sqrt ic m tc j.2 fuel 0 s.time)
      else pure .feasible := by
    intro fuel
    unfold Segment.checkAnalytic
    rw [if_pos hD, if_neg (by omega), e1, Res.ok_bind]
    simp only [ne_eq, not_true_eq_false, if_false]
    rw [e2, Res.ok_bind]
    simp only
    rw [e3, Res.ok_bind]
  by_cases hc : ic.hasConstraint kOmegaXYMax = true
  · by_cases h4 : 4 ≤ s.N
    · right; right; right
      refine ⟨⟨hf1, hf2, hv, hy⟩, Or.inr ⟨h4, ?_⟩⟩
      obtain ⟨jt, ec, hcs⟩ := magnitudeCandidates_ok rf hrf s h 3 (by omega) (by omega) [0, 1, 2]
        (by simp) (by
          intro d hd
          simp only [List.mem_cons, List.not_mem_nil, or_false] at hd
          omega) hT
      have ec' : s.magnitudeCandidates rf Real.sqrt 3 0 s.time kPosDim =
        .ok (true, jt.map fun t => ⟨t, magnitude s.polys [0, 1, 2] 3 t, 0⟩) := ec
      refine ⟨tc, jt.map fun t => ⟨t, magnitude s.polys [0, 1, 2] 3 t, 0⟩, fun fuel => ?_⟩
      rw [red fuel, if_pos hc, ec', Res.ok_bind]
      simp only [Bool.not_true, Bool.false_eq_true, if_false]
    · left
      refine ⟨fun hE => h4 (hE.rates hc), fun fuel => ?_⟩
      have ec := magnitudeCandidates_short rf s 3 (by omega) 0 s.time
      simp only [Nat.cast_ofNat] at ec
      rw [red fuel, if_pos hc, ec]
      rfl
  · right; right; right
    refine ⟨⟨hf1, hf2, hv, hy⟩, Or.inl ⟨?_, fun fuel => by rw [red fuel, if_neg hc]; rfl⟩⟩
    by_contra hn
    obtain ⟨l, hl⟩ := Option.ne_none_iff_exists'.mp hn
    exact hc ((hasConstraint_iff ic _).mpr ⟨l, hl⟩)

end Verif
