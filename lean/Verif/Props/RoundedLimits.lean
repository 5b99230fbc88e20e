import Verif.Proofs.RoundedLimits

/-
Property C116 (meeting limits in floating point): `scaleSegmentTimesToMeetConstraints` with numbers `Fl rnd`, every operation
of which rounds its result, and with a root finder of limited relative accuracy. `Spec.SlowedBy` says what slowing down a
segment means.
-/
set_option linter.unusedSectionVars false

namespace Verif

open Polynomial Spec Set

theorem scaleToMeetLoopG_field {K : Type} [Field K] [LinearOrder K] (rf : RootFinder K) (sq : K → K) (vMax aMax : K) (n : ℕ)
    (tr : Trajectory K) :
    scaleToMeetLoopG (fieldLib sq) (1 + 1 / 1000) rf vMax aMax n tr = scaleToMeetLoop rf sq vMax aMax n tr := by
  have hmax : ∀ a b : K, stdMaxVal a b = max a b := by
    intro a b
    unfold stdMaxVal
    by_cases h : a < b
    · rw [if_pos h, max_eq_right h.le]
    · rw [if_neg h, max_eq_left (not_lt.mp h)]
  induction n generalizing tr with
  | zero => rfl
  | succ n ih =>
    rw [scaleToMeetLoopG, scaleToMeetLoop,
      (C115_same_code rf sq tr 0 [] Extremum.zero Extremum.zero).2]
    rcases tr.maxVelocityAndAcceleration rf sq with ⟨r⟩ | _ | _ | _ | _
    · simp only [Res.ok_bind, hmax, ih]
      rfl
    all_goals rfl

/-- **C116.** The function used below is that of C18, with other numbers. -/
theorem C116_same_code {K : Type} [Field K] [LinearOrder K] (rf : RootFinder K) (sq : K → K) (tr : Trajectory K)
    (vMax aMax : K) :
    tr.scaleToMeetConstraintsG (fieldLib sq) (1 + 1 / 1000) rf vMax aMax = tr.scaleToMeetConstraints rf sq vMax aMax :=
  scaleToMeetLoopG_field rf sq vMax aMax 20 tr

variable {rnd : ℝ → ℝ} {u : ℝ}

/-- **C116.** Whatever happens in the 20 iterations, the function returns and the result is the given trajectory slowed down
by one common factor of at least 1, up to the rounding errors; no duration decreases. When it returns true, no speed and no
acceleration on the result exceeds the limit times `1.0 + kTolerance` by more than the accuracy `Q` of the maxima.
`T` bounds the durations and `A` the size of the first three derivatives of the given trajectory, with a margin. -/
theorem C116_scaleToMeet (h : Rounding rnd u) (hu1 : u < 1) (rf : RootFinder (Fl rnd)) {ρ : ℝ} (hρ : 0 ≤ ρ)
    (hrf : ∀ τ, 0 ≤ τ → ApproxOn (ρ * τ) 0 τ rf)
    (tr : Trajectory (Fl rnd)) (hne : tr.segments ≠ []) (hwf : ∀ s ∈ tr.segments, s.WF ∧ s.N = tr.N ∧ s.D = tr.D)
    (hD : 0 < tr.D) (hN : 3 ≤ tr.N) (T : ℝ)
    (hT : ∀ s ∈ tr.segments, 0 ≤ s.time.val ∧ (1 + u) ^ (40 * tr.N) * s.time.val ≤ T) (A : ℝ)
    (hA : ∀ s ∈ tr.segments, ∀ k, 1 ≤ k → k ≤ 3 → (1 + u) ^ (40 * tr.N) * absSize s (List.range tr.D) k T ≤ A) (E V Q : ℝ)
    (hE : ((1 + u) ^ (2 * tr.N) - 1) * A ≤ E) (hV : E + ((1 + u) ^ (tr.D + 2) - 1) * (A + E) ≤ V)
    (hQ : V + (A * (ρ * T) + 2 * E + Real.sqrt (2 * ((1 + u) ^ (5 * tr.N + 1 + tr.D) - 1) * (A * A) * T)) ≤ Q)
    (hfin : A + V < dblMax) (vMax aMax : Fl rnd) (hv : 0 < vMax.val) (ha : 0 < aMax.val) :
    ∃ b r σ, tr.scaleToMeetConstraintsG (flLib rnd) (flLim rnd) rf vMax aMax = .ok (b, r) ∧ 1 ≤ σ ∧
      r.D = tr.D ∧ r.N = tr.N ∧ (r = tr ∨ r.maxTime = (r.segments.map (·.time)).foldl (· + ·) 0) ∧
      List.Forall₂ (fun s s' => SlowedBy u (40 * tr.N) σ s s' ∧ 0 ≤ s'.time.val ∧
        (rnd s.time.val = s.time.val → s.time.val ≤ s'.time.val)) tr.segments r.segments ∧
      (b = true → ∀ s ∈ r.segments, ∀ t ∈ Icc 0 s.time.val,
        magnitude (realPolys s) (List.range tr.D) 1 t ≤ vMax.val * ((flLim rnd).val / (1 - u)) + Q ∧
        magnitude (realPolys s) (List.range tr.D) 2 t ≤ aMax.val * ((flLim rnd).val / (1 - u)) + Q) := by
  have hu := rounding_nonneg h
  have M : MeetOk u ρ rf tr T A E V Q := ⟨hρ, hrf, hne, hwf, hD, hN, hT, hA, hE, hV, hQ, hfin⟩
  obtain ⟨b, r, σ, e, g1, g2, g3, g4, g5, g6⟩ := scaleToMeetLoopG_ok h hu1 M vMax aMax hv ha 20 0 1 tr (by norm_num) le_rfl
    rfl rfl (Or.inl rfl) (by
      rw [List.forall₂_same]
      exact fun s _ => ScaledR.refl hu _ s)
  refine ⟨b, r, σ, e, g1, g2, g3, g4, ?_, g6⟩
  rw [List.forall₂_iff_get] at g5 ⊢
  refine ⟨g5.1, fun i h1 h2 => ?_⟩
  have q := g5.2 i h1 h2
  have t0 := (hT (tr.segments.get ⟨i, h1⟩) (List.get_mem _ _)).1
  exact ⟨q.scaled.slowed (by linarith), q.nonneg t0, fun h => (q.later t0 h).1⟩

/-- **C116.** If the rounding errors are small against the limits, the function returns true, and every speed and
acceleration on the result is within 0.15% of the limits; the result is the given trajectory slowed down at most once. -/
theorem C116_success (h : Rounding rnd u) (hu1 : u ≤ 1 / 10 ^ 6) (rf : RootFinder (Fl rnd)) {ρ : ℝ} (hρ : 0 ≤ ρ)
    (hrf : ∀ τ, 0 ≤ τ → ApproxOn (ρ * τ) 0 τ rf)
    (tr : Trajectory (Fl rnd)) (hne : tr.segments ≠ []) (hwf : ∀ s ∈ tr.segments, s.WF ∧ s.N = tr.N ∧ s.D = tr.D)
    (hD : 0 < tr.D) (hN : 3 ≤ tr.N) (T : ℝ)
    (hT : ∀ s ∈ tr.segments, 0 ≤ s.time.val ∧ (1 + u) ^ (40 * tr.N) * s.time.val ≤ T) (A : ℝ)
    (hA : ∀ s ∈ tr.segments, ∀ k, 1 ≤ k → k ≤ 3 → (1 + u) ^ (40 * tr.N) * absSize s (List.range tr.D) k T ≤ A) (E V Q : ℝ)
    (hE : ((1 + u) ^ (2 * tr.N) - 1) * A ≤ E) (hV : E + ((1 + u) ^ (tr.D + 2) - 1) * (A + E) ≤ V)
    (hQ : V + (A * (ρ * T) + 2 * E + Real.sqrt (2 * ((1 + u) ^ (5 * tr.N + 1 + tr.D) - 1) * (A * A) * T)) ≤ Q)
    (hfin : A + V < dblMax) (vMax aMax : Fl rnd) (hv : 0 < vMax.val) (ha : 0 < aMax.val)
    (hsv : 2 * Q + E * (T + 1) ≤ 8 / 10 ^ 4 * vMax.val) (hsa : 2 * Q + E * (T + 1) ≤ 8 / 10 ^ 4 * aMax.val) :
    ∃ r σ, tr.scaleToMeetConstraintsG (flLib rnd) (flLim rnd) rf vMax aMax = .ok (true, r) ∧ 1 ≤ σ ∧
      List.Forall₂ (SlowedBy u (2 * tr.N) σ) tr.segments r.segments ∧
      ∀ s ∈ r.segments, ∀ t ∈ Icc 0 s.time.val,
        magnitude (realPolys s) (List.range tr.D) 1 t ≤ vMax.val * (1 + 15 / 10 ^ 4) ∧
        magnitude (realPolys s) (List.range tr.D) 2 t ≤ aMax.val * (1 + 15 / 10 ^ 4) := by
  have hu := rounding_nonneg h
  have hu2 : u < 1 := lt_of_le_of_lt hu1 (by norm_num)
  have M : MeetOk u ρ rf tr T A E V Q := ⟨hρ, hrf, hne, hwf, hD, hN, hT, hA, hE, hV, hQ, hfin⟩
  obtain ⟨r, σ, e, g1, g2⟩ := scaleToMeetG_success h hu1 M vMax aMax hv ha hsv hsa
  obtain ⟨b, r', σ', e', -, -, -, -, -, g6⟩ := C116_scaleToMeet h hu2 rf hρ hrf tr hne hwf hD hN T hT A hA E V Q hE hV hQ
    hfin vMax aMax hv ha
  rw [e] at e'
  simp only [Res.ok.injEq, Prod.mk.injEq] at e'
  obtain ⟨rfl, rfl⟩ := e'
  have hL : (flLim rnd).val / (1 - u) ≤ 1 + 1003 / 10 ^ 6 := by
    have := (flLim_bounds h hu1).2
    norm_num at hu1 this ⊢
    rw [div_le_iff₀ (by linarith)]
    linarith
  have hE1 : 0 ≤ E * (T + 1) := mul_nonneg (M.E0 h) (by linarith [M.T0 h])
  refine ⟨r, σ, e, g1, g2.imp fun s s' q => q.scaled.slowed (by linarith), fun s hs t ht => ?_⟩
  obtain ⟨b1, b2⟩ := g6 rfl s hs t ht
  have l1 := mul_le_mul_of_nonneg_left hL hv.le
  have l2 := mul_le_mul_of_nonneg_left hL ha.le
  norm_num at b1 b2 l1 l2 hsv hsa ⊢
  constructor <;> linarith

/-- The segment of `C115`, of maximal speed `√2`, is slowed down to the speed limit 1 with doubles and a root finder that
rounds to doubles. -/
example : ∃ r : Trajectory (Fl round53),
    (⟨2, 3, ⟨1⟩, [exSeg115]⟩ : Trajectory (Fl round53)).scaleToMeetConstraintsG (flLib round53) (flLim round53)
      (roundedRoots round53) ⟨1⟩ ⟨4⟩ = .ok (true, r) ∧
      ∀ s ∈ r.segments, ∀ t ∈ Icc 0 s.time.val, magnitude (realPolys s) [0, 1] 1 t ≤ 1.0015 := by
  have hds : ∀ d ∈ [0, 1], d < exSeg115.D := by simp [exSeg115, Segment.D]
  have z : ∀ k, 1 ≤ k → k ≤ 3 → absSize exSeg115 [0, 1] k 2 ≤ 6 := by
    intro k k1 k3
    rw [absSize_eq exSeg115 _ hds]
    rcases (by omega : k = 1 ∨ k = 2 ∨ k = 3) with rfl | rfl | rfl <;>
    · simp only [exSeg115, segVals, derivAt_eq_sum, vals, List.map_cons, List.map_nil, List.sum_cons, List.sum_nil,
        List.getD_cons_zero, List.getD_cons_succ]
      norm_num [Finset.sum_range_succ, Nat.descFactorial]
  have hsq : Real.sqrt (2 * ((1 + 1 / 2 ^ 53) ^ (5 * 3 + 1 + 2) - 1) * (7 * 7) * 2) ≤ 1 / 10 ^ 6 := by
    rw [Real.sqrt_le_left (by norm_num)]
    norm_num
  have hp : ((1 + 1 / 2 ^ 53 : ℝ)) ^ (40 * 3) ≤ 7 / 6 := by norm_num
  obtain ⟨r, σ, e, -, -, g⟩ := C116_success round53_rounding (by norm_num) (roundedRoots round53) (ρ := 1 / 2 ^ 53)
    (by norm_num) (fun τ hτ => roundedRoots_approx round53_rounding (by linarith) (by simp))
    (⟨2, 3, ⟨1⟩, [exSeg115]⟩ : Trajectory (Fl round53)) (by simp)
    (by
      intro s hs
      rw [List.mem_singleton] at hs
      subst hs
      refine ⟨⟨?_, by simp [exSeg115]⟩, rfl, rfl⟩
      simp [exSeg115, Poly.N]) (by norm_num) (by norm_num) 2
    (by
      intro s hs
      rw [List.mem_singleton] at hs
      subst hs
      refine ⟨by simp [exSeg115], ?_⟩
      change _ * (1 : ℝ) ≤ 2
      refine le_trans (mul_le_mul_of_nonneg_right hp (by norm_num)) (by norm_num)) 7
    (by
      intro s hs k k1 k3
      rw [List.mem_singleton] at hs
      subst hs
      have n0 := absSize_nonneg exSeg115 [0, 1] hds k (by norm_num : (0 : ℝ) ≤ 2)
      have := mul_le_mul hp (z k k1 k3) n0 (by norm_num)
      refine le_trans this (by norm_num)) (1 / 10 ^ 14) (1 / 10 ^ 13) (2 / 10 ^ 6) (by norm_num) (by norm_num)
    (by
      refine le_trans (add_le_add_right (add_le_add_right hsq _) _) ?_
      norm_num)
    (by
      have := dblMax_gt (K := ℝ)
      norm_num at this ⊢
      linarith) ⟨1⟩ ⟨4⟩ (by norm_num) (by norm_num) (by norm_num) (by norm_num)
  refine ⟨r, e, fun s hs t ht => ?_⟩
  have := (g s hs t ht).1
  change magnitude (realPolys s) [0, 1] 1 t ≤ 1 * _ at this
  norm_num at this ⊢
  exact this

end Verif
