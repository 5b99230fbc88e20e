import Mathlib.Analysis.Calculus.Deriv.MeanValue
import Mathlib.Analysis.Calculus.MeanValue
import Mathlib.Analysis.Calculus.Deriv.Prod
import Mathlib.Analysis.InnerProductSpace.PiL2
import Verif.Proofs.MagnitudeAny

/- Helper lemmas: extrema found with a root finder of limited accuracy. -/
set_option linter.unusedSectionVars false

namespace Verif

open Polynomial Spec Set

/-- Next to an interior maximum of a polynomial that is not constant it rises before and falls after. -/
theorem rises_before (P : ℝ[X]) (hP : derivative P ≠ 0) {a b M : ℝ} (hM : a < M ∧ M ≤ b)
    (hmax : ∀ x ∈ Icc a b, P.eval x ≤ P.eval M) (δ : ℝ) (hδ : 0 < δ) :
    ∃ u, M - δ < u ∧ u < M ∧ 0 < (derivative P).eval u := by
  by_contra hcon
  push Not at hcon
  set l := max a (M - δ / 2) with hl
  have hlM : l < M := max_lt hM.1 (by linarith)
  have hal : a ≤ l := le_max_left _ _
  have hδl : M - δ < l := lt_of_lt_of_le (by linarith) (le_max_right _ _)
  have hanti : AntitoneOn (fun x => P.eval x) (Icc l M) := by
    apply antitoneOn_of_deriv_nonpos (convex_Icc l M) P.continuous.continuousOn
    · exact P.differentiable.differentiableOn
    · intro x hx
      rw [interior_Icc] at hx
      rw [Polynomial.deriv]
      exact hcon x (by linarith [hx.1]) hx.2
  have heq : ∀ x ∈ Icc l M, P.eval x = (C (P.eval M)).eval x := by
    intro x hx
    rw [eval_C]
    apply le_antisymm
    · exact hmax x ⟨by linarith [hx.1], by linarith [hx.2, hM.2]⟩
    · exact hanti hx ⟨hlM.le, le_rfl⟩ hx.2
  have : P = C (P.eval M) :=
    eq_of_infinite_eval_eq _ _ ((Icc_infinite hlM).mono fun x hx => heq x hx)
  apply hP
  rw [this, derivative_C]

theorem derivative_reflect_eval (P : ℝ[X]) (x : ℝ) :
    (derivative (P.comp (-X))).eval x = -(derivative P).eval (-x) := by
  rw [derivative_comp]; simp

theorem falls_after (P : ℝ[X]) (hP : derivative P ≠ 0) {a b M : ℝ} (hM : a ≤ M ∧ M < b)
    (hmax : ∀ x ∈ Icc a b, P.eval x ≤ P.eval M) (δ : ℝ) (hδ : 0 < δ) :
    ∃ u, M < u ∧ u < M + δ ∧ (derivative P).eval u < 0 := by
  obtain ⟨u, h1, h2, h3⟩ := rises_before (P.comp (-X)) (a := -b) (b := -a) (M := -M) (by
      intro h0
      apply hP
      have : ∀ x, (derivative P).eval x = (0 : ℝ[X]).eval x := by
        intro x
        have := derivative_reflect_eval P (-x)
        rw [h0, neg_neg] at this
        simp only [eval_zero] at this ⊢
        linarith
      exact Polynomial.funext this) ⟨by linarith, by linarith⟩ (by
      intro x hx
      simp only [eval_comp, eval_neg, eval_X, neg_neg]
      exact hmax (-x) ⟨by linarith [hx.2], by linarith [hx.1]⟩) δ hδ
  rw [derivative_reflect_eval] at h3
  exact ⟨-u, by linarith, by linarith, by linarith⟩

/-- Finitely many numbers further than `ε` from `M` keep a distance. -/
theorem list_gap (R : List ℝ) (M ε : ℝ) (h : ∀ z ∈ R, ε < |z - M|) :
    ∃ δ, 0 < δ ∧ ∀ z ∈ R, ε + δ ≤ |z - M| := by
  induction R with
  | nil => exact ⟨1, one_pos, by simp⟩
  | cons z R ih =>
    obtain ⟨δ, h0, h1⟩ := ih (fun x hx => h x (by simp [hx]))
    have hz := h z (by simp)
    refine ⟨min δ (|z - M| - ε), lt_min h0 (by linarith), ?_⟩
    intro x hx
    rcases List.mem_cons.mp hx with rfl | hx
    · have := min_le_right δ (|x - M| - ε)
      linarith
    · have := min_le_left δ (|z - M| - ε)
      have := h1 x hx
      linarith

/-- The sign changes of `Q` have a number of the list within `ε`. -/
def Covers (ε : ℝ) (R : List ℝ) (Q : ℝ[X]) : Prop :=
  ∀ u v : ℝ, u < v → Q.eval u * Q.eval v < 0 → ∃ z ∈ R, u - ε ≤ z ∧ z ≤ v + ε

/-- A maximum on an interval has one of the candidates within `ε`. -/
theorem near_max (P : ℝ[X]) {a b : ℝ} (hab : a ≤ b) {ε : ℝ} (hε : 0 ≤ ε) (R S : List ℝ)
    (ha : a ∈ S) (hb : b ∈ S) (hR : Covers ε R (derivative P))
    (hRS : ∀ z ∈ R, z ∈ Icc a b → z ∈ S) :
    ∃ M ∈ Icc a b, (∀ x ∈ Icc a b, P.eval x ≤ P.eval M) ∧
      ∃ s ∈ S, s ∈ Icc a b ∧ |s - M| ≤ ε ∧ (s = M ∨ (derivative P).eval M = 0) := by
  obtain ⟨M, hM, hmax⟩ := isCompact_Icc.exists_isMaxOn (s := Icc a b) ⟨a, left_mem_Icc.mpr hab⟩
    (f := fun x => P.eval x) P.continuous.continuousOn
  have hmax' : ∀ x ∈ Icc a b, P.eval x ≤ P.eval M := fun x hx => hmax hx
  by_cases hP : derivative P = 0
  · have hc := Polynomial.derivative_eq_zero.mp hP
    obtain ⟨c, hc⟩ := Polynomial.natDegree_eq_zero.mp hc
    exact ⟨a, left_mem_Icc.mpr hab, fun x _ => by rw [← hc]; simp, a, ha, left_mem_Icc.mpr hab,
      by simpa using hε, Or.inl rfl⟩
  refine ⟨M, hM, hmax', ?_⟩
  rcases eq_or_lt_of_le hM.1 with h1 | h1
  · exact ⟨M, h1 ▸ ha, hM, by simpa using hε, Or.inl rfl⟩
  rcases eq_or_lt_of_le hM.2 with h2 | h2
  · exact ⟨M, h2 ▸ hb, hM, by simpa using hε, Or.inl rfl⟩
  have hcrit : (derivative P).eval M = 0 := by
    have h : IsLocalMax (fun x => P.eval x) M := hmax.isLocalMax (Icc_mem_nhds h1 h2)
    have := h.deriv_eq_zero
    rwa [Polynomial.deriv] at this
  have hz : ∃ z ∈ R, |z - M| ≤ ε := by
    by_contra hcon
    push Not at hcon
    obtain ⟨δ, hδ, hgap⟩ := list_gap R M ε hcon
    obtain ⟨u, u1, u2, u3⟩ := rises_before P hP ⟨h1, h2.le⟩ hmax' δ hδ
    obtain ⟨v, v1, v2, v3⟩ := falls_after P hP ⟨h1.le, h2⟩ hmax' δ hδ
    obtain ⟨z, hz, z1, z2⟩ := hR u v (by linarith) (mul_neg_of_pos_of_neg u3 v3)
    have := hgap z hz
    have : |z - M| < ε + δ := abs_lt.mpr ⟨by linarith, by linarith⟩
    linarith
  obtain ⟨z, hz, hzM⟩ := hz
  have hzM' := abs_le.mp hzM
  rcases lt_or_ge z a with h3 | h3
  · exact ⟨a, ha, left_mem_Icc.mpr hab, abs_le.mpr ⟨by linarith, by linarith⟩, Or.inr hcrit⟩
  rcases lt_or_ge b z with h4 | h4
  · exact ⟨b, hb, right_mem_Icc.mpr hab, abs_le.mpr ⟨by linarith, by linarith⟩, Or.inr hcrit⟩
  · exact ⟨z, hRS z hz ⟨h3, h4⟩, ⟨h3, h4⟩, hzM, Or.inr hcrit⟩

theorem Covers.neg {ε : ℝ} {R : List ℝ} {Q : ℝ[X]} (h : Covers ε R Q) : Covers ε R (-Q) := by
  intro u v huv hs
  apply h u v huv
  simpa using hs

theorem near_min (P : ℝ[X]) {a b : ℝ} (hab : a ≤ b) {ε : ℝ} (hε : 0 ≤ ε) (R S : List ℝ)
    (ha : a ∈ S) (hb : b ∈ S) (hR : Covers ε R (derivative P))
    (hRS : ∀ z ∈ R, z ∈ Icc a b → z ∈ S) :
    ∃ M ∈ Icc a b, (∀ x ∈ Icc a b, P.eval M ≤ P.eval x) ∧
      ∃ s ∈ S, s ∈ Icc a b ∧ |s - M| ≤ ε ∧ (s = M ∨ (derivative P).eval M = 0) := by
  obtain ⟨M, hM, h1, s, hs, h2, h3, h4⟩ := near_max (-P) hab hε R S ha hb
    (by rw [derivative_neg]; exact hR.neg) hRS
  refine ⟨M, hM, fun x hx => ?_, s, hs, h2, h3, ?_⟩
  · have := h1 x hx
    simp only [eval_neg] at this
    linarith
  · rw [derivative_neg, eval_neg, neg_eq_zero] at h4
    exact h4

/-- Near a critical point the value changes by a second order amount. -/
theorem second_order (P : ℝ[X]) {a b M s ε B : ℝ} (hM : M ∈ Icc a b) (hs : s ∈ Icc a b)
    (hd : |s - M| ≤ ε) (hc : s = M ∨ (derivative P).eval M = 0)
    (hB : ∀ x ∈ Icc a b, |(derivative (derivative P)).eval x| ≤ B) :
    |P.eval s - P.eval M| ≤ B * ε ^ 2 := by
  have hB0 : 0 ≤ B := le_trans (abs_nonneg _) (hB M hM)
  have hε : 0 ≤ ε := le_trans (abs_nonneg _) hd
  rcases hc with rfl | hc
  · simp only [sub_self, abs_zero]; positivity
  -- the derivative is small between the two points
  have key : ∀ Q : ℝ[X], ∀ C : ℝ, (∀ x ∈ uIcc M s, |(derivative Q).eval x| ≤ C) →
      ∀ x ∈ uIcc M s, |Q.eval x - Q.eval M| ≤ C * |x - M| := by
    intro Q C hC x hx
    have := (convex_uIcc M s).norm_image_sub_le_of_norm_hasDerivWithin_le (f := fun x => Q.eval x)
      (f' := fun x => (derivative Q).eval x) (C := C)
      (fun x _ => (Q.hasDerivAt x).hasDerivWithinAt) (fun x hx => by simpa using hC x hx)
      left_mem_uIcc hx
    simpa using this
  have hsub : ∀ x ∈ uIcc M s, x ∈ Icc a b := by
    intro x hx
    exact (ordConnected_Icc.uIcc_subset hM hs) hx
  have hdist : ∀ x ∈ uIcc M s, |x - M| ≤ ε := by
    intro x hx
    exact le_trans (abs_sub_left_of_mem_uIcc hx) (by rwa [abs_sub_comm] at hd ⊢)
  have h1 : ∀ x ∈ uIcc M s, |(derivative P).eval x| ≤ B * ε := by
    intro x hx
    have := key (derivative P) B (fun y hy => hB y (hsub y hy)) x hx
    rw [hc, sub_zero] at this
    exact le_trans this (mul_le_mul_of_nonneg_left (hdist x hx) hB0)
  have h2 := key P (B * ε) h1 s right_mem_uIcc
  calc |P.eval s - P.eval M| ≤ B * ε * |s - M| := h2
    _ ≤ B * ε * ε := mul_le_mul_of_nonneg_left hd (by positivity)
    _ = B * ε ^ 2 := by ring

/-- The numbers of a root finder that count as real. -/
noncomputable def realParts (z : List (ℝ × ℝ)) : List ℝ := (z.filter fun r => decide (|r.2| ≤ dblEpsilon)).map Prod.fst

theorem mem_realParts (z : List (ℝ × ℝ)) (x : ℝ) :
    x ∈ realParts z ↔ ∃ im, (x, im) ∈ z ∧ |im| ≤ dblEpsilon := by
  unfold realParts
  simp only [List.mem_map, List.mem_filter, decide_eq_true_eq, Prod.exists, exists_and_right,
    exists_eq_right]

theorem approx_covers {ε : ℝ} {rf : RootFinder ℝ} (h : Approx ε rf) (c : List ℝ) :
    Covers ε (realParts (rf c).2) (ofCoeffs c) := by
  intro u v huv hs
  obtain ⟨z, hz, h1, h2, h3⟩ := h c u v huv hs
  exact ⟨z.1, (mem_realParts _ _).mpr ⟨z.2, hz, by simpa [dblEpsilon] using h1⟩, h2, h3⟩

theorem Covers.const_mul {ε : ℝ} {R : List ℝ} {Q : ℝ[X]} (h : Covers ε R Q) :
    Covers ε R (2 * Q) := by
  intro u v huv hs
  apply h u v huv
  have h2 : ∀ x : ℝ, (2 * Q).eval x = 2 * Q.eval x := by intro x; simp
  rw [h2, h2] at hs
  nlinarith

/-- What the candidate search delivers with a root finder of accuracy `ε`. -/
structure NearSpec (s : Segment ℝ) (ds : List ℕ) (k : ℕ) (ε a b : ℝ) (times : List ℝ) : Prop where
  upper : ∀ x ∈ Icc a b, ∃ M ∈ Icc a b, (sqPoly s ds k).eval x ≤ (sqPoly s ds k).eval M ∧
    ∃ t ∈ times, t ∈ Icc a b ∧ |t - M| ≤ ε
  lower : 2 ≤ ds.length → ∀ x ∈ Icc a b, ∃ M ∈ Icc a b,
    (sqPoly s ds k).eval M ≤ (sqPoly s ds k).eval x ∧ ∃ t ∈ times, t ∈ Icc a b ∧ |t - M| ≤ ε

theorem candidateTimes_near (rf : RootFinder ℝ) {ε : ℝ} (hε : 0 ≤ ε) (hrf : Approx ε rf)
    (s : Segment ℝ) (h : s.WF) (k : ℕ) (hk : k < s.N) (hk2 : k + 1 < 22) (ds : List ℕ) (hne : ds ≠ [])
    (hds : ∀ d ∈ ds, d < s.D) {a b : ℝ} (hab : a ≤ b) :
    ∃ rest, s.candidateTimes rf k a b (asInts ds) = .ok (true, a :: b :: rest) ∧
      (∀ t ∈ a :: b :: rest, t ∈ Icc a b) ∧ NearSpec s ds k ε a b (a :: b :: rest) := by
  match ds, hne with
  | [d], _ =>
    have hd : d < s.polys.length := hds d (by simp)
    have hmem := List.getElem_mem hd
    have hkk : k + 1 < kMaxConvolutionSize := by simpa [kMaxConvolutionSize] using hk2
    obtain ⟨c, cand, _, hdc, hcand, hmemc⟩ := computeMinMaxCandidates_ok rf s.polys[d]
      (h.poly_small hmem) k (by rw [h.polysN _ hmem]; exact hk) hkk hab
    have hin : ∀ t ∈ a :: b :: cand, t ∈ Icc a b := by
      apply cand_inside hab
      intro x hx
      exact ⟨((hmemc x).mp hx).1, ((hmemc x).mp hx).2.1⟩
    refine ⟨cand, ?_, hin, ?_, by simp⟩
    · simp only [asInts, List.map_cons, List.map_nil, Segment.candidateTimes]
      rw [if_neg (by omega), Int.toNat_natCast, Res.at'_of_lt hd, Res.ok_bind, hcand]
    · intro x hx
      have hcov := approx_covers hrf c
      rw [hdc, Function.iterate_succ_apply'] at hcov
      have hRS : ∀ z ∈ realParts (rf c).2, z ∈ Icc a b → z ∈ a :: b :: cand := by
        intro z hz hzI
        right; right
        obtain ⟨im, h1, h2⟩ := (mem_realParts _ _).mp hz
        exact (hmemc z).mpr ⟨hzI.1, hzI.2, im, h1, h2⟩
      have hsq : ∀ t, (sqPoly s [d] k).eval t =
          ((derivative^[k] (ofCoeffs s.polys[d].coeffs)).eval t) ^ 2 := by
        intro t
        simp [sqPoly, List.getD_eq_getElem?_getD, hd]
      set P := derivative^[k] (ofCoeffs s.polys[d].coeffs) with hP
      by_cases hsign : 0 ≤ P.eval x
      · obtain ⟨M, hM, h1, t, ht, h2, h3, _⟩ := near_max P hab hε _ _ (by simp) (by simp) hcov hRS
        exact ⟨M, hM, by rw [hsq, hsq]; exact pow_le_pow_left₀ hsign (h1 x hx) 2, t, ht, h2, h3⟩
      · obtain ⟨M, hM, h1, t, ht, h2, h3, _⟩ := near_min P hab hε _ _ (by simp) (by simp) hcov hRS
        refine ⟨M, hM, ?_, t, ht, h2, h3⟩
        have := h1 x hx
        rw [hsq, hsq]
        push Not at hsign
        nlinarith
  | d1 :: d2 :: ds, _ =>
    obtain ⟨c, hc, lc, ec⟩ := convolvedLoop_ok s h k hk hk2 (d1 :: d2 :: ds) hds
      (List.replicate ((s.N - k) + (s.N - k - 1) - 1) 0) (by simp)
    rw [ofCoeffs_replicate_zero, zero_add] at ec
    obtain ⟨cand, hcand, hmemc⟩ := candidates_some hab (rf c).2
    have hcov := (approx_covers hrf c).const_mul
    rw [ec, ← derivative_sqPoly] at hcov
    have hRS : ∀ z ∈ realParts (rf c).2, z ∈ Icc a b → z ∈ a :: b :: cand := by
      intro z hz hzI
      right; right
      obtain ⟨im, h1, h2⟩ := (mem_realParts _ _).mp hz
      exact (hmemc z).mpr ⟨hzI.1, hzI.2, im, h1, h2⟩
    refine ⟨cand, ?_, ?_, ?_, ?_⟩
    · simp only [asInts, List.map_cons, Segment.candidateTimes]
      rw [if_neg (by omega)]
      have e1 : ((s.N : ℤ) - k).toNat = s.N - k := by omega
      have e2 : ((s.N : ℤ) - k - 1).toNat = s.N - k - 1 := by omega
      have e3 : ((s.N : ℤ) - k + ((s.N : ℤ) - k - 1) - 1).toNat =
          (s.N - k) + (s.N - k - 1) - 1 := by omega
      rw [e1, e2, e3]
      simp only [asInts, List.map_cons] at hc
      rw [hc, Res.ok_bind]
      simp only [Poly.computeMinMaxCandidates, Poly.getRoots, Poly.getCoefficients]
      rw [if_neg (by simp [Poly.N])]
      simp [hcand]
    · apply cand_inside hab
      intro x hx
      exact ⟨((hmemc x).mp hx).1, ((hmemc x).mp hx).2.1⟩
    · intro x hx
      obtain ⟨M, hM, h1, t, ht, h2, h3, _⟩ := near_max _ hab hε _ _ (by simp) (by simp) hcov hRS
      exact ⟨M, hM, h1 x hx, t, ht, h2, h3⟩
    · intro _ x hx
      obtain ⟨M, hM, h1, t, ht, h2, h3, _⟩ := near_min _ hab hε _ _ (by simp) (by simp) hcov hRS
      exact ⟨M, hM, h1 x hx, t, ht, h2, h3⟩

/-- The loop over the segments bounds the magnitude at every candidate. -/
theorem minMaxMagnitudeLoop_times (rf : RootFinder ℝ) (k : ℕ) (ds : List ℕ) (segs : List (Segment ℝ))
    (times : Segment ℝ → List ℝ)
    (hT : ∀ s ∈ segs, 0 ≤ s.time)
    (hc : ∀ s ∈ segs, s.magnitudeCandidates rf Real.sqrt k 0 s.time (asInts ds) =
      .ok (true, (0 :: s.time :: times s).map fun t => ⟨t, magnitude s.polys ds k t, 0⟩))
    (hin : ∀ s ∈ segs, ∀ t ∈ 0 :: s.time :: times s, t ∈ Icc 0 s.time)
    (hfin : ∀ s ∈ segs, magnitude s.polys ds k 0 < dblMax)
    (i : ℕ) (mn0 mx0 : Extremum ℝ) {r : Bool × Extremum ℝ × Extremum ℝ}
    (hr : minMaxMagnitudeLoop rf Real.sqrt k (asInts ds) segs i mn0 mx0 = .ok r) :
    r.2.1.value ≤ mn0.value ∧ mx0.value ≤ r.2.2.value ∧
    ∀ s ∈ segs, ∀ t ∈ 0 :: s.time :: times s,
      r.2.1.value ≤ magnitude s.polys ds k t ∧ magnitude s.polys ds k t ≤ r.2.2.value := by
  induction segs generalizing i mn0 mx0 with
  | nil =>
    unfold minMaxMagnitudeLoop at hr
    cases hr
    exact ⟨le_rfl, le_rfl, by simp⟩
  | cons s ss ih =>
    have hf : -dblMax < magnitude s.polys ds k 0 ∧ magnitude s.polys ds k 0 < dblMax := by
      refine ⟨?_, hfin s (by simp)⟩
      have h1 := magnitude_nonneg s.polys ds k 0
      have h2 : (0 : ℝ) < dblMax := lt_trans (by norm_num) dblMax_gt
      linarith
    obtain ⟨tm, htm, tM, htM, hsel, hbound⟩ := selectMinMaxMagnitude_ok
      (fun t => magnitude s.polys ds k t) (hT s (by simp)) (0 :: s.time :: times s)
      (hin s (by simp)) 0 (by simp) hf Extremum.zero Extremum.zero
    set mn1 : Extremum ℝ := if magnitude s.polys ds k tm < mn0.value then
      ⟨tm, magnitude s.polys ds k tm, i⟩ else mn0 with hmn1
    set mx1 : Extremum ℝ := if magnitude s.polys ds k tM > mx0.value then
      ⟨tM, magnitude s.polys ds k tM, i⟩ else mx0 with hmx1
    have hr' : minMaxMagnitudeLoop rf Real.sqrt k (asInts ds) ss (i + 1) mn1 mx1 = .ok r := by
      rw [← hr]
      simp only [minMaxMagnitudeLoop, hc s (by simp), Res.ok_bind, hsel, Bool.not_true]
      rfl
    obtain ⟨g1, g2, g3⟩ := ih (fun x hx => hT x (by simp [hx])) (fun x hx => hc x (by simp [hx]))
      (fun x hx => hin x (by simp [hx])) (fun x hx => hfin x (by simp [hx])) (i + 1) mn1 mx1 hr'
    have c1 : mn1.value ≤ mn0.value := by
      rw [hmn1]; split
      · exact le_of_lt (by assumption)
      · exact le_rfl
    have c2 : mn1.value ≤ magnitude s.polys ds k tm := by
      rw [hmn1]; split
      · exact le_rfl
      · exact not_lt.mp (by assumption)
    have c3 : mx0.value ≤ mx1.value := by
      rw [hmx1]; split
      · exact le_of_lt (by assumption)
      · exact le_rfl
    have c4 : magnitude s.polys ds k tM ≤ mx1.value := by
      rw [hmx1]; split
      · exact le_rfl
      · exact not_lt.mp (by assumption)
    refine ⟨le_trans g1 c1, le_trans c3 g2, ?_⟩
    intro x hx
    rcases List.mem_cons.mp hx with rfl | hx
    · intro t ht
      obtain ⟨b0, b1⟩ := hbound t ht
      exact ⟨le_trans (le_trans g1 c2) b0, le_trans b1 (le_trans c4 g2)⟩
    · exact g3 x hx

/-! #### magnitudes change no faster than the magnitude of the next derivative -/

/-- The vector of the components `ds`. -/
noncomputable def vec (s : Segment ℝ) (ds : List ℕ) (k : ℕ) (t : ℝ) : EuclideanSpace ℝ (Fin ds.length) :=
  WithLp.toLp 2 fun i => derivAt (s.polys.getD ds[i] ⟨[]⟩).coeffs k t

theorem norm_vec (s : Segment ℝ) (ds : List ℕ) (hds : ∀ d ∈ ds, d < s.D) (k : ℕ) (t : ℝ) :
    ‖vec s ds k t‖ = magnitude s.polys ds k t := by
  rw [EuclideanSpace.norm_eq, magnitude_eq s ds hds]
  congr 1
  unfold sqPoly vec
  rw [eval_list_sum, List.map_map]
  simp only [Real.norm_eq_abs, sq_abs]
  rw [← List.sum_ofFn]
  congr 1
  apply List.ext_getElem
  · simp
  · intro i h1 h2
    simp [derivAt]

theorem vec_deriv (s : Segment ℝ) (ds : List ℕ) (k : ℕ) (t : ℝ) :
    HasDerivAt (vec s ds k) (vec s ds (k + 1) t) t := by
  have : HasDerivAt (fun t => fun i : Fin ds.length => derivAt (s.polys.getD ds[i] ⟨[]⟩).coeffs k t)
      (fun i => derivAt (s.polys.getD ds[i] ⟨[]⟩).coeffs (k + 1) t) t := by
    rw [hasDerivAt_pi]
    intro i
    unfold derivAt
    rw [Function.iterate_succ_apply']
    exact Polynomial.hasDerivAt _ _
  exact (PiLp.continuousLinearEquiv 2 ℝ (fun _ : Fin ds.length => ℝ)).symm.hasFDerivAt.comp_hasDerivAt t this

theorem magnitude_lipschitz (s : Segment ℝ) (ds : List ℕ) (hds : ∀ d ∈ ds, d < s.D) (k : ℕ)
    {a b L : ℝ} (hL : ∀ t ∈ Icc a b, magnitude s.polys ds (k + 1) t ≤ L) {x y : ℝ}
    (hx : x ∈ Icc a b) (hy : y ∈ Icc a b) :
    |magnitude s.polys ds k y - magnitude s.polys ds k x| ≤ L * |y - x| := by
  have := (convex_Icc a b).norm_image_sub_le_of_norm_hasDerivWithin_le (f := vec s ds k)
    (f' := fun t => vec s ds (k + 1) t) (C := L)
    (fun t _ => (vec_deriv s ds k t).hasDerivWithinAt)
    (fun t ht => by rw [norm_vec s ds hds]; exact hL t ht) hx hy
  rw [← norm_vec s ds hds, ← norm_vec s ds hds]
  exact le_trans (abs_norm_sub_norm_le _ _) (by simpa using this)

/-- The extrema of a magnitude over a trajectory, with a root finder of accuracy `ε`. -/
theorem maxMagnitude_near (rf : RootFinder ℝ) {ε : ℝ} (hε : 0 ≤ ε) (hrf : Approx ε rf)
    (tr : Trajectory ℝ) (h : tr.WF)
    (hne : tr.segments ≠ []) (k : ℕ) (hk : k < tr.N) (hk2 : k + 1 < 22) (ds : List ℕ) (hds0 : ds ≠ [])
    (hds : ∀ d ∈ ds, d < tr.D)
    (hfin : ∀ s ∈ tr.segments, magnitude s.polys ds k 0 < dblMax)
    (L : ℝ) (hL : ∀ s ∈ tr.segments, ∀ t ∈ Icc 0 s.time, magnitude s.polys ds (k + 1) t ≤ L)
    (mn0 mx0 : Extremum ℝ) :
    ∃ mn mx, tr.computeMinMaxMagnitude rf Real.sqrt k (asInts ds) mn0 mx0 = .ok (true, mn, mx) ∧
      (∀ s ∈ tr.segments, ∀ t ∈ Icc 0 s.time, magnitude s.polys ds k t ≤ mx.value + L * ε) ∧
      (2 ≤ ds.length → ∀ s ∈ tr.segments, ∀ t ∈ Icc 0 s.time,
        mn.value - L * ε ≤ magnitude s.polys ds k t) ∧
      (∃ hj : mx.segmentIdx < tr.segments.length, mx.time ∈ Icc 0 tr.segments[mx.segmentIdx].time ∧
        mx.value = magnitude tr.segments[mx.segmentIdx].polys ds k mx.time) ∧
      (∃ hj : mn.segmentIdx < tr.segments.length, mn.time ∈ Icc 0 tr.segments[mn.segmentIdx].time ∧
        mn.value = magnitude tr.segments[mn.segmentIdx].polys ds k mn.time) := by
  have hw : ∀ s ∈ tr.segments, s.WF ∧ k < s.N ∧ (∀ d ∈ ds, d < s.D) ∧ 0 ≤ s.time := fun s hs =>
    ⟨h.wf s hs, by rw [h.coeffs s hs]; exact hk, fun d hd => by rw [h.dims s hs]; exact hds d hd,
      h.nonneg s hs⟩
  obtain ⟨mn, mx, h1, h2, h3, h4, h7, h8⟩ := minMaxMagnitudeLoop_any rf k hk2 ds hds0
    tr.segments hw hfin 0 { mn0 with value := dblMax } { mx0 with value := -dblMax }
  have hcand : ∀ s, ∃ rest, s ∈ tr.segments →
      (s.candidateTimes rf k 0 s.time (asInts ds) = .ok (true, 0 :: s.time :: rest) ∧
      (∀ t ∈ 0 :: s.time :: rest, t ∈ Icc 0 s.time) ∧
      NearSpec s ds k ε 0 s.time (0 :: s.time :: rest)) := by
    intro s
    by_cases hs : s ∈ tr.segments
    · obtain ⟨w1, w2, w3, w4⟩ := hw s hs
      obtain ⟨rest, q⟩ := candidateTimes_near rf hε hrf s w1 k w2 hk2 ds hds0 w3 w4
      exact ⟨rest, fun _ => q⟩
    · exact ⟨[], fun h => absurd h hs⟩
  choose times ht using hcand
  have hmc : ∀ s ∈ tr.segments, s.magnitudeCandidates rf Real.sqrt k 0 s.time (asInts ds) =
      .ok (true, (0 :: s.time :: times s).map fun t => ⟨t, magnitude s.polys ds k t, 0⟩) := by
    intro s hs
    unfold Segment.magnitudeCandidates
    rw [(ht s hs).1, Res.ok_bind]
    rw [Res.mapM_ok (g := fun t => (⟨t, magnitude s.polys ds k t, 0⟩ : Extremum ℝ))]
    · rfl
    · intro t _
      rw [squares_ok s (hw s hs).1 ds (hw s hs).2.2.1, Res.ok_bind, zero_add,
        magnitude_eq s ds (hw s hs).2.2.1]
      rfl
  obtain ⟨_, _, hall⟩ := minMaxMagnitudeLoop_times rf k ds tr.segments times
    (fun s hs => h.nonneg s hs) hmc (fun s hs => (ht s hs).2.1) hfin 0 _ _ h1
  have hpos : 0 < tr.segments.length := List.length_pos_iff.mpr hne
  have hs0 := List.getElem_mem hpos
  have hdm : (0 : ℝ) < dblMax := lt_trans (by norm_num) dblMax_gt
  refine ⟨mn, mx, h1, ?_, ?_, ?_, ?_⟩
  · intro s hs t htt
    obtain ⟨M, hM, q1, u, hu, q2, q3⟩ := (ht s hs).2.2.upper t htt
    have q4 := (hall s hs u hu).2
    have q5 := magnitude_lipschitz s ds (hw s hs).2.2.1 k (hL s hs) hM q2
    have hL0 : 0 ≤ L := le_trans (magnitude_nonneg _ _ _ _) (hL s hs t htt)
    have q6 : L * |u - M| ≤ L * ε := mul_le_mul_of_nonneg_left q3 hL0
    have q7 : magnitude s.polys ds k t ≤ magnitude s.polys ds k M := by
      rw [magnitude_eq s ds (hw s hs).2.2.1, magnitude_eq s ds (hw s hs).2.2.1]
      exact Real.sqrt_le_sqrt q1
    have := abs_le.mp (le_trans q5 q6)
    dsimp only at q4
    linarith [this.1]
  · intro h2d s hs t htt
    obtain ⟨M, hM, q1, u, hu, q2, q3⟩ := (ht s hs).2.2.lower h2d t htt
    have q4 := (hall s hs u hu).1
    have q5 := magnitude_lipschitz s ds (hw s hs).2.2.1 k (hL s hs) hM q2
    have hL0 : 0 ≤ L := le_trans (magnitude_nonneg _ _ _ _) (hL s hs t htt)
    have q6 : L * |u - M| ≤ L * ε := mul_le_mul_of_nonneg_left q3 hL0
    have q7 : magnitude s.polys ds k M ≤ magnitude s.polys ds k t := by
      rw [magnitude_eq s ds (hw s hs).2.2.1, magnitude_eq s ds (hw s hs).2.2.1]
      exact Real.sqrt_le_sqrt q1
    have := abs_le.mp (le_trans q5 q6)
    dsimp only at q4
    linarith [this.2]
  · rcases h7 with h7 | ⟨j, hj, e1, e2, e3, _⟩
    · have := (h4 _ hs0).2.2.1
      rw [h7] at this
      have hn := magnitude_nonneg tr.segments[0].polys ds k 0
      simp only at this
      linarith
    · have e : mx.segmentIdx = j := by omega
      simp only [e]
      exact ⟨hj, e2, e3⟩
  · rcases h8 with h8 | ⟨j, hj, e1, e2, e3⟩
    · have := (h4 _ hs0).1
      rw [h8] at this
      have hn := hfin _ hs0
      simp only at this
      linarith
    · have e : mn.segmentIdx = j := by omega
      simp only [e]
      exact ⟨hj, e2, e3⟩

/-! #### scaling to meet limits -/

/-- What scaling by factors of at least 1 does to a trajectory. -/
structure Slowed (tr r : Trajectory ℝ) (c : ℝ) : Prop where
  one : 1 ≤ c
  wf : r.WF
  ne : r.segments ≠ []
  D : r.D = tr.D
  N : r.N = tr.N
  times : r.getSegmentTimes = tr.getSegmentTimes.map (· * c)
  total : r.maxTime = tr.maxTime * c
  eval : ∀ t (k : ℕ), r.evaluate (c * t) k = (fun v => v.map (· / c ^ k)) <$> tr.evaluate t k
  mag : ∀ s ∈ r.segments, ∀ t ∈ Icc 0 s.time, ∃ s' ∈ tr.segments, ∃ x ∈ Icc 0 s'.time,
    ∀ ds k, magnitude s.polys ds k t = magnitude s'.polys ds k x / c ^ k

theorem Slowed.refl {tr : Trajectory ℝ} (h : tr.WF) (hne : tr.segments ≠ []) : Slowed tr tr 1 := by
  refine ⟨le_rfl, h, hne, rfl, rfl, by simp, by simp, ?_, ?_⟩
  · intro t k
    rw [one_mul]
    cases tr.evaluate t k <;> simp
  · intro s hs t ht
    exact ⟨s, hs, t, ht, fun ds k => by simp⟩

theorem scaleCore_magnitude_all (tr : Trajectory ℝ) (c : ℝ) (hc : 0 < c) (s : Segment ℝ)
    (hs : s ∈ (tr.scaleCore c).segments) (t : ℝ) (ht : t ∈ Icc 0 s.time) :
    ∃ s' ∈ tr.segments, ∃ x ∈ Icc 0 s'.time,
      ∀ ds k, magnitude s.polys ds k t = magnitude s'.polys ds k x / c ^ k := by
  obtain ⟨s', hs', rfl⟩ := List.mem_map.mp hs
  have hT : (s'.scaleTime c).time = s'.time * c := rfl
  rw [hT] at ht
  refine ⟨s', hs', t / c, ⟨div_nonneg ht.1 hc.le, by rw [div_le_iff₀ hc]; exact ht.2⟩, ?_⟩
  intro ds k
  rw [← magnitude_scaleTime s' ds c hc]
  congr 1
  field_simp

theorem Slowed.scale {tr r : Trajectory ℝ} {c : ℝ} (h : Slowed tr r c) {d : ℝ} (hd : 1 ≤ d) :
    Slowed tr (r.scaleCore d) (c * d) := by
  have hd0 : 0 < d := by linarith
  have hc0 : 0 < c := by linarith [h.one]
  have hwf := scaleCore_WF r h.wf d hd0
  refine ⟨one_le_mul_of_one_le_of_one_le h.one hd, hwf, by simpa [Trajectory.scaleCore] using h.ne,
    h.D, h.N, ?_, ?_, ?_, ?_⟩
  · rw [scaleCore_times, h.times, List.map_map]
    apply List.map_congr_left
    intro x _
    simp only [Function.comp_apply]
    ring
  · rw [hwf.total, scaleCore_times, List.sum_map_mul_right]
    simp only [List.map_id']
    rw [← h.wf.total, h.total]
    ring
  · intro t k
    have e : c * d * t = d * (c * t) := by ring
    rw [e, evaluate_scaleCore r h.wf.wf d hd0 (c * t) k, h.eval t k]
    cases tr.evaluate t k
    · simp only [Res.map_ok, List.map_map, Res.ok.injEq]
      apply List.map_congr_left
      intro x _
      simp only [Function.comp_apply, mul_pow, div_div]
    all_goals rfl
  · intro s hs t ht
    obtain ⟨s1, hs1, x1, hx1, e1⟩ := scaleCore_magnitude_all r d hd0 s hs t ht
    obtain ⟨s2, hs2, x2, hx2, e2⟩ := h.mag s1 hs1 x1 hx1
    refine ⟨s2, hs2, x2, hx2, fun ds k => ?_⟩
    rw [e1, e2, div_div, mul_pow]

theorem Slowed.le {tr r : Trajectory ℝ} {c : ℝ} (h : Slowed tr r c) {ds : List ℕ} {k : ℕ} {B : ℝ}
    (hB : ∀ s ∈ tr.segments, ∀ t ∈ Icc 0 s.time, magnitude s.polys ds k t ≤ B) :
    ∀ s ∈ r.segments, ∀ t ∈ Icc 0 s.time, magnitude s.polys ds k t ≤ B := by
  intro s hs t ht
  obtain ⟨s', hs', x, hx, e⟩ := h.mag s hs t ht
  rw [e]
  exact le_trans (div_le_self (magnitude_nonneg _ _ _ _) (one_le_pow₀ h.one)) (hB s' hs' x hx)

theorem Slowed.finite {tr r : Trajectory ℝ} {c : ℝ} (h : Slowed tr r c) (hfin : FiniteVA tr) :
    FiniteVA r := by
  intro s hs t ht
  obtain ⟨s', hs', x, hx, e⟩ := h.mag s hs t ht
  rw [e, e, h.D]
  obtain ⟨f1, f2⟩ := hfin s' hs' x hx
  exact ⟨lt_of_le_of_lt (div_le_self (magnitude_nonneg _ _ _ _) (one_le_pow₀ h.one)) f1,
    lt_of_le_of_lt (div_le_self (magnitude_nonneg _ _ _ _) (one_le_pow₀ h.one)) f2⟩

theorem maxVA_near (rf : RootFinder ℝ) {ε : ℝ} (hε : 0 ≤ ε) (hrf : Approx ε rf) (tr : Trajectory ℝ)
    (h : tr.WF) (hne : tr.segments ≠ []) (hD : 0 < tr.D) (hN : 3 ≤ tr.N) (hfin : FiniteVA tr)
    (A J : ℝ) (hA : ∀ s ∈ tr.segments, ∀ t ∈ Icc 0 s.time, magnitude s.polys (List.range tr.D) 2 t ≤ A)
    (hJ : ∀ s ∈ tr.segments, ∀ t ∈ Icc 0 s.time, magnitude s.polys (List.range tr.D) 3 t ≤ J) :
    ∃ v a, tr.maxVelocityAndAcceleration rf Real.sqrt = .ok (true, v, a) ∧ 0 ≤ v ∧ 0 ≤ a ∧
      (∀ s ∈ tr.segments, ∀ t ∈ Icc 0 s.time, magnitude s.polys (List.range tr.D) 1 t ≤ v + A * ε ∧
        magnitude s.polys (List.range tr.D) 2 t ≤ a + J * ε) ∧
      (∃ s ∈ tr.segments, ∃ t ∈ Icc 0 s.time, v = magnitude s.polys (List.range tr.D) 1 t) ∧
      (∃ s ∈ tr.segments, ∃ t ∈ Icc 0 s.time, a = magnitude s.polys (List.range tr.D) 2 t) := by
  have hr : List.range tr.D ≠ [] := by
    intro h0; have := congrArg List.length h0; simp at this; omega
  obtain ⟨mn1, mx1, a1, a2, _, ⟨a3, a4, a5⟩, _⟩ := maxMagnitude_near rf hε hrf tr h hne 1 (by omega)
    (by norm_num) (List.range tr.D) hr (fun d hd => List.mem_range.mp hd)
    (fun s hs => (hfin s hs 0 ⟨le_rfl, h.nonneg s hs⟩).1) A hA Extremum.zero Extremum.zero
  obtain ⟨mn2, mx2, b1, b2, _, ⟨b3, b4, b5⟩, _⟩ := maxMagnitude_near rf hε hrf tr h hne 2 (by omega)
    (by norm_num) (List.range tr.D) hr (fun d hd => List.mem_range.mp hd)
    (fun s hs => (hfin s hs 0 ⟨le_rfl, h.nonneg s hs⟩).2) J hJ Extremum.zero Extremum.zero
  refine ⟨mx1.value, mx2.value, ?_, ?_, ?_, ?_, ?_, ?_⟩
  · unfold Trajectory.maxVelocityAndAcceleration
    simp only [asInts_range]
    have e1 : tr.computeMinMaxMagnitude rf Real.sqrt 1 (asInts (List.range tr.D)) Extremum.zero
      Extremum.zero = .ok (true, mn1, mx1) := a1
    have e2 : tr.computeMinMaxMagnitude rf Real.sqrt 2 (asInts (List.range tr.D)) Extremum.zero
      Extremum.zero = .ok (true, mn2, mx2) := b1
    rw [e1, e2]
    rfl
  · rw [a5]; exact magnitude_nonneg _ _ _ _
  · rw [b5]; exact magnitude_nonneg _ _ _ _
  · intro s hs t ht
    exact ⟨a2 s hs t ht, b2 s hs t ht⟩
  · exact ⟨_, List.getElem_mem a3, _, a4, a5⟩
  · exact ⟨_, List.getElem_mem b3, _, b4, b5⟩

/-- The loop of the scaling function: the result is a slowed-down version of the start, and if the flag is
true it meets the limits up to the error of the maxima. -/
theorem scaleLoop_near (rf : RootFinder ℝ) {ε : ℝ} (hε : 0 ≤ ε) (hrf : Approx ε rf) (tr : Trajectory ℝ)
    (hD : 0 < tr.D) (hN : 3 ≤ tr.N) (hfin : FiniteVA tr)
    (vMax aMax : ℝ) (hv : 0 < vMax) (ha : 0 < aMax) (A J : ℝ)
    (hA : ∀ s ∈ tr.segments, ∀ t ∈ Icc 0 s.time, magnitude s.polys (List.range tr.D) 2 t ≤ A)
    (hJ : ∀ s ∈ tr.segments, ∀ t ∈ Icc 0 s.time, magnitude s.polys (List.range tr.D) 3 t ≤ J)
    (n : ℕ) (r0 : Trajectory ℝ) (c0 : ℝ) (h0 : Slowed tr r0 c0) :
    ∃ b r c, scaleToMeetLoop rf Real.sqrt vMax aMax n r0 = .ok (b, r) ∧ Slowed tr r c ∧
      (b = true → ∀ s ∈ r.segments, ∀ t ∈ Icc 0 s.time,
        magnitude s.polys (List.range tr.D) 1 t ≤
          (1 + 1 / 1000) * vMax + ((1 + 1 / 1000) * aMax + J * ε) * ε ∧
        magnitude s.polys (List.range tr.D) 2 t ≤ (1 + 1 / 1000) * aMax + J * ε) := by
  induction n generalizing r0 c0 with
  | zero => exact ⟨false, r0, c0, rfl, h0, by simp⟩
  | succ n ih =>
    have hA0 := h0.le hA
    have hJ0 := h0.le hJ
    rw [← h0.D] at hA0 hJ0
    obtain ⟨v, a, h1, hv0, ha0, h2, _, _⟩ := maxVA_near rf hε hrf r0 h0.wf h0.ne (by rw [h0.D]; exact hD)
      (by rw [h0.N]; exact hN) (h0.finite hfin) A J hA0 hJ0
    by_cases hin : v / vMax ≤ 1 + 1 / 1000 ∧ a / aMax ≤ 1 + 1 / 1000
    · refine ⟨true, r0, c0, ?_, h0, ?_⟩
      · rw [scaleToMeetLoop, h1, Res.ok_bind]
        simp only
        rw [if_pos hin]; rfl
      · intro _
        rw [div_le_iff₀ hv, div_le_iff₀ ha] at hin
        have hacc : ∀ s ∈ r0.segments, ∀ t ∈ Icc 0 s.time,
            magnitude s.polys (List.range r0.D) 2 t ≤ (1 + 1 / 1000) * aMax + J * ε := by
          intro s hs t ht
          linarith [(h2 s hs t ht).2]
        -- a second look at the speed, with the bound of the acceleration just found
        obtain ⟨v', a', k1, _, _, k2, _, _⟩ := maxVA_near rf hε hrf r0 h0.wf h0.ne
          (by rw [h0.D]; exact hD) (by rw [h0.N]; exact hN) (h0.finite hfin) _ J hacc hJ0
        rw [h1] at k1
        simp only [Res.ok.injEq, Prod.mk.injEq, true_and] at k1
        obtain ⟨rfl, rfl⟩ := k1
        intro s hs t ht
        rw [← h0.D]
        exact ⟨by linarith [(k2 s hs t ht).1], hacc s hs t ht⟩
    · obtain ⟨b, r, c, e1, e2, e3⟩ := ih (r0.scaleCore (max 1 (max (v / vMax) (Real.sqrt (a / aMax)))))
        _ (h0.scale (le_max_left _ _))
      refine ⟨b, r, c, ?_, e2, e3⟩
      rw [scaleToMeetLoop, h1, Res.ok_bind]
      simp only
      rw [if_neg hin]
      exact e1

/-- If the accuracy is good enough the limits are met at the second look. -/
theorem scaleToMeet_accurate (rf : RootFinder ℝ) {ε : ℝ} (hε : 0 ≤ ε) (hrf : Approx ε rf)
    (tr : Trajectory ℝ) (h : tr.WF) (hne : tr.segments ≠ [])
    (hD : 0 < tr.D) (hN : 3 ≤ tr.N) (hfin : FiniteVA tr)
    (vMax aMax : ℝ) (hv : 0 < vMax) (ha : 0 < aMax) (A J : ℝ)
    (hA : ∀ s ∈ tr.segments, ∀ t ∈ Icc 0 s.time, magnitude s.polys (List.range tr.D) 2 t ≤ A)
    (hJ : ∀ s ∈ tr.segments, ∀ t ∈ Icc 0 s.time, magnitude s.polys (List.range tr.D) 3 t ≤ J)
    (hAv : A * ε ≤ vMax / 1000) (hJa : J * ε ≤ aMax / 1000) :
    ∃ r, tr.scaleToMeetConstraints rf Real.sqrt vMax aMax = .ok (true, r) := by
  obtain ⟨v, a, h1, hv0, ha0, h2, _, _⟩ := maxVA_near rf hε hrf tr h hne hD hN hfin A J hA hJ
  unfold Trajectory.scaleToMeetConstraints
  by_cases hin : v / vMax ≤ 1 + 1 / 1000 ∧ a / aMax ≤ 1 + 1 / 1000
  · refine ⟨tr, ?_⟩
    rw [scaleToMeetLoop, h1, Res.ok_bind]
    simp only
    rw [if_pos hin]; rfl
  · set c := max 1 (max (v / vMax) (Real.sqrt (a / aMax))) with hcdef
    have hc1 : 1 ≤ c := le_max_left _ _
    have hc : 0 < c := by linarith
    have hcv : v / vMax ≤ c := le_trans (le_max_left _ _) (le_max_right _ _)
    have hca : Real.sqrt (a / aMax) ≤ c := le_trans (le_max_right _ _) (le_max_right _ _)
    have hca2 : a / aMax ≤ c ^ 2 := by
      have h0 : 0 ≤ a / aMax := div_nonneg ha0 ha.le
      calc a / aMax = Real.sqrt (a / aMax) ^ 2 := (Real.sq_sqrt h0).symm
        _ ≤ c ^ 2 := pow_le_pow_left₀ (Real.sqrt_nonneg _) hca 2
    rw [div_le_iff₀ hv] at hcv
    rw [div_le_iff₀ ha] at hca2
    have hsl : Slowed tr (tr.scaleCore c) (1 * c) := (Slowed.refl h hne).scale hc1
    have hA0 := hsl.le hA
    have hJ0 := hsl.le hJ
    obtain ⟨v', a', k1, _, _, _, ⟨s1, hs1, x1, hx1, e1⟩, ⟨s2, hs2, x2, hx2, e2⟩⟩ :=
      maxVA_near rf hε hrf (tr.scaleCore c) hsl.wf hsl.ne hD hN (hsl.finite hfin) A J hA0 hJ0
    refine ⟨tr.scaleCore c, ?_⟩
    rw [scaleToMeetLoop, h1, Res.ok_bind]
    simp only
    rw [if_neg hin, scaleToMeetLoop, k1, Res.ok_bind]
    simp only
    rw [if_pos]
    · rfl
    · obtain ⟨p1, hp1, y1, hy1, f1⟩ := hsl.mag s1 hs1 x1 hx1
      obtain ⟨p2, hp2, y2, hy2, f2⟩ := hsl.mag s2 hs2 x2 hx2
      have g1 := (h2 p1 hp1 y1 hy1).1
      have g2 := (h2 p2 hp2 y2 hy2).2
      have hDD : (tr.scaleCore c).D = tr.D := rfl
      rw [hDD] at e1 e2
      rw [div_le_iff₀ hv, div_le_iff₀ ha, e1, e2, f1, f2, one_mul, pow_one,
        div_le_iff₀ hc, div_le_iff₀ (by positivity)]
      have hc2 : 1 ≤ c ^ 2 := one_le_pow₀ hc1
      constructor
      · nlinarith
      · nlinarith

end Verif
