import Mathlib.Analysis.Calculus.LocalExtr.Basic
import Mathlib.Topology.Order.Compact
import Mathlib.Topology.Algebra.Polynomial
import Mathlib.Tactic.NormNum
import Verif.Proofs.PolynomialArith

/- Helper lemmas: extrema of polynomials on closed intervals. -/
set_option linter.unusedSectionVars false

namespace Verif

open Polynomial Spec Set

/-- A candidate list that contains both end points and all critical points of the interval
contains points where the polynomial is at most / at least its value anywhere. -/
theorem poly_extrema (P : ℝ[X]) {a b : ℝ} (hab : a ≤ b) (S : List ℝ) (ha : a ∈ S) (hb : b ∈ S)
    (hS : derivative P ≠ 0 → ∀ x ∈ Icc a b, (derivative P).eval x = 0 → x ∈ S) :
    ∀ x ∈ Icc a b, (∃ s ∈ S, P.eval s ≤ P.eval x) ∧ (∃ s ∈ S, P.eval x ≤ P.eval s) := by
  have hne : (Icc a b).Nonempty := ⟨a, left_mem_Icc.mpr hab⟩
  have hcont : ContinuousOn (fun x => P.eval x) (Icc a b) := P.continuous.continuousOn
  by_cases hP : derivative P = 0
  · have hc := Polynomial.derivative_eq_zero.mp hP
    obtain ⟨c, hc⟩ := Polynomial.natDegree_eq_zero.mp hc
    intro x _
    exact ⟨⟨a, ha, by rw [← hc]; simp⟩, ⟨a, ha, by rw [← hc]; simp⟩⟩
  · have crit : ∀ c ∈ Icc a b, IsLocalExtr (fun x => P.eval x) c ∨ c = a ∨ c = b → c ∈ S := by
      intro c hc h
      rcases h with h | h | h
      · apply hS hP c hc
        have := h.deriv_eq_zero
        rwa [Polynomial.deriv] at this
      · rwa [h]
      · rwa [h]
    obtain ⟨m, hm, hmin⟩ := isCompact_Icc.exists_isMinOn hne hcont
    obtain ⟨M, hM, hmax⟩ := isCompact_Icc.exists_isMaxOn hne hcont
    have hmS : m ∈ S := by
      apply crit m hm
      rcases eq_or_lt_of_le hm.1 with h | h
      · exact Or.inr (Or.inl h.symm)
      rcases eq_or_lt_of_le hm.2 with h' | h'
      · exact Or.inr (Or.inr h')
      · exact Or.inl (Or.inl (hmin.isLocalMin (Icc_mem_nhds h h')))
    have hMS : M ∈ S := by
      apply crit M hM
      rcases eq_or_lt_of_le hM.1 with h | h
      · exact Or.inr (Or.inl h.symm)
      rcases eq_or_lt_of_le hM.2 with h' | h'
      · exact Or.inr (Or.inr h')
      · exact Or.inl (Or.inr (hmax.isLocalMax (Icc_mem_nhds h h')))
    intro x hx
    exact ⟨⟨m, hmS, hmin hx⟩, ⟨M, hMS, hmax hx⟩⟩

section Fold
variable {K : Type} [Field K] [LinearOrder K]

theorem foldl_minMaxStep (tvs : List (K × K)) (m M : K × K) :
    let r := tvs.foldl minMaxStep (m, M)
    (r.1.2 ≤ m.2 ∧ (∀ tv ∈ tvs, r.1.2 ≤ tv.2) ∧ (r.1 = m ∨ r.1 ∈ tvs)) ∧
    (M.2 ≤ r.2.2 ∧ (∀ tv ∈ tvs, tv.2 ≤ r.2.2) ∧ (r.2 = M ∨ r.2 ∈ tvs)) := by
  induction tvs generalizing m M with
  | nil => simp
  | cons tv tvs ih =>
    simp only [List.foldl_cons]
    have hs : minMaxStep (m, M) tv = (if tv.2 < m.2 then tv else m, if tv.2 > M.2 then tv else M) :=
      rfl
    rw [hs]
    obtain ⟨⟨h1, h2, h3⟩, ⟨h4, h5, h6⟩⟩ := ih (if tv.2 < m.2 then tv else m)
      (if tv.2 > M.2 then tv else M)
    set r := tvs.foldl minMaxStep (if tv.2 < m.2 then tv else m, if tv.2 > M.2 then tv else M)
      with hr
    refine ⟨⟨?_, ?_, ?_⟩, ⟨?_, ?_, ?_⟩⟩
    · split at h1
      · exact le_of_lt (lt_of_le_of_lt h1 (by assumption))
      · exact h1
    · intro x hx
      rcases List.mem_cons.mp hx with rfl | hx
      · split at h1
        · exact h1
        · exact le_trans h1 (not_lt.mp (by assumption))
      · exact h2 x hx
    · rcases h3 with h3 | h3
      · split at h3
        · right; simp [h3]
        · left; exact h3
      · right; simp [h3]
    · split at h4
      · exact le_of_lt (lt_of_lt_of_le (by assumption) h4)
      · exact h4
    · intro x hx
      rcases List.mem_cons.mp hx with rfl | hx
      · split at h4
        · exact h4
        · exact le_trans (not_lt.mp (by assumption)) h4
      · exact h5 x hx
    · rcases h6 with h6 | h6
      · split at h6
        · right; simp [h6]
        · left; exact h6
      · right; simp [h6]

theorem candidates_some {a b : K} (hab : a ≤ b) (roots : List (K × K)) :
    ∃ c, selectMinMaxCandidatesFromRoots a b roots = some (a :: b :: c) ∧
      ∀ x, x ∈ c ↔ a ≤ x ∧ x ≤ b ∧ ∃ im, (x, im) ∈ roots ∧ |im| ≤ dblEpsilon := by
  unfold selectMinMaxCandidatesFromRoots
  rw [if_neg (not_lt.mpr hab)]
  refine ⟨_, rfl, ?_⟩
  intro x
  rw [List.mem_filterMap]
  constructor
  · rintro ⟨r, hr, h⟩
    split at h
    · simp at h
    · split at h
      · simp at h
      · next h1 h2 =>
        simp only [Option.some.injEq] at h
        subst h
        push Not at h2
        exact ⟨h2.1, h2.2, r.2, hr, not_lt.mp h1⟩
  · rintro ⟨h1, h2, im, hm, him⟩
    refine ⟨(x, im), hm, ?_⟩
    rw [if_neg (not_lt.mpr him), if_neg (by push Not; exact ⟨h1, h2⟩)]

theorem candidates_none {a b : K} (hab : b < a) (roots : List (K × K)) :
    selectMinMaxCandidatesFromRoots a b roots = none := by
  unfold selectMinMaxCandidatesFromRoots
  rw [if_pos hab]

end Fold

section Select
variable {K : Type} [Field K] [LinearOrder K] [IsStrictOrderedRing K]

theorem dblEpsilon_pos : (0 : K) < dblEpsilon := by unfold dblEpsilon; positivity

theorem dblMax_gt : (10 ^ 15 : K) < dblMax := by
  unfold dblMax
  have h : (1 : K) ≤ 2 ^ 971 := one_le_pow₀ (by norm_num)
  have h2 : (10 ^ 15 : K) < 2 ^ 53 - 1 := by norm_num
  calc (10 ^ 15 : K) < 2 ^ 53 - 1 := h2
    _ = (2 ^ 53 - 1) * 1 := by ring
    _ ≤ (2 ^ 53 - 1) * 2 ^ 971 := by
      apply mul_le_mul_of_nonneg_left h
      norm_num

/-- Selection among candidates: the returned pairs are candidates with their values and bound all
candidate values. -/
theorem selectMinMaxFromCandidates_ok (p : Poly K) (hN : p.N ≤ kMaxConvolutionSize) (k : ℕ)
    (cand : List K) (hne : cand ≠ [])
    (hfin : ∀ t ∈ cand, |derivAt p.coeffs k t| < dblMax) :
    ∃ m M, p.selectMinMaxFromCandidates cand k = .ok (some (m, M)) ∧
      m.1 ∈ cand ∧ m.2 = derivAt p.coeffs k m.1 ∧ M.1 ∈ cand ∧ M.2 = derivAt p.coeffs k M.1 ∧
      ∀ t ∈ cand, m.2 ≤ derivAt p.coeffs k t ∧ derivAt p.coeffs k t ≤ M.2 := by
  cases cand with
  | nil => exact absurd rfl hne
  | cons c cs =>
    unfold Poly.selectMinMaxFromCandidates
    simp only
    have hmap : ((c :: cs).mapM fun t => do
        let v ← p.evaluate t k
        pure (t, v)) = Res.ok ((c :: cs).map fun t => (t, derivAt p.coeffs k t)) := by
      apply Res.mapM_ok
      intro t _
      rw [evaluate_ok p t k hN, Res.ok_bind, Res.pure_eq]
    rw [hmap, Res.ok_bind]
    set tvs := (c :: cs).map fun t => (t, derivAt p.coeffs k t) with htvs
    obtain ⟨⟨h1, h2, h3⟩, ⟨h4, h5, h6⟩⟩ := foldl_minMaxStep tvs (c, dblMax) (c, -dblMax)
    set r := tvs.foldl minMaxStep ((c, dblMax), (c, -dblMax)) with hr
    have hc : (c, derivAt p.coeffs k c) ∈ tvs := by simp [htvs]
    have hcf := abs_lt.mp (hfin c (by simp))
    have m3 : r.1 ∈ tvs := by
      rcases h3 with h3 | h3
      · have := h2 _ hc
        rw [h3] at this
        exact absurd this (not_le.mpr hcf.2)
      · exact h3
    have m6 : r.2 ∈ tvs := by
      rcases h6 with h6 | h6
      · have := h5 _ hc
        rw [h6] at this
        exact absurd this (not_le.mpr hcf.1)
      · exact h6
    obtain ⟨x, hx, hx'⟩ := List.mem_map.mp m3
    obtain ⟨y, hy, hy'⟩ := List.mem_map.mp m6
    refine ⟨r.1, r.2, rfl, ?_, ?_, ?_, ?_, ?_⟩
    · rw [← hx']; exact hx
    · rw [← hx']
    · rw [← hy']; exact hy
    · rw [← hy']
    · intro t ht
      have hmem : (t, derivAt p.coeffs k t) ∈ tvs := List.mem_map.mpr ⟨t, ht, rfl⟩
      exact ⟨h2 _ hmem, h5 _ hmem⟩

theorem computeMinMaxCandidates_ok (rf : RootFinder K) (p : Poly K)
    (hN : p.N ≤ kMaxConvolutionSize) (k : ℕ) (hk : k < p.N) (hk2 : k + 1 < kMaxConvolutionSize)
    {a b : K} (hab : a ≤ b) :
    ∃ c cand, c.length = p.N ∧ ofCoeffs c = derivative^[k + 1] (ofCoeffs p.coeffs) ∧
      p.computeMinMaxCandidates rf a b k = .ok (true, a :: b :: cand) ∧
      ∀ x, x ∈ cand ↔ a ≤ x ∧ x ≤ b ∧ ∃ im, (x, im) ∈ (rf c).2 ∧ |im| ≤ dblEpsilon := by
  obtain ⟨c, hc, hl, hd⟩ := getCoefficients_ok p (k + 1) (by omega) hN hk2
  obtain ⟨cand, hcand, hmem⟩ := candidates_some hab (rf c).2
  refine ⟨c, cand, hl, hd, ?_, hmem⟩
  unfold Poly.computeMinMaxCandidates Poly.getRoots
  rw [if_neg (by omega)]
  have : ((k : ℤ) + 1) = ((k + 1 : ℕ) : ℤ) := by push_cast; rfl
  rw [this, hc]
  simp only [Res.ok_bind, Res.pure_eq, hcand]

end Select

/-- The full correctness statement used by the callers. -/
theorem computeMinMax_ok (rf : RootFinder ℝ) (hrf : Complete rf) (p : Poly ℝ)
    (hN : p.N ≤ kMaxConvolutionSize) (k : ℕ) (hk : k < p.N) (hk2 : k + 1 < kMaxConvolutionSize)
    {a b : ℝ} (hab : a ≤ b) (hfin : ∀ t ∈ Icc a b, |derivAt p.coeffs k t| < dblMax) :
    ∃ m M : ℝ × ℝ, p.computeMinMax rf a b k = .ok (some (m, M)) ∧
      m.1 ∈ Icc a b ∧ m.2 = derivAt p.coeffs k m.1 ∧
      M.1 ∈ Icc a b ∧ M.2 = derivAt p.coeffs k M.1 ∧
      ∀ t ∈ Icc a b, m.2 ≤ derivAt p.coeffs k t ∧ derivAt p.coeffs k t ≤ M.2 := by
  obtain ⟨c, cand, hl, hd, hcand, hmem⟩ := computeMinMaxCandidates_ok rf p hN k hk hk2 hab
  have hsub : ∀ x ∈ a :: b :: cand, x ∈ Icc a b := by
    intro x hx
    rcases List.mem_cons.mp hx with rfl | hx
    · exact left_mem_Icc.mpr hab
    rcases List.mem_cons.mp hx with rfl | hx
    · exact right_mem_Icc.mpr hab
    · exact ⟨((hmem x).mp hx).1, ((hmem x).mp hx).2.1⟩
  obtain ⟨m, M, hres, h1, h2, h3, h4, h5⟩ := selectMinMaxFromCandidates_ok p hN k (a :: b :: cand)
    (by simp) (fun t ht => hfin t (hsub t ht))
  refine ⟨m, M, ?_, hsub _ h1, h2, hsub _ h3, h4, ?_⟩
  · unfold Poly.computeMinMax
    rw [hcand, Res.ok_bind, if_pos rfl]
    exact hres
  · intro t ht
    have hex := poly_extrema (derivative^[k] (ofCoeffs p.coeffs)) hab (a :: b :: cand)
      (by simp) (by simp) (by
        rw [← Function.iterate_succ_apply' derivative k, ← hd]
        intro hne x hx hx0
        have := hrf c hne x hx0
        right; right
        exact (hmem x).mpr ⟨hx.1, hx.2, 0, this, by simpa using dblEpsilon_pos.le⟩) t ht
    obtain ⟨⟨s, hs, hs'⟩, ⟨s2, hs2, hs2'⟩⟩ := hex
    exact ⟨le_trans (h5 s hs).1 hs', le_trans hs2' (h5 s2 hs2).2⟩

end Verif
