import Verif.Model.RoundedExtrema
import Verif.Spec.RoundedExtrema
import Verif.Proofs.ApproxRoots
import Verif.Props.Rounded

/- Helper lemmas for the extrema of a polynomial with rounded numbers. -/
set_option linter.unusedSectionVars false

namespace Verif

open Polynomial Spec Set

/-- The sign changes of `Q` in an interval have a number of the list within `ε`. -/
def CoversOn (ε a b : ℝ) (R : List ℝ) (Q : ℝ[X]) : Prop :=
  ∀ u v : ℝ, a ≤ u → u < v → v ≤ b → Q.eval u * Q.eval v < 0 → ∃ z ∈ R, u - ε ≤ z ∧ z ≤ v + ε

theorem near_max_on (P : ℝ[X]) {a b : ℝ} (hab : a ≤ b) {ε : ℝ} (hε : 0 ≤ ε) (R S : List ℝ)
    (ha : a ∈ S) (hb : b ∈ S) (hR : CoversOn ε a b R (derivative P))
    (hRS : ∀ z ∈ R, z ∈ Icc a b → z ∈ S) :
    ∃ M ∈ Icc a b, (∀ x ∈ Icc a b, P.eval x ≤ P.eval M) ∧
      ∃ s ∈ S, s ∈ Icc a b ∧ |s - M| ≤ ε ∧ (s = M ∨ (derivative P).eval M = 0) := by
  obtain ⟨M, hM, hmax⟩ := isCompact_Icc.exists_isMaxOn (s := Icc a b) ⟨a, left_mem_Icc.mpr hab⟩
    (f := fun x => P.eval x) P.continuous.continuousOn
  have hmax' : ∀ x ∈ Icc a b, P.eval x ≤ P.eval M := fun x hx => hmax hx
  by_cases hP : derivative P = 0
  · have hc := Polynomial.derivative_eq_zero.mp hP
    obtain ⟨c, hc⟩ := Polynomial.natDegree_eq_zero.mp hc
    exact ⟨a, left_mem_Icc.mpr hab, fun x _ => by rw [← hc]; simp, a, ha, left_mem_Icc.mpr hab,
      by simpa using hε, Or.inl rfl⟩
  refine ⟨M, hM, hmax', ?_⟩
  rcases eq_or_lt_of_le hM.1 with h1 | h1
  · exact ⟨M, h1 ▸ ha, hM, by simpa using hε, Or.inl rfl⟩
  rcases eq_or_lt_of_le hM.2 with h2 | h2
  · exact ⟨M, h2 ▸ hb, hM, by simpa using hε, Or.inl rfl⟩
  have hcrit : (derivative P).eval M = 0 := by
    have h : IsLocalMax (fun x => P.eval x) M := hmax.isLocalMax (Icc_mem_nhds h1 h2)
    have := h.deriv_eq_zero
    rwa [Polynomial.deriv] at this
  have hz : ∃ z ∈ R, |z - M| ≤ ε := by
    by_contra hcon
    push Not at hcon
    obtain ⟨δ, hδ, hgap⟩ := list_gap R M ε hcon
    have hδ1 : min δ (min (M - a) (b - M)) ≤ δ := min_le_left _ _
    have hδ2 : min δ (min (M - a) (b - M)) ≤ M - a := (min_le_right _ _).trans (min_le_left _ _)
    have hδ3 : min δ (min (M - a) (b - M)) ≤ b - M := (min_le_right _ _).trans (min_le_right _ _)
    have hδ0 : 0 < min δ (min (M - a) (b - M)) := lt_min hδ (lt_min (by linarith) (by linarith))
    obtain ⟨u, u1, u2, u3⟩ := rises_before P hP ⟨h1, h2.le⟩ hmax' _ hδ0
    obtain ⟨v, v1, v2, v3⟩ := falls_after P hP ⟨h1.le, h2⟩ hmax' _ hδ0
    obtain ⟨z, hz, z1, z2⟩ := hR u v (by linarith) (by linarith) (by linarith) (mul_neg_of_pos_of_neg u3 v3)
    have := hgap z hz
    have : |z - M| < ε + δ := abs_lt.mpr ⟨by linarith, by linarith⟩
    linarith
  obtain ⟨z, hz, hzM⟩ := hz
  have hzM' := abs_le.mp hzM
  rcases lt_or_ge z a with h3 | h3
  · exact ⟨a, ha, left_mem_Icc.mpr hab, abs_le.mpr ⟨by linarith, by linarith⟩, Or.inr hcrit⟩
  rcases lt_or_ge b z with h4 | h4
  · exact ⟨b, hb, right_mem_Icc.mpr hab, abs_le.mpr ⟨by linarith, by linarith⟩, Or.inr hcrit⟩
  · exact ⟨z, hRS z hz ⟨h3, h4⟩, ⟨h3, h4⟩, hzM, Or.inr hcrit⟩

theorem CoversOn.neg {ε a b : ℝ} {R : List ℝ} {Q : ℝ[X]} (h : CoversOn ε a b R Q) : CoversOn ε a b R (-Q) := by
  intro u v h1 huv h2 hs
  apply h u v h1 huv h2
  simpa using hs

theorem near_min_on (P : ℝ[X]) {a b : ℝ} (hab : a ≤ b) {ε : ℝ} (hε : 0 ≤ ε) (R S : List ℝ)
    (ha : a ∈ S) (hb : b ∈ S) (hR : CoversOn ε a b R (derivative P))
    (hRS : ∀ z ∈ R, z ∈ Icc a b → z ∈ S) :
    ∃ M ∈ Icc a b, (∀ x ∈ Icc a b, P.eval M ≤ P.eval x) ∧
      ∃ s ∈ S, s ∈ Icc a b ∧ |s - M| ≤ ε ∧ (s = M ∨ (derivative P).eval M = 0) := by
  obtain ⟨M, hM, h1, s, hs, h2, h3, h4⟩ := near_max_on (-P) hab hε R S ha hb
    (by rw [derivative_neg]; exact hR.neg) hRS
  refine ⟨M, hM, fun x hx => ?_, s, hs, h2, h3, ?_⟩
  · have := h1 x hx
    simp only [eval_neg] at this
    linarith
  · rw [derivative_neg, eval_neg, neg_eq_zero] at h4
    exact h4

variable {rnd : ℝ → ℝ} {u : ℝ}

/-- The coefficients of a derivative with rounding are those of the derivative of a polynomial with close coefficients. -/
theorem getCoefficients_rounded (h : Rounding rnd u) (p : Poly (Fl rnd)) (k : ℕ) (hk : k < p.N) (hN : p.N ≤ 22)
    (hk2 : k + 1 < 22) :
    ∃ c c', p.getCoefficients ((k : ℤ) + 1) = .ok c ∧ List.Forall₂ (Close u (2 * p.N)) c' (vals p.coeffs) ∧
      ofCoeffs (vals c) = derivative^[k + 1] (ofCoeffs c') := by
  have hu := rounding_nonneg h
  have hterm : ∀ j, ∃ θ, |θ| ≤ (1 + u) ^ (2 * p.N) - 1 ∧ (k + 1 ≤ j → j < p.N →
      (p.coeffs.getD j 0 * (baseCoeff (k + 1) j : Fl rnd)).val =
        (j.descFactorial (k + 1) : ℝ) * ((p.coeffs.getD j 0).val * (1 + θ))) := by
    intro j
    by_cases hj : k + 1 ≤ j ∧ j < p.N
    · obtain ⟨θ, h1, h2⟩ := baseRow_rounded h kMaxConvolutionSize (k + 1) j (by unfold kMaxConvolutionSize; omega)
      obtain ⟨δ, e1, b1⟩ := rnd_factor h ((p.coeffs.getD j 0).val * (baseCoeff (k + 1) j : Fl rnd).val)
      obtain ⟨a, ea, ba⟩ := factor_mul hu h1 b1
      refine ⟨a, factor_mono hu (by omega) ba, fun _ _ => ?_⟩
      change rnd ((p.coeffs.getD j 0).val * (baseCoeff (k + 1) j : Fl rnd).val) = _
      rw [e1, baseCoeff, h2, ← ea]
      ring
    · exact ⟨0, factor_zero hu _, fun h1 h2 => absurd ⟨h1, h2⟩ hj⟩
  choose θ hθ1 hθ2 using hterm
  unfold Poly.getCoefficients
  rw [Res.check_of (by omega), Res.ok_bind, if_neg (by omega), if_neg (by unfold kMaxConvolutionSize; omega)]
  refine ⟨_, (List.range p.N).map fun j => (p.coeffs.getD j 0).val * (1 + θ j), rfl, ?_, ?_⟩
  · rw [List.forall₂_iff_get]
    unfold vals
    refine ⟨by rw [List.length_map, List.length_map, List.length_range]; rfl, fun j hj hj' => ?_⟩
    rw [List.length_map] at hj'
    simp only [List.get_eq_getElem, List.getElem_map, List.getElem_range]
    rw [List.getD_eq_getElem?_getD, List.getElem?_eq_getElem hj', Option.getD_some]
    exact close_of_factor (hθ1 j)
  · rw [show ((k : ℤ) + 1).toNat = k + 1 by omega]
    ext m
    rw [coeff_ofCoeffs, coeff_iterate_derivative, coeff_ofCoeffs]
    by_cases hm : m < p.N - (k + 1)
    · unfold vals
      rw [List.getD_eq_getElem?_getD, List.getElem?_map, List.getElem?_append_left (by simpa using hm),
        List.getElem?_map, List.getElem?_range hm, List.getD_eq_getElem?_getD, List.getElem?_map,
        List.getElem?_range (by omega)]
      simp only [Option.map_some, Option.getD_some]
      rw [hθ2 (k + 1 + m) (by omega) (by omega), nsmul_eq_mul, add_comm m (k + 1)]
    · have h2 : ((List.range p.N).map fun j => (p.coeffs.getD j 0).val * (1 + θ j)).getD (m + (k + 1)) 0 = 0 := by
        rw [List.getD_eq_getElem?_getD, List.getElem?_eq_none (by simp; omega)]
        rfl
      unfold vals
      rw [h2, smul_zero, List.getD_eq_getElem?_getD, List.getElem?_map,
        List.getElem?_append_right (by simpa using hm), List.getElem?_replicate]
      split <;> rfl

/-- The loop over the candidates. -/
theorem foldl_minMaxStepG (tvs : List (Fl rnd × Fl rnd)) (m M : Fl rnd × Fl rnd) :
    ((tvs.foldl minMaxStepG (m, M)).1.2.val ≤ m.2.val ∧ (∀ x ∈ tvs, (tvs.foldl minMaxStepG (m, M)).1.2.val ≤ x.2.val) ∧
      ((tvs.foldl minMaxStepG (m, M)).1 = m ∨ (tvs.foldl minMaxStepG (m, M)).1 ∈ tvs)) ∧
    (M.2.val ≤ (tvs.foldl minMaxStepG (m, M)).2.2.val ∧ (∀ x ∈ tvs, x.2.val ≤ (tvs.foldl minMaxStepG (m, M)).2.2.val) ∧
      ((tvs.foldl minMaxStepG (m, M)).2 = M ∨ (tvs.foldl minMaxStepG (m, M)).2 ∈ tvs)) := by
  induction tvs generalizing m M with
  | nil => simp
  | cons y ys ih =>
    rw [List.foldl_cons]
    have e : minMaxStepG (m, M) y = (if y.2 < m.2 then y else m, if y.2 > M.2 then y else M) := rfl
    rw [e]
    obtain ⟨⟨h1, h2, h3⟩, ⟨h4, h5, h6⟩⟩ := ih (if y.2 < m.2 then y else m) (if y.2 > M.2 then y else M)
    have a1 : (if y.2 < m.2 then y else m).2.val ≤ m.2.val ∧ (if y.2 < m.2 then y else m).2.val ≤ y.2.val := by
      by_cases hc : y.2 < m.2
      · rw [if_pos hc]
        exact ⟨le_of_lt (show y.2.val < m.2.val from hc), le_rfl⟩
      · rw [if_neg hc]
        exact ⟨le_rfl, not_lt.mp (show ¬ y.2.val < m.2.val from hc)⟩
    have a2 : M.2.val ≤ (if y.2 > M.2 then y else M).2.val ∧ y.2.val ≤ (if y.2 > M.2 then y else M).2.val := by
      by_cases hc : y.2 > M.2
      · rw [if_pos hc]
        exact ⟨le_of_lt (show M.2.val < y.2.val from hc), le_rfl⟩
      · rw [if_neg hc]
        exact ⟨le_rfl, not_lt.mp (show ¬ M.2.val < y.2.val from hc)⟩
    refine ⟨⟨h1.trans a1.1, ?_, ?_⟩, ⟨a2.1.trans h4, ?_, ?_⟩⟩
    · intro x hx
      rcases List.mem_cons.mp hx with rfl | hx
      · exact h1.trans a1.2
      · exact h2 x hx
    · rcases h3 with h3 | h3
      · rw [h3]
        split
        · right; simp
        · left; rfl
      · right; simp [h3]
    · intro x hx
      rcases List.mem_cons.mp hx with rfl | hx
      · exact a2.2.trans h4
      · exact h5 x hx
    · rcases h6 with h6 | h6
      · rw [h6]
        split
        · right; simp
        · left; rfl
      · right; simp [h6]

/-- The candidates with rounded numbers. -/
theorem candidatesG_some {a b : Fl rnd} (hab : a.val ≤ b.val) (roots : List (Fl rnd × Fl rnd)) :
    ∃ c, candidatesG Fl.abs ⟨dblEpsilon⟩ a b roots = some (a :: b :: c) ∧
      ∀ x, x ∈ c ↔ a.val ≤ x.val ∧ x.val ≤ b.val ∧ ∃ im : Fl rnd, (x, im) ∈ roots ∧ |im.val| ≤ dblEpsilon := by
  unfold candidatesG
  have hab' : ¬ a > b := not_lt.mpr hab
  rw [if_neg hab']
  refine ⟨_, rfl, ?_⟩
  intro x
  rw [List.mem_filterMap]
  constructor
  · rintro ⟨r, hr, h⟩
    by_cases h1 : Fl.abs r.2 > ⟨dblEpsilon⟩
    · rw [if_pos h1] at h
      simp at h
    · rw [if_neg h1] at h
      by_cases h2 : r.1 < a ∨ r.1 > b
      · rw [if_pos h2] at h
        simp at h
      · rw [if_neg h2] at h
        simp only [Option.some.injEq] at h
        subst h
        rw [not_or] at h2
        exact ⟨not_lt.mp (show ¬ r.1.val < a.val from h2.1), not_lt.mp (show ¬ b.val < r.1.val from h2.2), r.2, hr,
          not_lt.mp (show ¬ (dblEpsilon : ℝ) < |r.2.val| from h1)⟩
  · rintro ⟨h1, h2, im, hm, him⟩
    refine ⟨(x, im), hm, ?_⟩
    have i1 : ¬ Fl.abs im > ⟨dblEpsilon⟩ := not_lt.mpr him
    have i2 : ¬ (x < a ∨ x > b) := by
      rw [not_or]
      exact ⟨not_lt.mpr h1, not_lt.mpr h2⟩
    rw [if_neg i1, if_neg i2]

theorem abs_derivAt_le (c : List ℝ) (d : ℕ) {t T : ℝ} (ht : |t| ≤ T) :
    |derivAt c d t| ≤ derivAt (c.map abs) d T ∧ derivAt (c.map abs) d |t| ≤ derivAt (c.map abs) d T ∧
      0 ≤ derivAt (c.map abs) d T := by
  have hT : 0 ≤ T := (abs_nonneg _).trans ht
  have hc : ∀ i, (c.map abs).getD i 0 = |c.getD i 0| := by
    intro i
    rw [List.getD_eq_getElem?_getD, List.getD_eq_getElem?_getD, List.getElem?_map]
    cases c[i]? <;> simp
  rw [derivAt_eq_sum, derivAt_eq_sum, derivAt_eq_sum, List.length_map]
  refine ⟨(Finset.abs_sum_le_sum_abs _ _).trans (Finset.sum_le_sum fun i _ => ?_), Finset.sum_le_sum fun i _ => ?_,
    Finset.sum_nonneg fun i _ => ?_⟩
  · rw [hc, abs_mul, abs_mul, abs_pow, Nat.abs_cast]
    gcongr
  · rw [hc]
    gcongr
  · rw [hc]
    positivity

end Verif
