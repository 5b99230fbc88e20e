import Verif.Spec.Vertex
import Mathlib.Analysis.Calculus.MeanValue
import Mathlib.Analysis.SpecialFunctions.Integrals.Basic
import Mathlib.MeasureTheory.Integral.IntervalIntegral.FundThmCalculus
import Mathlib.Analysis.Real.Sqrt

/- Helper lemmas: the least time of a rest-to-rest motion. -/
set_option linter.unusedSectionVars false

namespace Verif

open Spec Set

variable {n : ℕ}

theorem hasDerivAt_half_sq (a t : ℝ) : HasDerivAt (fun t => a * t ^ 2 / 2) (a * t) t := by
  have := ((hasDerivAt_pow 2 t).const_mul a).div_const 2
  refine this.congr_deriv ?_
  push_cast
  ring

theorem hasDerivAt_half_sq_right (a T t : ℝ) :
    HasDerivAt (fun t => -(a * (T - t) ^ 2 / 2)) (a * (T - t)) t := by
  have h0 : HasDerivAt (fun t : ℝ => T - t) (-1) t := by simpa using (hasDerivAt_id t).const_sub T
  have := (((h0.pow 2).const_mul a).div_const 2).neg
  refine this.congr_deriv ?_
  push_cast
  ring

/-- The distance covered between two times of a motion, given a bound of the speed that is a
derivative. -/
theorem dist_le_of_speed {E : Type} [NormedAddCommGroup E] [NormedSpace ℝ E] {x v : ℝ → E}
    {a b T : ℝ} (hab : a ≤ b) (ha : 0 ≤ a) (hb : b ≤ T)
    (hx : ∀ t ∈ Icc 0 T, HasDerivWithinAt x (v t) (Icc 0 T) t) {B B' : ℝ → ℝ}
    (hB : ∀ t, HasDerivAt B (B' t) t) (hv : ∀ t ∈ Ico a b, ‖v t‖ ≤ B' t) :
    ‖x b - x a‖ ≤ B b - B a := by
  have hsub : Icc a b ⊆ Icc 0 T := Icc_subset_Icc ha hb
  have key := image_norm_le_of_norm_deriv_right_le_deriv_boundary (f := fun t => x t - x a)
    (f' := v) (a := a) (b := b) (B := fun t => B t - B a) (B' := B')
    (by
      intro t ht
      exact (((hx t (hsub ht)).continuousWithinAt).mono hsub).sub continuousWithinAt_const)
    (by
      intro t ht
      have h1 := (hx t (hsub ⟨ht.1, ht.2.le⟩)).sub_const (x a)
      have : Icc 0 T ∈ nhdsWithin t (Ici t) := by
        apply Filter.mem_of_superset (Icc_mem_nhdsGE (lt_of_lt_of_le ht.2 hb))
        exact Icc_subset_Icc (le_trans ha ht.1) le_rfl
      exact h1.mono_of_mem_nhdsWithin this)
    (by simp) (fun t => (hB t).sub_const _) hv
  exact key (right_mem_Icc.mpr hab)

theorem Spec.RestToRest.speed_left {p q : EuclideanSpace ℝ (Fin n)} {vMax aMax T : ℝ}
    {x v : ℝ → EuclideanSpace ℝ (Fin n)} (h : RestToRest p q vMax aMax T x v) (t : ℝ)
    (ht : t ∈ Icc 0 T) : ‖v t‖ ≤ aMax * t := by
  have := h.acceleration 0 ⟨le_rfl, h.time_nonneg⟩ t ht
  rw [h.rest_start] at this
  simpa [abs_of_nonneg ht.1] using this

theorem Spec.RestToRest.speed_right {p q : EuclideanSpace ℝ (Fin n)} {vMax aMax T : ℝ}
    {x v : ℝ → EuclideanSpace ℝ (Fin n)} (h : RestToRest p q vMax aMax T x v) (t : ℝ)
    (ht : t ∈ Icc 0 T) : ‖v t‖ ≤ aMax * (T - t) := by
  have := h.acceleration T ⟨h.time_nonneg, le_rfl⟩ t ht
  rw [h.rest_goal] at this
  rw [abs_sub_comm, abs_of_nonneg (by linarith [ht.2])] at this
  simpa using this

/-- Bound from accelerating half of the time and decelerating the other half. -/
theorem Spec.RestToRest.dist_le_quarter {p q : EuclideanSpace ℝ (Fin n)} {vMax aMax T : ℝ}
    {x v : ℝ → EuclideanSpace ℝ (Fin n)} (h : RestToRest p q vMax aMax T x v) :
    ‖p - q‖ ≤ aMax * T ^ 2 / 4 := by
  have hT := h.time_nonneg
  have h1 := dist_le_of_speed (x := x) (v := v) (a := 0) (b := T / 2) (T := T) (by linarith) le_rfl
    (by linarith) h.deriv (B := fun t => aMax * t ^ 2 / 2) (B' := fun t => aMax * t)
    (hasDerivAt_half_sq aMax)
    (fun t ht => h.speed_left t ⟨ht.1, by linarith [ht.2]⟩)
  have h2 := dist_le_of_speed (x := x) (v := v) (a := T / 2) (b := T) (T := T) (by linarith)
    (by linarith) le_rfl h.deriv (B := fun t => -(aMax * (T - t) ^ 2 / 2))
    (B' := fun t => aMax * (T - t))
    (hasDerivAt_half_sq_right aMax T)
    (fun t ht => h.speed_right t ⟨by linarith [ht.1], ht.2.le⟩)
  have h3 : ‖p - q‖ ≤ ‖x (T / 2) - x 0‖ + ‖x T - x (T / 2)‖ := by
    rw [← h.start, ← h.goal, norm_sub_rev]
    calc ‖x T - x 0‖ = ‖(x (T / 2) - x 0) + (x T - x (T / 2))‖ := by congr 1; abel
      _ ≤ _ := norm_add_le _ _
  beta_reduce at h1 h2
  nlinarith

/-- Bound from accelerating, cruising and decelerating. -/
theorem Spec.RestToRest.dist_le_trapezoid {p q : EuclideanSpace ℝ (Fin n)} {vMax aMax T : ℝ}
    {x v : ℝ → EuclideanSpace ℝ (Fin n)} (h : RestToRest p q vMax aMax T x v) (hv : 0 < vMax)
    (ha : 0 < aMax) (hT2 : 2 * (vMax / aMax) ≤ T) :
    ‖p - q‖ ≤ vMax * T - vMax ^ 2 / aMax := by
  have hT := h.time_nonneg
  set ta := vMax / aMax with hta
  have hta0 : 0 < ta := div_pos hv ha
  have hva : vMax = aMax * ta := by rw [hta]; field_simp
  have h1 := dist_le_of_speed (x := x) (v := v) (a := 0) (b := ta) (T := T) hta0.le le_rfl
    (by linarith) h.deriv (B := fun t => aMax * t ^ 2 / 2) (B' := fun t => aMax * t)
    (hasDerivAt_half_sq aMax)
    (fun t ht => h.speed_left t ⟨ht.1, by linarith [ht.2]⟩)
  have h2 := dist_le_of_speed (x := x) (v := v) (a := T - ta) (b := T) (T := T) (by linarith)
    (by linarith) le_rfl h.deriv (B := fun t => -(aMax * (T - t) ^ 2 / 2))
    (B' := fun t => aMax * (T - t))
    (hasDerivAt_half_sq_right aMax T)
    (fun t ht => h.speed_right t ⟨by linarith [ht.1], ht.2.le⟩)
  have h4 := dist_le_of_speed (x := x) (v := v) (a := ta) (b := T - ta) (T := T) (by linarith)
    hta0.le (by linarith) h.deriv (B := fun t => vMax * t) (B' := fun _ => vMax)
    (fun t => by simpa using (hasDerivAt_id t).const_mul vMax)
    (fun t ht => h.speed t ⟨by linarith [ht.1], by linarith [ht.2]⟩)
  have h3 : ‖p - q‖ ≤ ‖x ta - x 0‖ + ‖x (T - ta) - x ta‖ + ‖x T - x (T - ta)‖ := by
    rw [← h.start, ← h.goal, norm_sub_rev]
    calc ‖x T - x 0‖ = ‖(x ta - x 0) + (x (T - ta) - x ta) + (x T - x (T - ta))‖ := by
          congr 1; abel
      _ ≤ _ := norm_add₃_le
  beta_reduce at h1 h2 h4
  have e : vMax ^ 2 / aMax = aMax * ta ^ 2 := by rw [hva]; field_simp
  rw [e]
  rw [hva] at h4 ⊢
  nlinarith

/-- The value returned for the distance `d`. -/
noncomputable def rampTime (d vMax aMax : ℝ) : ℝ :=
  if d < vMax ^ 2 / aMax then 2 * Real.sqrt (d / aMax) else vMax / aMax + d / vMax

theorem rampTime_le {p q : EuclideanSpace ℝ (Fin n)} {vMax aMax T : ℝ}
    {x v : ℝ → EuclideanSpace ℝ (Fin n)} (h : RestToRest p q vMax aMax T x v) (hv : 0 < vMax)
    (ha : 0 < aMax) : rampTime ‖p - q‖ vMax aMax ≤ T := by
  have hq := h.dist_le_quarter
  have hT := h.time_nonneg
  unfold rampTime
  split
  · have h0 : 0 ≤ ‖p - q‖ / aMax := by positivity
    have : Real.sqrt (‖p - q‖ / aMax) ≤ T / 2 := by
      rw [Real.sqrt_le_left (by linarith), div_le_iff₀ ha]
      nlinarith
    linarith
  · rename_i hd
    push Not at hd
    by_cases hT2 : 2 * (vMax / aMax) ≤ T
    · have := h.dist_le_trapezoid hv ha hT2
      have h1 : vMax / aMax + ‖p - q‖ / vMax = (vMax ^ 2 / aMax + ‖p - q‖) / vMax := by
        field_simp
      rw [h1, div_le_iff₀ hv]
      linarith
    · exfalso
      push Not at hT2
      have h1 : T ^ 2 < (2 * (vMax / aMax)) ^ 2 := by
        apply pow_lt_pow_left₀ hT2 hT (by norm_num)
      have h2 : aMax * (2 * (vMax / aMax)) ^ 2 / 4 = vMax ^ 2 / aMax := by field_simp; ring
      nlinarith

/-! Achieving it -/

/-- The speed profile: ramp up, cruise at `w`, ramp down. -/
noncomputable def profile (w a T t : ℝ) : ℝ := max 0 (min w (min (a * t) (a * (T - t))))

theorem profile_continuous (w a T : ℝ) : Continuous (profile w a T) := by
  unfold profile; fun_prop

theorem profile_lipschitz (w a T s t : ℝ) (ha : 0 ≤ a) :
    |profile w a T t - profile w a T s| ≤ a * |t - s| := by
  unfold profile
  have h1 : |a * t - a * s| = a * |t - s| := by rw [← mul_sub, abs_mul, abs_of_nonneg ha]
  have h2 : |a * (T - t) - a * (T - s)| = a * |t - s| := by
    rw [← mul_sub, abs_mul, abs_of_nonneg ha]; congr 1
    rw [show T - t - (T - s) = -(t - s) by ring, abs_neg]
  have h0 : (0 : ℝ) ≤ a * |t - s| := by positivity
  calc |max 0 (min w (min (a * t) (a * (T - t)))) - max 0 (min w (min (a * s) (a * (T - s))))|
      ≤ max |(0 : ℝ) - 0| |min w (min (a * t) (a * (T - t))) - min w (min (a * s) (a * (T - s)))| :=
        abs_max_sub_max_le_max _ _ _ _
    _ ≤ a * |t - s| := by
      apply max_le (by simpa using h0)
      refine le_trans (abs_min_sub_min_le_max _ _ _ _) ?_
      apply max_le (by simpa using h0)
      refine le_trans (abs_min_sub_min_le_max _ _ _ _) ?_
      rw [h1, h2, max_self]

theorem profile_integral (w a ta T : ℝ) (hta : 0 ≤ ta) (ha : 0 ≤ a) (hw : w = a * ta) (hT : 2 * ta ≤ T) :
    ∫ t in (0 : ℝ)..T, profile w a T t = w * (T - ta) := by
  have hi : ∀ b c : ℝ, IntervalIntegrable (profile w a T) MeasureTheory.volume b c :=
    fun b c => (profile_continuous w a T).intervalIntegrable b c
  rw [← intervalIntegral.integral_add_adjacent_intervals (hi 0 ta) (hi ta T),
    ← intervalIntegral.integral_add_adjacent_intervals (hi ta (T - ta)) (hi (T - ta) T)]
  have e1 : ∫ t in (0 : ℝ)..ta, profile w a T t = a * ta ^ 2 / 2 := by
    rw [intervalIntegral.integral_congr (g := fun t => a * t)]
    · rw [intervalIntegral.integral_const_mul, integral_id]; ring
    · intro t ht
      rw [uIcc_of_le hta] at ht
      simp only [profile]
      have k1 : a * t ≤ w := by rw [hw]; exact mul_le_mul_of_nonneg_left ht.2 ha
      have k2 : a * t ≤ a * (T - t) := mul_le_mul_of_nonneg_left (by linarith [ht.1, ht.2]) ha
      rw [min_eq_left k2, min_eq_right k1, max_eq_right (mul_nonneg ha ht.1)]
  have e2 : ∫ t in ta..(T - ta), profile w a T t = w * (T - ta - ta) := by
    rw [intervalIntegral.integral_congr (g := fun _ => w)]
    · simp; ring
    · intro t ht
      rw [uIcc_of_le (by linarith)] at ht
      simp only [profile]
      have k1 : w ≤ a * t := by rw [hw]; exact mul_le_mul_of_nonneg_left ht.1 ha
      have k2 : w ≤ a * (T - t) := by
        rw [hw]; exact mul_le_mul_of_nonneg_left (by linarith [ht.2]) ha
      rw [min_eq_left (le_min k1 k2), max_eq_right (by rw [hw]; exact mul_nonneg ha hta)]
  have e3 : ∫ t in (T - ta)..T, profile w a T t = a * ta ^ 2 / 2 := by
    rw [intervalIntegral.integral_congr (g := fun t => a * (T - t))]
    · rw [intervalIntegral.integral_const_mul]
      rw [intervalIntegral.integral_sub (by simp) (by simp)]
      simp [integral_id]; ring
    · intro t ht
      rw [uIcc_of_le (by linarith)] at ht
      simp only [profile]
      have k1 : a * (T - t) ≤ w := by
        rw [hw]; exact mul_le_mul_of_nonneg_left (by linarith [ht.1]) ha
      have k2 : a * (T - t) ≤ a * t := mul_le_mul_of_nonneg_left (by linarith [ht.1, ht.2]) ha
      rw [min_eq_right k2, min_eq_right k1, max_eq_right (mul_nonneg ha (by linarith [ht.2]))]
  rw [e1, e2, e3, hw]; ring

/-- A straight line motion with the given profile. -/
theorem restToRest_exists (p q : EuclideanSpace ℝ (Fin n)) (vMax aMax ta T : ℝ) (ha : 0 ≤ aMax)
    (hta : 0 ≤ ta) (hT : 2 * ta ≤ T) (hw : aMax * ta ≤ vMax) (hpq : p ≠ q)
    (hd : aMax * ta * (T - ta) = ‖p - q‖) :
    ∃ x v, RestToRest p q vMax aMax T x v := by
  set w := aMax * ta with hwdef
  set d := ‖p - q‖ with hdd
  have hd0 : 0 < d := norm_pos_iff.mpr (sub_ne_zero.mpr hpq)
  have hT0 : 0 ≤ T := by linarith
  have hw0 : 0 ≤ w := mul_nonneg ha hta
  let s : ℝ → ℝ := fun t => ∫ u in (0 : ℝ)..t, profile w aMax T u
  have hs : ∀ t, HasDerivAt s (profile w aMax T t) t := fun t =>
    intervalIntegral.integral_hasDerivAt_right ((profile_continuous w aMax T).intervalIntegrable _ _)
      ((profile_continuous w aMax T).stronglyMeasurableAtFilter _ _)
      (profile_continuous w aMax T).continuousAt
  have hu : ‖d⁻¹ • (q - p)‖ = 1 := by
    rw [norm_smul, norm_inv, norm_sub_rev, Real.norm_of_nonneg hd0.le, ← hdd]
    exact inv_mul_cancel₀ hd0.ne'
  have hnn : ∀ t, 0 ≤ profile w aMax T t := fun t => le_max_left _ _
  refine ⟨fun t => p + s t • (d⁻¹ • (q - p)), fun t => profile w aMax T t • (d⁻¹ • (q - p)),
    hT0, ?_, ?_, ?_, ?_, ?_, ?_, ?_⟩
  · simp [s]
  · have : s T = d := by
      simp only [s]
      rw [profile_integral w aMax ta T hta ha hwdef hT, hd]
    simp only [this]
    rw [smul_smul, mul_inv_cancel₀ hd0.ne', one_smul]; abel
  · have : profile w aMax T 0 = 0 := by
      unfold profile
      have h2 : min (aMax * 0) (aMax * (T - 0)) = 0 := by
        rw [min_eq_left] <;> simp [mul_nonneg ha hT0]
      rw [h2, min_eq_right hw0, max_self]
    simp [this]
  · have : profile w aMax T T = 0 := by
      unfold profile
      have h2 : min (aMax * T) (aMax * (T - T)) = 0 := by
        rw [min_eq_right] <;> simp [mul_nonneg ha hT0]
      rw [h2, min_eq_right hw0, max_self]
    simp [this]
  · intro t _
    exact (((hs t).smul_const _).const_add p).hasDerivWithinAt
  · intro t _
    rw [norm_smul, hu, mul_one, Real.norm_of_nonneg (hnn t)]
    refine le_trans ?_ hw
    exact max_le hw0 (min_le_left _ _)
  · intro a _ t _
    rw [← sub_smul, norm_smul, hu, mul_one, Real.norm_eq_abs]
    exact profile_lipschitz w aMax T a t ha

theorem rampTime_achieved (p q : EuclideanSpace ℝ (Fin n)) (vMax aMax : ℝ) (hv : 0 < vMax)
    (ha : 0 < aMax) : ∃ x v, RestToRest p q vMax aMax (rampTime ‖p - q‖ vMax aMax) x v := by
  by_cases hpq : p = q
  · subst hpq
    have : rampTime ‖p - p‖ vMax aMax = 0 := by
      unfold rampTime
      rw [if_pos (by rw [sub_self, norm_zero]; positivity)]
      simp
    rw [this]
    refine ⟨fun _ => p, fun _ => 0, le_rfl, rfl, rfl, rfl, rfl, ?_, ?_, ?_⟩
    · intro t _; exact hasDerivWithinAt_const _ _ _
    · intro t _; simp [hv.le]
    · intro s _ t _; simp; positivity
  · set d := ‖p - q‖ with hd
    have hd0 : 0 < d := norm_pos_iff.mpr (sub_ne_zero.mpr hpq)
    unfold rampTime
    split
    · rename_i h
      refine restToRest_exists p q vMax aMax (Real.sqrt (d / aMax)) _ ha.le (Real.sqrt_nonneg _) le_rfl
        ?_ hpq ?_
      · have h1 : Real.sqrt (d / aMax) ≤ vMax / aMax := by
          rw [Real.sqrt_le_left (by positivity), div_pow, div_le_div_iff₀ ha (by positivity)]
          rw [lt_div_iff₀ ha] at h
          nlinarith
        calc aMax * Real.sqrt (d / aMax) ≤ aMax * (vMax / aMax) :=
              mul_le_mul_of_nonneg_left h1 ha.le
          _ = vMax := by field_simp
      · have : Real.sqrt (d / aMax) * Real.sqrt (d / aMax) = d / aMax :=
          Real.mul_self_sqrt (by positivity)
        calc aMax * Real.sqrt (d / aMax) * (2 * Real.sqrt (d / aMax) - Real.sqrt (d / aMax))
            = aMax * (Real.sqrt (d / aMax) * Real.sqrt (d / aMax)) := by ring
          _ = d := by rw [this]; field_simp
    · rename_i h
      push Not at h
      refine restToRest_exists p q vMax aMax (vMax / aMax) _ ha.le (by positivity) ?_ ?_ hpq ?_
      · have : vMax / aMax ≤ d / vMax := by
          rw [div_le_div_iff₀ ha hv]
          rw [div_le_iff₀ ha] at h
          nlinarith
        linarith
      · have : aMax * (vMax / aMax) = vMax := by field_simp
        exact this.le
      · rw [← hd]; field_simp; ring

end Verif
