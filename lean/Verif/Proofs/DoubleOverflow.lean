import Verif.Proofs.DoubleThrustMin

/-
A polynomial of finite coefficients whose derivatives are NaN.
-/
namespace Verif

open Spec

theorem ofReal_overflow_neg {x : ℝ} (h : x ≤ -(2 : ℝ) ^ (1024 : ℤ)) : Dbl.ofReal x = .inf true := by
  have h0 := zpow2_pos 1024
  have h2 : (1 : ℝ) ≤ (2 : ℝ) ^ (1024 : ℤ) := one_le_zpow₀ (by norm_num) (by norm_num)
  have h1 := round64_mono_pow (x := -x) (e := 1024) (by norm_num) (le_neg_of_le_neg h)
  have hx : (1 : ℝ) ≤ |x| := h2.trans ((le_neg_of_le_neg h).trans (neg_le_abs x))
  rw [round64_one_le (by rwa [abs_neg]), round53_neg, ← round64_one_le (x := x) hx] at h1
  have hx0 : x < 0 := lt_of_le_of_lt h (neg_lt_zero.mpr h0)
  unfold Dbl.ofReal
  rw [if_neg, decide_eq_true hx0]
  exact not_lt.mpr (h1.trans (neg_le_abs _))

/-- The factors of the derivatives of the two highest coefficients of ten are at least 4. -/
theorem factor_big (d j : ℕ) (hd : d = 1 ∨ d = 2) (hj : j = 8 ∨ j = 9) : ∃ x : ℝ, 4 ≤ x ∧ (baseCoeff d j : Dbl) = .fin x := by
  obtain ⟨θ, hθ, e⟩ := baseCoeff_double d j (by omega) (by omega)
  refine ⟨_, ?_, e⟩
  have hu : (1 + u64) ^ (2 * d) - 1 ≤ 1 / 2 := by
    unfold u64
    rcases hd with rfl | rfl <;> norm_num
  have h1 := (abs_le.mp hθ).1
  have h2 : (8 : ℝ) ≤ (j.descFactorial d : ℝ) := by
    rcases hd with rfl | rfl <;> rcases hj with rfl | rfl <;> norm_num [Nat.descFactorial]
  nlinarith

/-- A polynomial of finite coefficients whose velocity and acceleration are NaN. -/
noncomputable def overflowing : Poly Dbl :=
  ⟨[0, 0, 0, 0, 0, 0, 0, 0, .fin (-(2 : ℝ) ^ (1023 : ℤ)), .fin ((2 : ℝ) ^ (1023 : ℤ))]⟩

theorem overflowing_products (d : ℕ) (hd : d = 1 ∨ d = 2) :
    (baseCoeff d 9 : Dbl) * .fin ((2 : ℝ) ^ (1023 : ℤ)) = .inf false ∧
    (baseCoeff d 8 : Dbl) * .fin (-(2 : ℝ) ^ (1023 : ℤ)) = .inf true := by
  obtain ⟨x, hx, ex⟩ := factor_big d 9 hd (Or.inr rfl)
  obtain ⟨y, hy, ey⟩ := factor_big d 8 hd (Or.inl rfl)
  have h : (2 : ℝ) ^ (1024 : ℤ) = 2 * (2 : ℝ) ^ (1023 : ℤ) := by
    rw [← zpow_one_add₀ (by norm_num)]; norm_num
  have h0 := zpow2_pos 1023
  constructor
  · rw [ex, fin_mul]
    refine ofReal_overflow ?_
    rw [h]
    exact mul_le_mul_of_nonneg_right (by linarith) h0.le
  · rw [ey, fin_mul]
    refine ofReal_overflow_neg ?_
    rw [h, mul_neg, neg_le_neg_iff]
    exact mul_le_mul_of_nonneg_right (by linarith) h0.le

theorem overflowing_nan (d : ℕ) (hd : d = 1 ∨ d = 2) : NanValued overflowing d :=
  nanValued_of_opposite (by change d + 1 < 10; omega) (by change 10 ≤ 22; norm_num) rfl rfl (overflowing_products d hd).1
    (overflowing_products d hd).2

/-- A scalar product that adds from the first to the last term satisfies `NanDot`. -/
theorem seqDot_nan : NanDot Dbl.seqDot := by
  intro n a b i h
  unfold Dbl.seqDot
  have hm : Dbl.nan ∈ (List.finRange n).map fun i => a i * b i :=
    List.mem_map.mpr ⟨i, List.mem_finRange i, by rw [h, nan_mul]⟩
  generalize (List.finRange n).map (fun i => a i * b i) = l at hm
  have key : ∀ (l : List Dbl) (acc : Dbl), acc = .nan ∨ .nan ∈ l → l.foldl (· + ·) acc = .nan := by
    intro l
    induction l with
    | nil =>
      rintro acc (h | h)
      · exact h
      · simp at h
    | cons c l ih =>
      intro acc h
      rw [List.foldl_cons]
      refine ih _ ?_
      rcases h with rfl | h
      · exact Or.inl (nan_add c)
      · rcases List.mem_cons.mp h with h | h
        · left; rw [← h, add_nan]
        · exact Or.inr h
  exact key l 0 (Or.inr hm)

end Verif
