import Verif.Spec.Double

/-
Lemmas about `double`.
-/
namespace Verif

open Spec

theorem roundEven_nearest (x : ℝ) (n : ℤ) : |(roundEven x : ℝ) - x| ≤ |(n : ℝ) - x| := by
  by_contra h
  push Not at h
  have h1 := abs_sub_roundEven x
  rw [abs_sub_comm] at h1
  have h2 : |(n : ℝ) - x| < 1 / 2 := h.trans_le h1
  rw [abs_lt] at h2
  have := roundEven_of_lt (x := x) (n := n) (by linarith) (by linarith)
  rw [this] at h
  exact lt_irrefl _ h

/-- Rounding to multiples of `q`. -/
theorem roundEven_mul_nearest {q : ℝ} (hq : 0 < q) (x : ℝ) (n : ℤ) :
    |(roundEven (x / q) : ℝ) * q - x| ≤ |(n : ℝ) * q - x| := by
  have h := roundEven_nearest (x / q) n
  have e : ∀ m : ℤ, |(m : ℝ) * q - x| = |(m : ℝ) - x / q| * q := by
    intro m
    rw [← abs_of_pos hq, ← abs_mul, abs_of_pos hq]
    congr 1
    field_simp
  rw [e, e]
  exact mul_le_mul_of_nonneg_right h hq.le

theorem roundEven_mul_error {q : ℝ} (hq : 0 < q) (x : ℝ) : |(roundEven (x / q) : ℝ) * q - x| ≤ q / 2 := by
  have h := abs_sub_roundEven (x / q)
  rw [abs_sub_comm] at h
  have e : |(roundEven (x / q) : ℝ) * q - x| = |(roundEven (x / q) : ℝ) - x / q| * q := by
    rw [← abs_of_pos hq, ← abs_mul, abs_of_pos hq]
    congr 1
    field_simp
  rw [e]
  have := mul_le_mul_of_nonneg_right h hq.le
  linarith

theorem zpow2_pos (e : ℤ) : (0 : ℝ) < 2 ^ e := zpow_pos (by norm_num) e

/-- A multiple of a power of two is a multiple of a smaller one. -/
theorem multiple_lower {e f : ℤ} (h : f ≤ e) (m : ℤ) : ∃ n : ℤ, (m : ℝ) * (2 : ℝ) ^ e = n * (2 : ℝ) ^ f := by
  obtain ⟨k, hk⟩ := Int.le.dest h
  refine ⟨m * 2 ^ k, ?_⟩
  rw [← hk, zpow_add₀ (by norm_num), zpow_natCast]
  push_cast
  ring

theorem round53_neg (x : ℝ) : round53 (-x) = -round53 x := by
  unfold round53
  rcases lt_trichotomy x 0 with h | h | h
  · rw [if_neg (by linarith), if_neg (by linarith), if_pos h, neg_neg]
  · subst h
    simp
  · rw [if_pos (by linarith), if_neg (by linarith), if_neg h.ne', neg_neg]

theorem round53_of_pos {x : ℝ} (h : 0 < x) : round53 x = roundPos x := by
  unfold round53
  rw [if_neg (by linarith), if_neg h.ne']

/-- The rounded number has 53 bits. -/
theorem roundPos_form {x : ℝ} {e : ℤ} (h1 : (2 : ℝ) ^ e ≤ x) (h2 : x < 2 ^ (e + 1)) :
    ∃ m : ℤ, 2 ^ 52 ≤ m ∧ m ≤ 2 ^ 53 ∧ roundPos x = m * (2 : ℝ) ^ (e - 52) := by
  obtain ⟨b1, b2⟩ := roundPos_binade h1 h2
  refine ⟨_, ?_, ?_, roundPos_eq h1 h2⟩
  · rw [roundPos_eq h1 h2] at b1
    have : (2 : ℝ) ^ e = ((2 ^ 52 : ℤ) : ℝ) * 2 ^ (e - 52) := by
      rw [zpow_sub₀ (by norm_num)]
      field_simp
      norm_num
    rw [this] at b1
    exact_mod_cast le_of_mul_le_mul_right b1 (zpow2_pos _)
  · rw [roundPos_eq h1 h2] at b2
    have : (2 : ℝ) ^ (e + 1) = ((2 ^ 53 : ℤ) : ℝ) * 2 ^ (e - 52) := by
      rw [zpow_sub₀ (by norm_num), zpow_add₀ (by norm_num)]
      field_simp
      norm_num
    rw [this] at b2
    exact_mod_cast le_of_mul_le_mul_right b2 (zpow2_pos _)

theorem zpow52 (e : ℤ) : (2 : ℝ) ^ e = ((2 ^ 52 : ℤ) : ℝ) * 2 ^ (e - 52) := by
  rw [zpow_sub₀ (by norm_num)]
  field_simp
  norm_num

theorem zpow53 (e : ℤ) : (2 : ℝ) ^ (e + 1) = ((2 ^ 53 : ℤ) : ℝ) * 2 ^ (e - 52) := by
  rw [zpow_sub₀ (by norm_num), zpow_add₀ (by norm_num)]
  field_simp
  norm_num

/-- No number of 53 bits is nearer than the rounded one. -/
theorem roundPos_nearest {x : ℝ} (hx : 0 < x) {m e : ℤ} (hm : |m| < 2 ^ 53) :
    |roundPos x - x| ≤ |(m : ℝ) * (2 : ℝ) ^ e - x| := by
  obtain ⟨k, h1, h2⟩ := exists_binade hx
  rw [roundPos_eq h1 h2]
  by_cases he : k - 52 ≤ e
  · obtain ⟨n, hn⟩ := multiple_lower he m
    rw [hn]
    exact roundEven_mul_nearest (zpow2_pos _) x n
  · have hn := roundEven_mul_nearest (zpow2_pos (k - 52)) x (2 ^ 52)
    rw [← zpow52] at hn
    refine hn.trans ?_
    have h3 : (m : ℝ) * (2 : ℝ) ^ e ≤ 2 ^ k := by
      have g1 : (m : ℝ) ≤ ((2 ^ 53 : ℤ) : ℝ) := by exact_mod_cast (le_abs_self m).trans hm.le
      have g2 : ((2 ^ 53 : ℤ) : ℝ) * (2 : ℝ) ^ e = (2 : ℝ) ^ (e + 53) := by
        rw [zpow_add₀ (by norm_num)]
        norm_num
        ring
      calc (m : ℝ) * (2 : ℝ) ^ e ≤ ((2 ^ 53 : ℤ) : ℝ) * (2 : ℝ) ^ e :=
            mul_le_mul_of_nonneg_right g1 (zpow2_pos _).le
        _ = (2 : ℝ) ^ (e + 53) := g2
        _ ≤ 2 ^ k := zpow_le_zpow_right₀ (by norm_num) (by omega)
    rw [abs_of_nonpos (by linarith), abs_of_nonpos (by linarith)]
    linarith

theorem round53_nearest (x : ℝ) {m e : ℤ} (hm : |m| < 2 ^ 53) :
    |round53 x - x| ≤ |(m : ℝ) * (2 : ℝ) ^ e - x| := by
  rcases lt_trichotomy x 0 with h | h | h
  · have := roundPos_nearest (neg_pos.mpr h) (m := -m) (e := e) (by rwa [abs_neg])
    rw [← round53_of_pos (neg_pos.mpr h), round53_neg] at this
    rw [← abs_neg, ← abs_neg ((m : ℝ) * (2 : ℝ) ^ e - x)]
    convert this using 2
    · ring
    · push_cast
      ring
  · subst h
    rw [rnd_zero round53_rounding, sub_self, abs_zero]
    exact abs_nonneg _
  · rw [round53_of_pos h]
    exact roundPos_nearest h hm

/-- Numbers of 53 bits stay as they are. -/
theorem round53_fix {m e : ℤ} (hm : |m| < 2 ^ 53) : round53 ((m : ℝ) * (2 : ℝ) ^ e) = m * (2 : ℝ) ^ e := by
  have := round53_nearest ((m : ℝ) * (2 : ℝ) ^ e) (m := m) (e := e) hm
  rw [sub_self, abs_zero] at this
  exact sub_eq_zero.mp (abs_eq_zero.mp (le_antisymm this (abs_nonneg _)))

theorem abs_round53 (x : ℝ) : |round53 x| = round53 |x| := by
  have hn : 0 ≤ round53 |x| := by
    rw [← rnd_zero round53_rounding]
    exact round53_rounding.mono (abs_nonneg x)
  rcases le_total 0 x with h | h
  · rw [abs_of_nonneg h] at hn ⊢
    exact abs_of_nonneg hn
  · rw [abs_of_nonpos h] at hn ⊢
    rw [← neg_neg x, round53_neg, abs_neg]
    rw [neg_neg]
    exact abs_of_nonneg hn

/-- A number with few bits below the normal range. -/
theorem round64_of_multiple (n : ℤ) :
    round64 ((n : ℝ) * (2 : ℝ) ^ (-1074 : ℤ)) = round53 ((n : ℝ) * (2 : ℝ) ^ (-1074 : ℤ)) := by
  unfold round64
  split_ifs with h
  · rw [mul_div_assoc, div_self (zpow2_pos _).ne', mul_one, roundEven_intCast]
    rw [round53_fix]
    rw [abs_mul, abs_of_pos (zpow2_pos _), zpow52 (-1022)] at h
    have h := lt_of_mul_lt_mul_right h (zpow2_pos _).le
    have h : |n| < 2 ^ 52 := by exact_mod_cast h
    omega
  · rfl

/-- From the normal range on the rounding has 53 bits. -/
theorem round64_normal {x : ℝ} (h : (2 : ℝ) ^ (-1022 : ℤ) ≤ |x|) : round64 x = round53 x := by
  unfold round64
  rw [if_neg (not_lt.mpr h)]

theorem zpow_le_one_of_neg {e : ℤ} (h : e ≤ 0) : (2 : ℝ) ^ e ≤ 1 := by
  have := zpow_le_zpow_right₀ (by norm_num : (1 : ℝ) ≤ 2) h
  rwa [zpow_zero] at this

theorem round64_zero : round64 0 = 0 := by
  have := round64_of_multiple 0
  rw [Int.cast_zero, zero_mul, rnd_zero round53_rounding] at this
  exact this

theorem round64_one_le {x : ℝ} (h : 1 ≤ |x|) : round64 x = round53 x :=
  round64_normal ((zpow_le_one_of_neg (by norm_num)).trans h)

/-- No `double` is nearer than the rounded number (nor is a number of the format without a largest one). -/
theorem round64_nearest (x : ℝ) {m e : ℤ} (hm : |m| < 2 ^ 53) (he : -1074 ≤ e) :
    |round64 x - x| ≤ |(m : ℝ) * (2 : ℝ) ^ e - x| := by
  unfold round64
  split_ifs with h
  · obtain ⟨n, hn⟩ := multiple_lower he m
    rw [hn]
    exact roundEven_mul_nearest (zpow2_pos _) x n
  · exact round53_nearest x hm

theorem u64_pos : 0 < u64 := by unfold u64; positivity

theorem tiny64_pos : 0 < tiny64 := zpow2_pos _

/-- One rounding: a relative error, and below the normal range an absolute one. -/
theorem round64_factor (x : ℝ) : ∃ δ ε, round64 x = x * (1 + δ) + ε ∧ |δ| ≤ u64 ∧ |ε| ≤ tiny64 := by
  by_cases h : |x| < (2 : ℝ) ^ (-1022 : ℤ)
  · refine ⟨0, round64 x - x, by ring, by simpa using u64_pos.le, ?_⟩
    unfold round64
    rw [if_pos h]
    refine (roundEven_mul_error (zpow2_pos _) x).trans (le_of_eq ?_)
    unfold tiny64
    rw [show (-1075 : ℤ) = -1074 - 1 by norm_num, zpow_sub₀ (by norm_num), zpow_one]
  · obtain ⟨δ, h1, h2⟩ := rnd_factor round53_rounding x
    refine ⟨δ, 0, by rw [round64_normal (not_lt.mp h), h1, add_zero], ?_, by simpa using tiny64_pos.le⟩
    rw [pow_one, add_sub_cancel_left] at h2
    exact h2

/-- The format without a largest number. -/
theorem round64_form (x : ℝ) : ∃ m e : ℤ, |m| < 2 ^ 53 ∧ -1074 ≤ e ∧ round64 x = m * (2 : ℝ) ^ e := by
  by_cases h : |x| < (2 : ℝ) ^ (-1022 : ℤ)
  · refine ⟨roundEven (x / (2 : ℝ) ^ (-1074 : ℤ)), -1074, ?_, le_rfl, by unfold round64; rw [if_pos h]⟩
    have h1 := roundEven_mono (x := -(((2 ^ 52 : ℤ) : ℝ))) (y := x / (2 : ℝ) ^ (-1074 : ℤ)) (by
      rw [le_div_iff₀ (zpow2_pos _), neg_mul, show (-1074 : ℤ) = -1022 - 52 by norm_num, ← zpow52 (-1022)]
      exact (abs_lt.mp h).1.le)
    have h2 := roundEven_mono (x := x / (2 : ℝ) ^ (-1074 : ℤ)) (y := (((2 ^ 52 : ℤ) : ℝ))) (by
      rw [div_le_iff₀ (zpow2_pos _), show (-1074 : ℤ) = -1022 - 52 by norm_num, ← zpow52 (-1022)]
      exact (abs_lt.mp h).2.le)
    rw [roundEven_intCast] at h2
    rw [← Int.cast_neg, roundEven_intCast] at h1
    rw [abs_lt]
    omega
  · rw [round64_normal (not_lt.mp h)]
    have hx : 0 < |x| := (zpow2_pos _).trans_le (not_lt.mp h)
    obtain ⟨k, h1, h2⟩ := exists_binade hx
    have hk : -1022 ≤ k := by
      have := (zpow_lt_zpow_iff_right₀ (by norm_num : (1 : ℝ) < 2)).mp ((not_lt.mp h).trans_lt h2)
      omega
    obtain ⟨m, m1, m2, m3⟩ := roundPos_form h1 h2
    rw [← round53_of_pos hx] at m3
    have pos : ∃ m e : ℤ, |m| < 2 ^ 53 ∧ -1074 ≤ e ∧ round53 |x| = m * (2 : ℝ) ^ e := by
      rcases m2.lt_or_eq with m2 | m2
      · refine ⟨m, k - 52, ?_, by omega, m3⟩
        rw [abs_lt]
        omega
      · refine ⟨2 ^ 52, k - 51, by decide, by omega, ?_⟩
        rw [m3, m2, ← zpow53, zpow52, show k + 1 - 52 = k - 51 by ring]
    obtain ⟨m, e, p1, p2, p3⟩ := pos
    rcases le_total 0 x with h0 | h0
    · rw [abs_of_nonneg h0] at p3
      exact ⟨m, e, p1, p2, p3⟩
    · rw [abs_of_nonpos h0, round53_neg] at p3
      refine ⟨-m, e, by rwa [abs_neg], p2, ?_⟩
      push_cast
      linarith

/-- A number of the format below `2^1024` is a `double`. -/
theorem isDouble_of_lt {m e : ℤ} (hm : |m| < 2 ^ 53) (he : -1074 ≤ e)
    (h : |(m : ℝ) * (2 : ℝ) ^ e| < (2 : ℝ) ^ (1024 : ℤ)) : IsDouble ((m : ℝ) * (2 : ℝ) ^ e) := by
  by_cases h1 : e ≤ 971
  · exact ⟨m, e, hm, he, h1, rfl⟩
  · obtain ⟨n, hn⟩ := multiple_lower (by omega : (971 : ℤ) ≤ e) m
    refine ⟨n, 971, ?_, by norm_num, le_rfl, hn⟩
    rw [hn, abs_mul, abs_of_pos (zpow2_pos _), show (1024 : ℤ) = 1023 + 1 by norm_num, zpow53,
      show (1023 : ℤ) - 52 = 971 by norm_num] at h
    have h := lt_of_mul_lt_mul_right h (zpow2_pos _).le
    exact_mod_cast h

theorem Spec.IsDouble.lt {x : ℝ} (h : IsDouble x) : |x| < (2 : ℝ) ^ (1024 : ℤ) := by
  obtain ⟨m, e, hm, -, he, rfl⟩ := h
  rw [abs_mul, abs_of_pos (zpow2_pos _)]
  have h1 : |(m : ℝ)| < ((2 ^ 53 : ℤ) : ℝ) := by exact_mod_cast hm
  calc |(m : ℝ)| * (2 : ℝ) ^ e < ((2 ^ 53 : ℤ) : ℝ) * (2 : ℝ) ^ e := mul_lt_mul_of_pos_right h1 (zpow2_pos _)
    _ ≤ ((2 ^ 53 : ℤ) : ℝ) * (2 : ℝ) ^ (971 : ℤ) :=
      mul_le_mul_of_nonneg_left (zpow_le_zpow_right₀ (by norm_num) he) (by positivity)
    _ = (2 : ℝ) ^ (1024 : ℤ) := by
      rw [show (1024 : ℤ) = 1023 + 1 by norm_num, zpow53, show (1023 : ℤ) - 52 = 971 by norm_num]

theorem Spec.IsDouble.multiple {x : ℝ} (h : IsDouble x) : ∃ n : ℤ, x = n * (2 : ℝ) ^ (-1074 : ℤ) := by
  obtain ⟨m, e, -, he, -, rfl⟩ := h
  exact multiple_lower he m

theorem Spec.IsDouble.round64 {x : ℝ} (h : IsDouble x) : Verif.round64 x = x := by
  obtain ⟨m, e, hm, he, -, rfl⟩ := h
  have := round64_nearest ((m : ℝ) * (2 : ℝ) ^ e) (m := m) (e := e) hm he
  rw [sub_self, abs_zero] at this
  exact sub_eq_zero.mp (abs_eq_zero.mp (le_antisymm this (abs_nonneg _)))

theorem Spec.IsDouble.neg {x : ℝ} (h : IsDouble x) : IsDouble (-x) := by
  obtain ⟨m, e, hm, he, he', rfl⟩ := h
  exact ⟨-m, e, by rwa [abs_neg], he, he', by push_cast; ring⟩

/-- The rounding of a sum of two numbers does not see the limit of the exponent. -/
theorem round64_add {x y : ℝ} (hx : IsDouble x) (hy : IsDouble y) : Verif.round64 (x + y) = round53 (x + y) := by
  obtain ⟨m, rfl⟩ := hx.multiple
  obtain ⟨n, rfl⟩ := hy.multiple
  rw [← add_mul, ← Int.cast_add]
  exact round64_of_multiple _

/-! ### Results -/

theorem ofReal_eq_fin {x z : ℝ} (h : Dbl.ofReal x = .fin z) : z = round64 x ∧ |z| < (2 : ℝ) ^ (1024 : ℤ) := by
  unfold Dbl.ofReal at h
  split_ifs at h with h1
  rw [Dbl.fin.injEq] at h
  subst h
  exact ⟨rfl, h1⟩

theorem ofReal_eq_inf {x : ℝ} {s : Bool} (h : Dbl.ofReal x = .inf s) : s = true ↔ x < 0 := by
  unfold Dbl.ofReal at h
  split_ifs at h with h1
  rw [Dbl.inf.injEq] at h
  rw [← h, decide_eq_true_iff]

theorem ofReal_ne_nan (x : ℝ) : Dbl.ofReal x ≠ .nan := by
  unfold Dbl.ofReal
  split_ifs <;> simp

theorem ofReal_nearest {x z : ℝ} (h : Dbl.ofReal x = .fin z) : Nearest x z := by
  obtain ⟨rfl, h1⟩ := ofReal_eq_fin h
  refine ⟨?_, fun w hw => ?_⟩
  · obtain ⟨m, e, p1, p2, p3⟩ := round64_form x
    rw [p3] at h1 ⊢
    exact isDouble_of_lt p1 p2 h1
  · obtain ⟨m, e, hm, he, -, rfl⟩ := hw
    exact round64_nearest x hm he

theorem ofReal_factor {x z : ℝ} (h : Dbl.ofReal x = .fin z) :
    ∃ δ ε, z = x * (1 + δ) + ε ∧ |δ| ≤ u64 ∧ |ε| ≤ tiny64 := by
  obtain ⟨rfl, -⟩ := ofReal_eq_fin h
  exact round64_factor x

/-- Half a unit below `2^1024` and less there is no overflow. -/
theorem ofReal_finite {x : ℝ} (h : |x| < (2 : ℝ) ^ (1024 : ℤ) - (2 : ℝ) ^ (970 : ℤ)) :
    Dbl.ofReal x = .fin (round64 x) := by
  unfold Dbl.ofReal
  rw [if_pos]
  by_contra hc
  push Not at hc
  have e1 : (2 : ℝ) ^ (1024 : ℤ) = ((2 ^ 53 : ℤ) : ℝ) * (2 : ℝ) ^ (971 : ℤ) := by
    rw [show (1024 : ℤ) = 1023 + 1 by norm_num, zpow53, show (1023 : ℤ) - 52 = 971 by norm_num]
  have e2 : (2 : ℝ) ^ (970 : ℤ) = (2 : ℝ) ^ (971 : ℤ) / 2 := by
    rw [show (970 : ℤ) = 971 - 1 by norm_num, zpow_sub₀ (by norm_num), zpow_one]
  have hp := zpow2_pos 971
  have e3 : (((2 ^ 53 - 1 : ℤ) : ℝ)) * (2 : ℝ) ^ (971 : ℤ) = (2 : ℝ) ^ (1024 : ℤ) - (2 : ℝ) ^ (971 : ℤ) := by
    rw [e1, Int.cast_sub, Int.cast_one]
    ring
  have h1 := round64_nearest x (m := 2 ^ 53 - 1) (e := 971) (by decide) (by norm_num)
  have h2 := round64_nearest x (m := -(2 ^ 53 - 1)) (e := 971) (by decide) (by norm_num)
  rw [Int.cast_neg, neg_mul, e3] at h2
  rw [e3] at h1
  rw [e2] at h
  clear e1 e2 e3
  generalize (2 : ℝ) ^ (1024 : ℤ) = A at *
  generalize (2 : ℝ) ^ (971 : ℤ) = B at *
  obtain ⟨g1, g2⟩ := abs_lt.mp h
  rcases le_abs.mp hc with h3 | h3
  · rw [abs_of_nonneg (by linarith)] at h1
    rcases le_abs.mp h1 with h4 | h4 <;> linarith
  · rw [abs_of_nonpos (by linarith)] at h2
    rcases le_abs.mp h2 with h4 | h4 <;> linarith

theorem half_range : (2 : ℝ) ^ (1023 : ℤ) < (2 : ℝ) ^ (1024 : ℤ) - (2 : ℝ) ^ (970 : ℤ) := by
  have e1 : (2 : ℝ) ^ (1024 : ℤ) = 2 * (2 : ℝ) ^ (1023 : ℤ) := by
    rw [show (1024 : ℤ) = 1 + 1023 by norm_num, zpow_add₀ (by norm_num), zpow_one]
  have := zpow_lt_zpow_right₀ (by norm_num : (1 : ℝ) < 2) (by norm_num : (970 : ℤ) < 1023)
  rw [e1]
  generalize (2 : ℝ) ^ (1023 : ℤ) = A at *
  generalize (2 : ℝ) ^ (970 : ℤ) = B at *
  linarith

theorem ofReal_half {x : ℝ} (h : |x| ≤ (2 : ℝ) ^ (1023 : ℤ)) : Dbl.ofReal x = .fin (round64 x) :=
  ofReal_finite (h.trans_lt half_range)

/-- Numbers that are not finite stay that. -/
theorem add_eq_fin {a b : Dbl} {z : ℝ} (h : a + b = .fin z) : ∃ x y, a = .fin x ∧ b = .fin y ∧ Dbl.ofReal (x + y) = .fin z := by
  cases a with
  | fin x => cases b with
    | fin y => exact ⟨x, y, rfl, rfl, h⟩
    | inf s => exact absurd h (by change Dbl.inf s ≠ _; simp)
    | nan => exact absurd h (by change Dbl.nan ≠ _; simp)
  | inf s => cases b with
    | fin y => exact absurd h (by change Dbl.inf s ≠ _; simp)
    | inf r => exact absurd h (by change (if s = r then Dbl.inf s else Dbl.nan) ≠ _; split_ifs <;> simp)
    | nan => exact absurd h (by change Dbl.nan ≠ _; simp)
  | nan => exact absurd h (by cases b <;> (change Dbl.nan ≠ _; simp))

theorem mul_eq_fin {a b : Dbl} {z : ℝ} (h : a * b = .fin z) : ∃ x y, a = .fin x ∧ b = .fin y ∧ Dbl.ofReal (x * y) = .fin z := by
  cases a with
  | fin x => cases b with
    | fin y => exact ⟨x, y, rfl, rfl, h⟩
    | inf s => exact absurd h (by change Dbl.infMul s x ≠ _; unfold Dbl.infMul; split_ifs <;> simp)
    | nan => exact absurd h (by change Dbl.nan ≠ _; simp)
  | inf s => cases b with
    | fin y => exact absurd h (by change Dbl.infMul s y ≠ _; unfold Dbl.infMul; split_ifs <;> simp)
    | inf r => exact absurd h (by change Dbl.inf _ ≠ _; simp)
    | nan => exact absurd h (by change Dbl.nan ≠ _; simp)
  | nan => exact absurd h (by cases b <;> (change Dbl.nan ≠ _; simp))

theorem nan_add (a : Dbl) : Dbl.nan + a = .nan := by cases a <;> rfl
theorem nan_mul (a : Dbl) : Dbl.nan * a = .nan := by cases a <;> rfl
theorem mul_nan (a : Dbl) : a * Dbl.nan = .nan := by cases a <;> rfl
theorem nan_sub (a : Dbl) : Dbl.nan - a = .nan := by cases a <;> rfl
theorem fin_add (x y : ℝ) : Dbl.fin x + .fin y = .ofReal (x + y) := rfl
theorem fin_mul (x y : ℝ) : Dbl.fin x * .fin y = .ofReal (x * y) := rfl
theorem fin_sub (x y : ℝ) : Dbl.fin x - .fin y = .ofReal (x - y) := by
  change Dbl.ofReal (x + -y) = _
  rw [sub_eq_add_neg]
theorem not_lt_nan (a : Dbl) : ¬ a < .nan := by cases a <;> exact fun h => h
theorem not_nan_lt (a : Dbl) : ¬ Dbl.nan < a := by cases a <;> exact fun h => h

end Verif
