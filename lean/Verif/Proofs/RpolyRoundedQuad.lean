import Verif.Spec.RpolyDeflation
import Verif.Proofs.RpolyRounded
import Verif.Proofs.RoundedMapping
import Mathlib.Tactic.Positivity

/-
The zeros of a quadratic with rounding after every operation.
-/
set_option linter.unusedSectionVars false

namespace Verif

open Spec

variable {rnd : ℝ → ℝ} {u : ℝ}

/-- `x` is `y` with `m` rounding errors. -/
def Fac (u : ℝ) (m : ℕ) (x y : ℝ) : Prop := ∃ θ, x = y * (1 + θ) ∧ |θ| ≤ (1 + u) ^ m - 1

theorem Fac.refl (hu : 0 ≤ u) (m : ℕ) (x : ℝ) : Fac u m x x :=
  ⟨0, by ring, by rw [abs_zero]; linarith [one_le_pow₀ (n := m) (show 1 ≤ 1 + u by linarith)]⟩

theorem Fac.mul (hu : 0 ≤ u) {m n : ℕ} {x X y Y : ℝ} (h1 : Fac u m x X) (h2 : Fac u n y Y) :
    Fac u (m + n) (x * y) (X * Y) := by
  obtain ⟨a, rfl, ha⟩ := h1
  obtain ⟨b, rfl, hb⟩ := h2
  obtain ⟨c, e, hc⟩ := factor_mul hu ha hb
  exact ⟨c, by rw [← e]; ring, hc⟩

theorem Fac.trans (hu : 0 ≤ u) {m n : ℕ} {x y z : ℝ} (h1 : Fac u m x y) (h2 : Fac u n y z) : Fac u (m + n) x z := by
  obtain ⟨a, rfl, ha⟩ := h1
  obtain ⟨b, rfl, hb⟩ := h2
  obtain ⟨c, e, hc⟩ := factor_mul hu hb ha
  exact ⟨c, by rw [← e]; ring, by rwa [Nat.add_comm m n]⟩

theorem Fac.round (h : Rounding rnd u) (x : ℝ) : Fac u 1 (rnd x) x := rnd_factor h x

theorem Fac.neg {m : ℕ} {x y : ℝ} (h1 : Fac u m x y) : Fac u m (-x) (-y) := by
  obtain ⟨a, rfl, ha⟩ := h1
  exact ⟨a, by ring, ha⟩

theorem Fac.div {m : ℕ} {x y : ℝ} (c : ℝ) (h1 : Fac u m x y) : Fac u m (x / c) (y / c) := by
  obtain ⟨a, rfl, ha⟩ := h1
  exact ⟨a, by ring, ha⟩

theorem pow_small (hu : 0 ≤ u) (m : ℕ) (hm : 102 * (m * u) ≤ 1) : (1 + u) ^ m - 1 ≤ 101 / 100 * (m * u) := by
  induction m with
  | zero => simp
  | succ m ih =>
    push_cast at hm ⊢
    have hmu : 0 ≤ (m : ℝ) * u := by positivity
    have := ih (by nlinarith)
    rw [pow_succ]
    nlinarith

theorem Fac.small (hu : 0 ≤ u) {m : ℕ} {x y : ℝ} (h1 : Fac u m x y) (hm : 102 * (m * u) ≤ 1) :
    ∃ θ, x = y * (1 + θ) ∧ |θ| ≤ 101 / 100 * (m * u) := by
  obtain ⟨a, e, ha⟩ := h1
  exact ⟨a, e, ha.trans (pow_small hu m hm)⟩

/-- The discriminant and its square root as they are computed. -/
theorem quadDiscr_fl (h : Rounding rnd u) (hu : u ≤ 1 / 10 ^ 11) (h0 : rnd 0 = 0) (h1 : rnd 1 = 1)
    (m : RMath (Fl rnd)) (hm : RoundedMath m) (hs : RoundedSqrt m) (a b c : Fl rnd) (hc : c.val ≠ 0) :
    0 ≤ (quadDiscr m a b c).2.val ∧ ((quadDiscr m a b c).1.val ≠ 0 → 0 < (quadDiscr m a b c).2.val) ∧
    ∃ α β, |α| ≤ 10 * u ∧ |β| ≤ 10 * u ∧
      (if 0 ≤ (quadDiscr m a b c).1.val then (quadDiscr m a b c).2.val ^ 2 else -(quadDiscr m a b c).2.val ^ 2) =
        b.val ^ 2 * (1 + α) - a.val * c.val * (1 + β) := by
  have hu0 := rounding_nonneg h
  have hu1 : u < 1 := by linarith [hu, show (1 : ℝ) / 10 ^ 11 < 1 by norm_num]
  have hrn : ∀ x, 0 ≤ x → 0 ≤ rnd x := fun x hx => by rw [← h0]; exact h.mono hx
  unfold quadDiscr
  split
  · dsimp only
    obtain ⟨e, he⟩ : ∃ e : Fl rnd, e = -(if num 0 ≤ c then a else -a) + b * (b / m.fabs c) := ⟨_, rfl⟩
    rw [← he]
    have hd : (m.sqrt (m.fabs e) * m.sqrt (m.fabs c)).val =
        rnd (rnd (Real.sqrt |e.val|) * rnd (Real.sqrt |c.val|)) := by
      change rnd ((m.sqrt (m.fabs e)).val * (m.sqrt (m.fabs c)).val) = _
      rw [hs.sqrt, hs.sqrt, hm.fabs, hm.fabs]
    obtain ⟨A, hA, hAc⟩ : ∃ A : ℝ, e.val = rnd (A + rnd (b.val * rnd (b.val / |c.val|))) ∧ A * |c.val| = -(a.val * c.val) := by
      by_cases hcs : (0 : ℝ) ≤ c.val
      · refine ⟨-a.val, ?_, by rw [abs_of_nonneg hcs]; ring⟩
        have : (num 0 : Fl rnd) ≤ c := by
          change rnd ((0 : ℕ) : ℝ) ≤ c.val
          simpa [h0] using hcs
        rw [he, if_pos this]
        change rnd (-a.val + rnd (b.val * rnd (b.val / (m.fabs c).val))) = _
        rw [hm.fabs]
      · refine ⟨a.val, ?_, by rw [abs_of_neg (not_le.mp hcs)]; ring⟩
        have : ¬ (num 0 : Fl rnd) ≤ c := by
          change ¬ rnd ((0 : ℕ) : ℝ) ≤ c.val
          simpa [h0] using hcs
        rw [he, if_neg this]
        change rnd (- -a.val + rnd (b.val * rnd (b.val / (m.fabs c).val))) = _
        rw [hm.fabs, neg_neg]
    have hcp : 0 < |c.val| := abs_pos.mpr hc
    refine ⟨?_, ?_, ?_⟩
    · rw [hd]
      exact hrn _ (mul_nonneg (hrn _ (Real.sqrt_nonneg _)) (hrn _ (Real.sqrt_nonneg _)))
    · intro hne
      rw [hd]
      exact rnd_pos h hu1 (mul_pos (rnd_pos h hu1 (Real.sqrt_pos.mpr (abs_pos.mpr hne)))
        (rnd_pos h hu1 (Real.sqrt_pos.mpr hcp)))
    · -- the factors
      have f1 : Fac u 2 (rnd (b.val * rnd (b.val / |c.val|))) (b.val * (b.val / |c.val|)) := by
        have := (Fac.round h (b.val * rnd (b.val / |c.val|))).trans hu0
          ((Fac.refl hu0 0 b.val).mul hu0 (Fac.round h (b.val / |c.val|)))
        simpa using this
      obtain ⟨θ, e1, hθ⟩ := f1
      have f2 : Fac u 3 (rnd (rnd (Real.sqrt |e.val|) * rnd (Real.sqrt |c.val|))) (Real.sqrt |e.val| * Real.sqrt |c.val|) := by
        have := (Fac.round h (rnd (Real.sqrt |e.val|) * rnd (Real.sqrt |c.val|))).trans hu0
          ((Fac.round h (Real.sqrt |e.val|)).mul hu0 (Fac.round h (Real.sqrt |c.val|)))
        simpa using this
      have f3 := f2.mul hu0 f2
      have e3 : Real.sqrt |e.val| * Real.sqrt |c.val| * (Real.sqrt |e.val| * Real.sqrt |c.val|) = |e.val| * |c.val| := by
        rw [mul_mul_mul_comm, Real.mul_self_sqrt (abs_nonneg _), Real.mul_self_sqrt (abs_nonneg _)]
      rw [e3] at f3
      obtain ⟨φ, e4, hφ⟩ := f3
      obtain ⟨δ, e5, hδ⟩ := Fac.round h (A + rnd (b.val * rnd (b.val / |c.val|)))
      rw [← hA, e1] at e5
      have e6 : (if 0 ≤ e.val then (m.sqrt (m.fabs e) * m.sqrt (m.fabs c)).val ^ 2
          else -(m.sqrt (m.fabs e) * m.sqrt (m.fabs c)).val ^ 2) = e.val * |c.val| * (1 + φ) := by
        rw [hd, sq, e4]
        split
        · rename_i hp
          rw [abs_of_nonneg hp]
        · rename_i hp
          rw [abs_of_neg (not_le.mp hp)]
          ring
      obtain ⟨κ, e7, hκ⟩ := factor_mul hu0 hδ hφ
      obtain ⟨κ', e8, hκ'⟩ := factor_mul hu0 hθ hκ
      have s9 := pow_small hu0 9 (by push_cast; linarith [hu, show 102 * (9 * ((1 : ℝ) / 10 ^ 11)) ≤ 1 by norm_num])
      have s7 := pow_small hu0 7 (by push_cast; linarith [hu, show 102 * (7 * ((1 : ℝ) / 10 ^ 11)) ≤ 1 by norm_num])
      push_cast at s9 s7
      refine ⟨κ', κ, by simp only [Nat.reduceAdd] at hκ'; linarith, by simp only [Nat.reduceAdd] at hκ; linarith, ?_⟩
      rw [e6, e5, ← e8, ← e7]
      have hbc : b.val * (b.val / |c.val|) * |c.val| = b.val ^ 2 := by field_simp
      linear_combination ((1 + δ) * (1 + φ)) * hAc + ((1 + θ) * (1 + δ) * (1 + φ)) * hbc
  · rename_i hbc
    have hb : b.val ≠ 0 := by
      intro hb
      apply hbc
      change (m.fabs b).val < (m.fabs c).val
      rw [hm.fabs, hm.fabs, hb, abs_zero]
      exact abs_pos.mpr hc
    dsimp only
    obtain ⟨e, he⟩ : ∃ e : Fl rnd, e = -((a / b) * (c / b)) + num 1 := ⟨_, rfl⟩
    rw [← he]
    have hd : (m.sqrt (m.fabs e) * m.fabs b).val = rnd (rnd (Real.sqrt |e.val|) * |b.val|) := by
      change rnd ((m.sqrt (m.fabs e)).val * (m.fabs b).val) = _
      rw [hs.sqrt, hm.fabs, hm.fabs]
    have hA : e.val = rnd (-(rnd (rnd (a.val / b.val) * rnd (c.val / b.val))) + 1) := by
      rw [he]
      change rnd (-(rnd (rnd (a.val / b.val) * rnd (c.val / b.val))) + rnd ((1 : ℕ) : ℝ)) = _
      rw [Nat.cast_one, h1]
    have hbp : 0 < |b.val| := abs_pos.mpr hb
    refine ⟨?_, ?_, ?_⟩
    · rw [hd]
      exact hrn _ (mul_nonneg (hrn _ (Real.sqrt_nonneg _)) (abs_nonneg _))
    · intro hne
      rw [hd]
      exact rnd_pos h hu1 (mul_pos (rnd_pos h hu1 (Real.sqrt_pos.mpr (abs_pos.mpr hne))) hbp)
    · have f1 : Fac u 3 (rnd (rnd (a.val / b.val) * rnd (c.val / b.val))) (a.val / b.val * (c.val / b.val)) := by
        have := (Fac.round h (rnd (a.val / b.val) * rnd (c.val / b.val))).trans hu0
          ((Fac.round h (a.val / b.val)).mul hu0 (Fac.round h (c.val / b.val)))
        simpa using this
      obtain ⟨θ, e1, hθ⟩ := f1
      have f2 : Fac u 2 (rnd (rnd (Real.sqrt |e.val|) * |b.val|)) (Real.sqrt |e.val| * |b.val|) := by
        have := (Fac.round h (rnd (Real.sqrt |e.val|) * |b.val|)).trans hu0
          ((Fac.round h (Real.sqrt |e.val|)).mul hu0 (Fac.refl hu0 0 |b.val|))
        simpa using this
      have f3 := f2.mul hu0 f2
      have e3 : Real.sqrt |e.val| * |b.val| * (Real.sqrt |e.val| * |b.val|) = |e.val| * b.val ^ 2 := by
        rw [mul_mul_mul_comm, Real.mul_self_sqrt (abs_nonneg _), ← sq, sq_abs]
      rw [e3] at f3
      obtain ⟨φ, e4, hφ⟩ := f3
      obtain ⟨δ, e5, hδ⟩ := Fac.round h (-(rnd (rnd (a.val / b.val) * rnd (c.val / b.val))) + 1)
      rw [← hA, e1] at e5
      have e6 : (if 0 ≤ e.val then (m.sqrt (m.fabs e) * m.fabs b).val ^ 2
          else -(m.sqrt (m.fabs e) * m.fabs b).val ^ 2) = e.val * b.val ^ 2 * (1 + φ) := by
        rw [hd, sq, e4]
        split
        · rename_i hp
          rw [abs_of_nonneg hp]
        · rename_i hp
          rw [abs_of_neg (not_le.mp hp)]
          ring
      obtain ⟨κ, e7, hκ⟩ := factor_mul hu0 hδ hφ
      obtain ⟨κ', e8, hκ'⟩ := factor_mul hu0 hθ hκ
      have s8 := pow_small hu0 8 (by push_cast; linarith [hu, show 102 * (8 * ((1 : ℝ) / 10 ^ 11)) ≤ 1 by norm_num])
      have s5 := pow_small hu0 5 (by push_cast; linarith [hu, show 102 * (5 * ((1 : ℝ) / 10 ^ 11)) ≤ 1 by norm_num])
      push_cast at s8 s5
      refine ⟨κ, κ', by simp only [Nat.reduceAdd] at hκ; linarith, by simp only [Nat.reduceAdd] at hκ'; linarith, ?_⟩
      rw [e6, e5, ← e8, ← e7]
      have hbc : a.val / b.val * (c.val / b.val) * b.val ^ 2 = a.val * c.val := by field_simp
      linear_combination (-((1 + θ) * (1 + δ) * (1 + φ))) * hbc

/-- Two real zeros: `x` and `y` are `a` times the zeros. -/
theorem quad_real_core (hu0 : 0 ≤ u) (hu : u ≤ 1 / 10 ^ 11) {ac b b1 d x y sg α β θ φ δ : ℝ} (hd : 0 ≤ d) (hsg : sg ^ 2 = 1)
    (hb : sg * b = |b|) (hα : |α| ≤ 10 * u) (hβ : |β| ≤ 10 * u) (hθ : |θ| ≤ 203 / 100 * u) (hφ : |φ| ≤ 203 / 100 * u)
    (hδ : |δ| ≤ 101 / 100 * u) (hdd : d ^ 2 = b ^ 2 * (1 + α) - ac * (1 + β)) (hx : x = -(sg * ((|b| + d) * (1 + θ))))
    (hx0 : x ≠ 0) (hxy : x * y = ac * (1 + φ)) (hb1 : 2 * b = b1 * (1 + δ)) :
    |x + y + b1| ≤ 39 * u * max |x| |y| := by
  obtain ⟨L, hL⟩ : ∃ L, L = |b| + d := ⟨_, rfl⟩
  have hb0 := abs_nonneg b
  have hL0 : 0 ≤ L := by linarith
  have hbL : |b| ≤ L := by linarith
  rw [← hL] at hx
  have hu2 : u * u ≤ 1 / 10 ^ 11 * u := mul_le_mul_of_nonneg_right hu hu0
  have hus : u ≤ 1 / 1000000 := hu.trans (by norm_num)
  have hsb : |b| ^ 2 = b ^ 2 := sq_abs b
  have hE : x * (x + y + 2 * b) = α * b ^ 2 - β * ac + φ * ac + L ^ 2 * (2 * θ + θ * θ) - 2 * |b| * L * θ := by
    have e1 : x * x = L ^ 2 * (1 + θ) ^ 2 := by
      rw [hx]
      linear_combination (L ^ 2 * (1 + θ) ^ 2) * hsg
    have e2 : x * b = -(|b| * L * (1 + θ)) := by
      rw [hx]
      linear_combination (-(L * (1 + θ))) * hb
    have e3 : L ^ 2 - 2 * |b| * L + ac = α * b ^ 2 - β * ac := by
      rw [hL]
      linear_combination hdd - hsb
    linear_combination e1 + hxy + 2 * e2 + e3
  have hxa : |x| = L * (1 + θ) := by
    have h1 : 0 ≤ 1 + θ := by linarith [(abs_le.mp hθ).1]
    have h2 : |sg| = 1 := by
      have := sq_abs sg
      rw [hsg] at this
      nlinarith [abs_nonneg sg]
    rw [hx, abs_neg, abs_mul, h2, one_mul, abs_of_nonneg (mul_nonneg hL0 h1)]
  have hxp : 0 < |x| := abs_pos.mpr hx0
  have hLx : L ≤ 1001 / 1000 * |x| := by
    rw [hxa]
    nlinarith [(abs_le.mp hθ).1]
  have hacx : |ac| ≤ 1002 / 1000 * (|x| * |y|) := by
    rw [← abs_mul, hxy, abs_mul]
    have h1 : 999 / 1000 ≤ 1 + φ := by linarith [(abs_le.mp hφ).1]
    rw [abs_of_nonneg (by linarith : 0 ≤ 1 + φ)]
    have := mul_le_mul_of_nonneg_left h1 (abs_nonneg ac)
    linarith [abs_nonneg ac]
  have hEb : |x * (x + y + 2 * b)| ≤ (10 * u) * L ^ 2 + (10 * u) * |ac| + (203 / 100 * u) * |ac| + L ^ 2 * (407 / 100 * u) +
      2 * L * L * (203 / 100 * u) := by
    rw [hE]
    have g1 : |α * b ^ 2| ≤ (10 * u) * L ^ 2 := by
      rw [abs_mul, abs_of_nonneg (sq_nonneg b), ← hsb]
      exact mul_le_mul hα (pow_le_pow_left₀ hb0 hbL 2) (sq_nonneg _) (by positivity)
    have g2 : |β * ac| ≤ (10 * u) * |ac| := by
      rw [abs_mul]
      exact mul_le_mul_of_nonneg_right hβ (abs_nonneg _)
    have g3 : |φ * ac| ≤ (203 / 100 * u) * |ac| := by
      rw [abs_mul]
      exact mul_le_mul_of_nonneg_right hφ (abs_nonneg _)
    have g4 : |L ^ 2 * (2 * θ + θ * θ)| ≤ L ^ 2 * (407 / 100 * u) := by
      rw [abs_mul, abs_of_nonneg (sq_nonneg L)]
      refine mul_le_mul_of_nonneg_left ?_ (sq_nonneg L)
      refine (abs_add_le _ _).trans ?_
      rw [abs_mul, abs_mul, abs_two]
      have := mul_le_mul hθ hθ (abs_nonneg _) (by positivity)
      linarith
    have g5 : |2 * |b| * L * θ| ≤ 2 * L * L * (203 / 100 * u) := by
      rw [abs_mul, abs_of_nonneg (by positivity : 0 ≤ 2 * |b| * L)]
      have h2 := mul_le_mul_of_nonneg_right hbL hL0
      exact mul_le_mul (by linarith) hθ (abs_nonneg _) (by positivity)
    have k1 := abs_sub (α * b ^ 2) (β * ac)
    have k2 := abs_add_le (α * b ^ 2 - β * ac) (φ * ac)
    have k3 := abs_add_le (α * b ^ 2 - β * ac + φ * ac) (L ^ 2 * (2 * θ + θ * θ))
    have k4 := abs_sub (α * b ^ 2 - β * ac + φ * ac + L ^ 2 * (2 * θ + θ * θ)) (2 * |b| * L * θ)
    linarith
  have hLL : L ^ 2 ≤ 101 / 100 * |x| ^ 2 := by
    have := mul_le_mul hLx hLx hL0 (by positivity)
    linarith [sq_nonneg |x|]
  have hS : |x + y + 2 * b| ≤ u * (185 / 10 * |x| + 122 / 10 * |y|) := by
    rw [abs_mul] at hEb
    refine le_of_mul_le_mul_left (hEb.trans ?_) hxp
    have k1 := mul_le_mul_of_nonneg_left hLL hu0
    have k2 := mul_le_mul_of_nonneg_left hacx hu0
    have k3 : 0 ≤ u * (|x| * |y|) := by positivity
    have k4 : 0 ≤ u * |x| ^ 2 := by positivity
    linarith
  have hbb : |b1| ≤ 21 / 10 * |x| := by
    have h1 : 999 / 1000 ≤ 1 + δ := by linarith [(abs_le.mp hδ).1]
    have h2 : 2 * |b| = |b1| * (1 + δ) := by
      rw [← abs_two, ← abs_mul, hb1, abs_mul, abs_of_nonneg (by linarith : 0 ≤ 1 + δ)]
    have h3 := mul_le_mul_of_nonneg_left h1 (abs_nonneg b1)
    linarith [abs_nonneg b1]
  have hb2 : |b1 - 2 * b| ≤ 101 / 100 * u * |b1| := by
    rw [hb1, show b1 - b1 * (1 + δ) = -(δ * b1) by ring, abs_neg, abs_mul]
    exact mul_le_mul_of_nonneg_right hδ (abs_nonneg _)
  have hfin : |x + y + b1| ≤ |x + y + 2 * b| + |b1 - 2 * b| := by
    rw [show x + y + b1 = (x + y + 2 * b) + (b1 - 2 * b) by ring]
    exact abs_add_le _ _
  have hm1 := mul_le_mul_of_nonneg_left (le_max_left |x| |y|) hu0
  have hm2 := mul_le_mul_of_nonneg_left (le_max_right |x| |y|) hu0
  have hb3 := mul_le_mul_of_nonneg_left hbb hu0
  have hm3 := mul_nonneg hu0 ((abs_nonneg x).trans (le_max_left |x| |y|))
  linarith

/-- Two zeros that are not real: `r` and `i` are `a` times their real part and the modulus of the imaginary part. -/
theorem quad_complex_core (hu0 : 0 ≤ u) (hu : u ≤ 1 / 10 ^ 11) {ac b b1 d r i α β θ φ δ : ℝ}
    (hα : |α| ≤ 10 * u) (hβ : |β| ≤ 10 * u) (hθ : |θ| ≤ 101 / 100 * u) (hφ : |φ| ≤ 101 / 100 * u)
    (hδ : |δ| ≤ 101 / 100 * u) (hdd : -d ^ 2 = b ^ 2 * (1 + α) - ac * (1 + β)) (hr : r = -(b * (1 + θ)))
    (hi : i ^ 2 = (d * (1 + φ)) ^ 2) (hb1 : 2 * b = b1 * (1 + δ)) :
    |2 * r + b1| ≤ 39 * u * |r| ∧ |r ^ 2 + i ^ 2 - ac| ≤ 38 * u * (r ^ 2 + i ^ 2) := by
  have hus : u ≤ 1 / 1000000 := hu.trans (by norm_num)
  have hu2 : u * u ≤ 1 / 10 ^ 11 * u := mul_le_mul_of_nonneg_right hu hu0
  have hθ' : 999 / 1000 ≤ 1 + θ := by linarith [(abs_le.mp hθ).1]
  have hφ' : 999 / 1000 ≤ 1 + φ := by linarith [(abs_le.mp hφ).1]
  have hδ' : 999 / 1000 ≤ 1 + δ := by linarith [(abs_le.mp hδ).1]
  have hβ'' : 9999 / 10000 ≤ 1 + β := by linarith [(abs_le.mp hβ).1]
  have hβ' : 999 / 1000 ≤ 1 + β := by linarith [(abs_le.mp hβ).1]
  have hra : |r| = |b| * (1 + θ) := by
    rw [hr, abs_neg, abs_mul, abs_of_nonneg (by linarith : 0 ≤ 1 + θ)]
  have hb0 := abs_nonneg b
  constructor
  · have h2 : 2 * |b| = |b1| * (1 + δ) := by
      rw [← abs_two, ← abs_mul, hb1, abs_mul, abs_of_nonneg (by linarith : 0 ≤ 1 + δ)]
    have e : 2 * r + b1 = -(2 * b * θ) - b1 * δ := by
      rw [hr]
      linear_combination -hb1
    rw [e]
    refine (abs_sub _ _).trans ?_
    rw [abs_neg, abs_mul, abs_mul, abs_mul, abs_two]
    have k1 := mul_le_mul_of_nonneg_left hθ (by positivity : 0 ≤ 2 * |b|)
    have k2 := mul_le_mul_of_nonneg_left hδ (abs_nonneg b1)
    have k7 := mul_le_mul_of_nonneg_left hδ' (abs_nonneg b1)
    have k8 := mul_le_mul_of_nonneg_left hθ' (abs_nonneg b)
    have k3 : |b1| ≤ 21 / 10 * |b| := by linarith [abs_nonneg b1]
    have k4 : |b| ≤ 11 / 10 * |r| := by linarith
    have k5 := mul_le_mul_of_nonneg_left k4 hu0
    have k6 := mul_le_mul_of_nonneg_left k3 hu0
    have k9 := mul_nonneg hu0 (abs_nonneg r)
    linarith
  · have hi' : i ^ 2 = d ^ 2 * (1 + φ) ^ 2 := by rw [hi]; ring
    have hr' : r ^ 2 = b ^ 2 * (1 + θ) ^ 2 := by rw [hr]; ring
    have hb2 := sq_nonneg b
    have hd2 := sq_nonneg d
    have s1 : b ^ 2 ≤ 101 / 100 * r ^ 2 := by
      have : 998 / 1000 ≤ (1 + θ) ^ 2 := by nlinarith
      rw [hr']
      have := mul_le_mul_of_nonneg_left this hb2
      linarith
    have s2 : d ^ 2 ≤ 101 / 100 * i ^ 2 := by
      have : 998 / 1000 ≤ (1 + φ) ^ 2 := by nlinarith
      rw [hi']
      have := mul_le_mul_of_nonneg_left this hd2
      linarith
    have e : r ^ 2 + i ^ 2 - ac = β * ac - α * b ^ 2 + b ^ 2 * (2 * θ + θ * θ) + d ^ 2 * (2 * φ + φ * φ) := by
      rw [hr', hi']
      linear_combination -hdd
    have hac : |ac| ≤ 101 / 100 * (b ^ 2 + d ^ 2) := by
      have h1 : ac * (1 + β) = b ^ 2 * (1 + α) + d ^ 2 := by linear_combination hdd
      have h2 : |ac| * (1 + β) = b ^ 2 * (1 + α) + d ^ 2 := by
        rw [← abs_of_nonneg (by linarith : 0 ≤ 1 + β), ← abs_mul, h1, abs_of_nonneg]
        have := mul_nonneg hb2 (by linarith [(abs_le.mp hα).1] : 0 ≤ 1 + α)
        linarith
      have h3 := mul_le_mul_of_nonneg_left hβ'' (abs_nonneg ac)
      have h4 := mul_le_mul_of_nonneg_left (by linarith [(abs_le.mp hα).2] : 1 + α ≤ 1001 / 1000) hb2
      linarith [abs_nonneg ac]
    have g (t : ℝ) (ht : |t| ≤ 101 / 100 * u) : |2 * t + t * t| ≤ 203 / 100 * u := by
      refine (abs_add_le _ _).trans ?_
      rw [abs_mul, abs_mul, abs_two]
      have := mul_le_mul ht ht (abs_nonneg _) (by positivity)
      linarith
    have g1 : |β * ac| ≤ 10 * u * |ac| := by
      rw [abs_mul]
      exact mul_le_mul_of_nonneg_right hβ (abs_nonneg _)
    have g2 : |α * b ^ 2| ≤ 10 * u * b ^ 2 := by
      rw [abs_mul, abs_of_nonneg hb2]
      exact mul_le_mul_of_nonneg_right hα hb2
    have g3 : |b ^ 2 * (2 * θ + θ * θ)| ≤ b ^ 2 * (203 / 100 * u) := by
      rw [abs_mul, abs_of_nonneg hb2]
      exact mul_le_mul_of_nonneg_left (g θ hθ) hb2
    have g4 : |d ^ 2 * (2 * φ + φ * φ)| ≤ d ^ 2 * (203 / 100 * u) := by
      rw [abs_mul, abs_of_nonneg hd2]
      exact mul_le_mul_of_nonneg_left (g φ hφ) hd2
    rw [e]
    have k1 := abs_sub (β * ac) (α * b ^ 2)
    have k2 := abs_add_le (β * ac - α * b ^ 2) (b ^ 2 * (2 * θ + θ * θ))
    have k3 := abs_add_le (β * ac - α * b ^ 2 + b ^ 2 * (2 * θ + θ * θ)) (d ^ 2 * (2 * φ + φ * φ))
    have k4 := mul_le_mul_of_nonneg_left hac hu0
    have k5 := mul_le_mul_of_nonneg_left s1 hu0
    have k6 := mul_le_mul_of_nonneg_left s2 hu0
    have k7 : 0 ≤ u * r ^ 2 := by positivity
    have k8 : 0 ≤ u * i ^ 2 := by positivity
    linarith

end Verif
