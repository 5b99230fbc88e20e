import Verif.Proofs.RpolyRoundedQuad

/-
`Quad_ak1` with rounding after every operation.
-/
set_option linter.unusedSectionVars false

namespace Verif

open Spec

variable {rnd : ℝ → ℝ} {u : ℝ}

/-- A zero as a complex number. -/
def flComplex (x : Fl rnd × Fl rnd) : ℂ := ⟨x.1.val, x.2.val⟩

theorem flComplex_real (x y : Fl rnd) (hy : y.val = 0) : flComplex (x, y) = ((x.val : ℝ) : ℂ) := by
  apply Complex.ext <;> simp [flComplex, hy]

/-- For real zeros. -/
theorem quadClose_real {η a b c z w : ℝ} (h1 : |a * z + a * w + b| ≤ η * max |a * z| |a * w|)
    (h2 : |a * (z * w) - c| ≤ η * |c|) : QuadClose η a b c (z : ℂ) (w : ℂ) := by
  unfold QuadClose
  rw [Complex.norm_real, Complex.norm_real, Real.norm_eq_abs, Real.norm_eq_abs]
  constructor
  · have e : (a : ℂ) * ((z : ℂ) + w) + b = ((a * z + a * w + b : ℝ) : ℂ) := by push_cast; ring
    rw [e, Complex.norm_real, Real.norm_eq_abs, mul_assoc, mul_max_of_nonneg _ _ (abs_nonneg a), ← abs_mul, ← abs_mul]
    exact h1
  · have e : (a : ℂ) * ((z : ℂ) * w) - c = ((a * (z * w) - c : ℝ) : ℂ) := by push_cast; ring
    rw [e, Complex.norm_real, Real.norm_eq_abs]
    exact h2

theorem quad_fl (h : Rounding rnd u) (hu : u ≤ 1 / 10 ^ 11) (hnat : ∀ n : ℕ, n < 2 ^ 53 → rnd n = n)
    (m : RMath (Fl rnd)) (hm : RoundedMath m) (hs : RoundedSqrt m) (a b1 c : Fl rnd) (ha : a.val ≠ 0) :
    QuadClose (39 * u) a.val b1.val c.val (flComplex ((quad m a b1 c).sr, (quad m a b1 c).si))
      (flComplex ((quad m a b1 c).lr, (quad m a b1 c).li)) ∧
    ((quad m a b1 c).si.val = 0 ∧ (quad m a b1 c).li.val = 0 ∨
      0 < (quad m a b1 c).si.val ∧ (quad m a b1 c).lr = (quad m a b1 c).sr ∧
        (quad m a b1 c).li.val = -(quad m a b1 c).si.val) := by
  have hu0 := rounding_nonneg h
  have hu1 : u < 1 := by linarith [hu, show (1 : ℝ) / 10 ^ 11 < 1 by norm_num]
  have h0 : rnd 0 = 0 := rnd_zero h
  have h1 : rnd 1 = 1 := by simpa using hnat 1 (by norm_num)
  have h2 : rnd 2 = 2 := by simpa using hnat 2 (by norm_num)
  have n0 : (num 0 : Fl rnd).val = 0 := by
    change rnd ((0 : ℕ) : ℝ) = 0
    simpa using h0
  have s1 := pow_small hu0 1 (by push_cast; linarith [hu, show 102 * (1 * ((1 : ℝ) / 10 ^ 11)) ≤ 1 by norm_num])
  have s2 := pow_small hu0 2 (by push_cast; linarith [hu, show 102 * (2 * ((1 : ℝ) / 10 ^ 11)) ≤ 1 by norm_num])
  push_cast at s1 s2
  unfold quad
  have hza : ¬ m.isZero a = true := fun e => ha ((hm.isZero a).mp e)
  rw [if_neg hza]
  split
  · -- no constant term
    rename_i hzc
    have hc : c.val = 0 := (hm.isZero c).mp hzc
    dsimp only
    refine ⟨?_, Or.inl ⟨n0, n0⟩⟩
    rw [flComplex_real _ _ n0, flComplex_real _ _ n0, n0]
    have e : (-(b1 / a)).val = -(rnd (b1.val / a.val)) := rfl
    obtain ⟨θ, e1, hθ⟩ := Fac.round h (b1.val / a.val)
    refine quadClose_real ?_ ?_
    · rw [e, e1]
      have e2 : a.val * 0 + a.val * -(b1.val / a.val * (1 + θ)) + b1.val = -(b1.val * θ) := by
        field_simp
        ring
      have e3 : a.val * -(b1.val / a.val * (1 + θ)) = -(b1.val * (1 + θ)) := by
        field_simp
      rw [e2, e3, mul_zero, abs_zero, abs_neg, abs_neg, abs_mul, abs_mul]
      have h3 : 1 / 2 ≤ |1 + θ| := by
        rw [le_abs]
        left
        have := (abs_le.mp hθ).1
        linarith [hu, show (1 : ℝ) / 10 ^ 11 ≤ 1 / 4 by norm_num]
      have h4 := le_max_right 0 (|b1.val| * |1 + θ|)
      have h5 := mul_le_mul_of_nonneg_left h3 (abs_nonneg b1.val)
      have h6 := mul_le_mul_of_nonneg_left (hθ.trans s1) (abs_nonneg b1.val)
      have h7 := mul_le_mul_of_nonneg_left (h5.trans h4) (by positivity : 0 ≤ 39 * u)
      have h8 : 0 ≤ |b1.val| * u := by positivity
      linarith
    · rw [hc, zero_mul, mul_zero, sub_zero, abs_zero, mul_zero]
  · rename_i hzc
    have hc : c.val ≠ 0 := fun e => hzc ((hm.isZero c).mpr e)
    dsimp only
    obtain ⟨b, hb⟩ : ∃ b : Fl rnd, b = b1 / num 2 := ⟨_, rfl⟩
    rw [← hb]
    obtain ⟨δ, e1, hδ⟩ := Fac.round h (b1.val / 2)
    have hb1 : 2 * b.val = b1.val * (1 + δ) := by
      rw [hb]
      change 2 * rnd (b1.val / rnd ((2 : ℕ) : ℝ)) = _
      rw [Nat.cast_ofNat, h2, e1]
      ring
    obtain ⟨hd0, hdp, α, β, hα, hβ, hdd⟩ := quadDiscr_fl h hu h0 h1 m hm hs a b c hc
    generalize (quadDiscr m a b c).1 = e at hd0 hdp hdd ⊢
    generalize (quadDiscr m a b c).2 = d at hd0 hdp hdd ⊢
    unfold quadFromDiscr
    by_cases he : (0 : ℝ) ≤ e.val
    · have he' : (num 0 : Fl rnd) ≤ e := by
        change (num 0 : Fl rnd).val ≤ e.val
        rw [n0]
        exact he
      rw [if_pos he']
      rw [if_pos he] at hdd
      dsimp only
      refine ⟨?_, Or.inl ⟨n0, n0⟩⟩
      obtain ⟨lr, hlr⟩ : ∃ lr : Fl rnd, lr = (-b + (if num 0 ≤ b then -d else d)) / a := ⟨_, rfl⟩
      rw [← hlr]
      obtain ⟨sg, hsg, hsb, hv⟩ : ∃ sg : ℝ, sg ^ 2 = 1 ∧ sg * b.val = |b.val| ∧
          lr.val = rnd (rnd (-(sg * (|b.val| + d.val))) / a.val) := by
        by_cases hbs : (0 : ℝ) ≤ b.val
        · refine ⟨1, by norm_num, by rw [one_mul, abs_of_nonneg hbs], ?_⟩
          have : (num 0 : Fl rnd) ≤ b := by
            change (num 0 : Fl rnd).val ≤ b.val
            rw [n0]
            exact hbs
          rw [hlr, if_pos this]
          change rnd (rnd (-b.val + -d.val) / a.val) = _
          rw [abs_of_nonneg hbs]
          congr 3
          ring
        · refine ⟨-1, by norm_num, by rw [abs_of_neg (not_le.mp hbs)]; ring, ?_⟩
          have : ¬ (num 0 : Fl rnd) ≤ b := by
            change ¬ (num 0 : Fl rnd).val ≤ b.val
            rw [n0]
            exact hbs
          rw [hlr, if_neg this]
          change rnd (rnd (-b.val + d.val) / a.val) = _
          rw [abs_of_neg (not_le.mp hbs)]
          congr 3
          ring
      have fl : Fac u 2 lr.val (-(sg * (|b.val| + d.val)) / a.val) := by
        rw [hv]
        have := (Fac.round h (rnd (-(sg * (|b.val| + d.val))) / a.val)).trans hu0
          ((Fac.round h (-(sg * (|b.val| + d.val)))).div a.val)
        simpa using this
      obtain ⟨θ, e2, hθ⟩ := fl
      have hsg0 : sg ≠ 0 := by
        intro e0
        rw [e0] at hsg
        norm_num at hsg
      have hθ1 : 0 < 1 + θ := by
        have := (abs_le.mp hθ).1
        linarith [hu, show (1 : ℝ) / 10 ^ 11 ≤ 1 / 10 by norm_num]
      have hL : 0 < |b.val| + d.val := by
        rcases lt_or_eq_of_le (add_nonneg (abs_nonneg b.val) hd0) with hp | hp
        · exact hp
        · exfalso
          have hb0 : b.val = 0 := by
            have := abs_nonneg b.val
            exact abs_eq_zero.mp (by linarith)
          have hdz : d.val = 0 := by
            have := abs_nonneg b.val
            linarith
          rw [hb0, hdz] at hdd
          have hβ1 : 1 + β ≠ 0 := by
            have := (abs_le.mp hβ).1
            have : 0 < 1 + β := by linarith [hu, show (1 : ℝ) / 10 ^ 11 ≤ 1 / 100 by norm_num]
            exact this.ne'
          have : a.val * c.val * (1 + β) = 0 := by linear_combination hdd
          exact mul_ne_zero (mul_ne_zero ha hc) hβ1 this
      have hx : a.val * lr.val = -(sg * ((|b.val| + d.val) * (1 + θ))) := by
        rw [e2]
        field_simp
      have hx0 : a.val * lr.val ≠ 0 := by
        rw [hx]
        exact neg_ne_zero.mpr (mul_ne_zero hsg0 (mul_pos hL hθ1).ne')
      have hlr0 : lr.val ≠ 0 := (mul_ne_zero_iff.mp hx0).2
      have hzl : ¬ m.isZero lr = true := fun e => hlr0 ((hm.isZero lr).mp e)
      rw [if_neg hzl]
      obtain ⟨sr, hsr⟩ : ∃ sr : Fl rnd, sr = c / lr / a := ⟨_, rfl⟩
      rw [← hsr]
      have fs : Fac u 2 sr.val (c.val / lr.val / a.val) := by
        rw [hsr]
        change Fac u 2 (rnd (rnd (c.val / lr.val) / a.val)) _
        have := (Fac.round h (rnd (c.val / lr.val) / a.val)).trans hu0 ((Fac.round h (c.val / lr.val)).div a.val)
        simpa using this
      obtain ⟨φ, e3, hφ⟩ := fs
      have hxy : (a.val * lr.val) * (a.val * sr.val) = a.val * c.val * (1 + φ) := by
        rw [e3]
        field_simp
      rw [flComplex_real _ _ n0, flComplex_real _ _ n0]
      refine quadClose_real ?_ ?_
      · rw [add_comm (a.val * sr.val), max_comm]
        exact quad_real_core hu0 hu hd0 hsg hsb hα hβ (hθ.trans (by linarith)) (hφ.trans (by linarith)) (hδ.trans (by linarith)) hdd hx hx0
          hxy hb1
      · have e4 : a.val * (sr.val * lr.val) = c.val * (1 + φ) := by
          rw [e3]
          field_simp
        have e5 : a.val * (sr.val * lr.val) - c.val = c.val * φ := by
          rw [e4]
          ring
        rw [e5, abs_mul]
        have h8 := mul_le_mul_of_nonneg_left (hφ.trans s2) (abs_nonneg c.val)
        have h11 : 0 ≤ u * |c.val| := by positivity
        linarith
    · have he' : ¬ (num 0 : Fl rnd) ≤ e := by
        change ¬ (num 0 : Fl rnd).val ≤ e.val
        rw [n0]
        exact he
      rw [if_neg he']
      rw [if_neg he] at hdd
      dsimp only
      have hdpos := hdp (fun e0 => he e0.ge)
      have hi : (m.fabs (d / a)).val = |rnd (d.val / a.val)| := hm.fabs _
      obtain ⟨φ, e2, hφ⟩ := Fac.round h (d.val / a.val)
      obtain ⟨θ, e3, hθ⟩ := Fac.round h (b.val / a.val)
      have hr : (-(b / a)).val = -(rnd (b.val / a.val)) := rfl
      have hipos : 0 < (m.fabs (d / a)).val := by
        rw [hi, e2]
        refine abs_pos.mpr (mul_ne_zero (div_ne_zero hdpos.ne' ha) ?_)
        have := (abs_le.mp hφ).1
        have : 0 < 1 + φ := by linarith [hu, show (1 : ℝ) / 10 ^ 11 ≤ 1 / 10 by norm_num]
        exact this.ne'
      refine ⟨?_, Or.inr ⟨hipos, rfl, rfl⟩⟩
      obtain ⟨g1, g2⟩ := quad_complex_core (ac := a.val * c.val) (r := a.val * (-(b / a)).val)
        (i := a.val * (m.fabs (d / a)).val) hu0 hu hα hβ (hθ.trans (by linarith)) (hφ.trans (by linarith)) (hδ.trans (by linarith)) hdd
        (by rw [hr, e3]; field_simp) (by
          rw [hi, e2, mul_pow, sq_abs]
          field_simp) hb1
      unfold QuadClose flComplex
      dsimp only
      generalize (-(b / a)).val = r at g1 g2 ⊢
      generalize hI : (m.fabs (d / a)).val = i at g1 g2 hipos ⊢
      have hneg : (-(m.fabs (d / a))).val = -i := by
        change -(m.fabs (d / a)).val = -i
        rw [hI]
      rw [hneg]
      have k2 : ‖(⟨r, -i⟩ : ℂ)‖ = ‖(⟨r, i⟩ : ℂ)‖ := by
        have : (⟨r, -i⟩ : ℂ) = (starRingEnd ℂ) ⟨r, i⟩ := by apply Complex.ext <;> simp
        rw [this, Complex.norm_conj]
      have k3 : |r| ≤ ‖(⟨r, i⟩ : ℂ)‖ := Complex.abs_re_le_norm ⟨r, i⟩
      rw [k2, max_self]
      have hap : 0 < |a.val| := abs_pos.mpr ha
      constructor
      · have e4 : (a.val : ℂ) * ((⟨r, i⟩ : ℂ) + ⟨r, -i⟩) + b1.val = ((2 * (a.val * r) + b1.val : ℝ) : ℂ) := by
          apply Complex.ext <;> simp
          ring
        rw [e4, Complex.norm_real, Real.norm_eq_abs]
        refine g1.trans ?_
        rw [abs_mul, mul_assoc (39 * u)]
        exact mul_le_mul_of_nonneg_left (mul_le_mul_of_nonneg_left k3 hap.le) (by positivity)
      · have e4 : (a.val : ℂ) * ((⟨r, i⟩ : ℂ) * ⟨r, -i⟩) - c.val = ((a.val * (r ^ 2 + i ^ 2) - c.val : ℝ) : ℂ) := by
          have e0 : (⟨r, i⟩ : ℂ) * ⟨r, -i⟩ = ((r * r + i * i : ℝ) : ℂ) := by
            apply Complex.ext
            · rw [Complex.mul_re, Complex.ofReal_re]
              ring
            · rw [Complex.mul_im, Complex.ofReal_im]
              ring
          rw [e0, sq, sq]
          push_cast
          ring
        rw [e4, Complex.norm_real, Real.norm_eq_abs]
        have e5 : a.val * (a.val * (r ^ 2 + i ^ 2) - c.val) = (a.val * r) ^ 2 + (a.val * i) ^ 2 - a.val * c.val := by ring
        have e6 : |a.val| * |a.val| = a.val ^ 2 := by rw [← sq, sq_abs]
        have g3 : |a.val * (r ^ 2 + i ^ 2) - c.val| ≤ 38 * u * (|a.val| * (r ^ 2 + i ^ 2)) := by
          refine le_of_mul_le_mul_left ?_ hap
          rw [← abs_mul, e5]
          refine g2.trans (le_of_eq ?_)
          linear_combination (-(38 * u * (r ^ 2 + i ^ 2))) * e6
        have g4 : |a.val| * (r ^ 2 + i ^ 2) ≤ |c.val| + |a.val * (r ^ 2 + i ^ 2) - c.val| := by
          have := abs_add_le c.val (a.val * (r ^ 2 + i ^ 2) - c.val)
          rw [add_sub_cancel, abs_mul, abs_of_nonneg (by positivity : 0 ≤ r ^ 2 + i ^ 2)] at this
          exact this
        generalize |a.val * (r ^ 2 + i ^ 2) - c.val| = y at g3 g4 ⊢
        generalize |a.val| * (r ^ 2 + i ^ 2) = z at g3 g4
        have hus : u ≤ 1 / 10000 := hu.trans (by norm_num)
        have g5 := mul_le_mul_of_nonneg_left g4 hu0
        have hy0 : y ≤ 38 * (u * |c.val|) + 38 * (u * y) := by linarith
        rcases le_or_gt y 0 with hy | hy
        · exact hy.trans (by positivity)
        · have := mul_le_mul_of_nonneg_right hus hy.le
          have g6 : 996 / 1000 * y ≤ 38 * (u * |c.val|) := by linarith
          have : 0 ≤ u * |c.val| := by positivity
          linarith

theorem Spec.QuadClose.mono {η η' a b c : ℝ} {z w : ℂ} (h : QuadClose η a b c z w) (hη : η ≤ η') : QuadClose η' a b c z w := by
  have hρ : 0 ≤ max ‖z‖ ‖w‖ := (norm_nonneg z).trans (le_max_left _ _)
  refine ⟨h.1.trans ?_, h.2.trans (mul_le_mul_of_nonneg_right hη (abs_nonneg c))⟩
  exact mul_le_mul_of_nonneg_right (mul_le_mul_of_nonneg_right hη (abs_nonneg a)) hρ

/-- The constant coefficient relative to the zeros. -/
theorem Spec.QuadClose.product {u b c : ℝ} {z w : ℂ} (hu0 : 0 ≤ u) (hu : u ≤ 1 / 10 ^ 11) (h : QuadClose (39 * u) 1 b c z w) :
    ‖z * w - c‖ ≤ 40 * u * max ‖z‖ ‖w‖ ^ 2 := by
  have h2 := h.2
  rw [Complex.ofReal_one, one_mul] at h2
  refine h2.trans ?_
  have h3 : |c| ≤ ‖z * w‖ + ‖z * w - c‖ := by
    have := norm_sub_le (z * w) (z * w - c)
    rwa [sub_sub_cancel, Complex.norm_real, Real.norm_eq_abs] at this
  have h4 : ‖z * w‖ ≤ max ‖z‖ ‖w‖ ^ 2 := by
    rw [norm_mul, sq]
    exact mul_le_mul (le_max_left _ _) (le_max_right _ _) (norm_nonneg _) ((norm_nonneg z).trans (le_max_left _ _))
  have hus : u ≤ 1 / 10000 := hu.trans (by norm_num)
  have h5 := mul_le_mul_of_nonneg_right hus (abs_nonneg c)
  have h6 : |c| ≤ 1004 / 1000 * max ‖z‖ ‖w‖ ^ 2 := by linarith [sq_nonneg (max ‖z‖ ‖w‖)]
  have h7 := mul_le_mul_of_nonneg_left h6 hu0
  have h8 : 0 ≤ u * max ‖z‖ ‖w‖ ^ 2 := by positivity
  linarith

/-- The polynomial with the zeros `z`, `w` has almost the values of the one given. -/
theorem Spec.QuadClose.value {η a b c : ℝ} {z w : ℂ} (hη0 : 0 ≤ η) (hη : η ≤ 1 / 100) (h : QuadClose η a b c z w) (x : ℝ) :
    ‖(a : ℂ) * ((x - z) * (x - w)) - ((a * x ^ 2 + b * x + c : ℝ) : ℂ)‖ ≤ 3 * η * (|a| * |x| ^ 2 + |b| * |x| + |c|) := by
  obtain ⟨h1, h2⟩ := h
  obtain ⟨ρ, hρ⟩ : ∃ ρ, ρ = max ‖z‖ ‖w‖ := ⟨_, rfl⟩
  rw [← hρ] at h1
  have hρ0 : 0 ≤ ρ := by
    rw [hρ]
    exact (norm_nonneg z).trans (le_max_left _ _)
  have ha := abs_nonneg a
  have hb := abs_nonneg b
  have hc := abs_nonneg c
  have hx := abs_nonneg x
  -- the modulus of the larger zero
  have key : ∀ y : ℂ, ‖y‖ = ρ → y = z ∨ y = w → |a| * ρ ^ 2 * 99 ≤ 100 * (|b| * ρ) + 101 * |c| := by
    intro y hy hyz
    have e : (a : ℂ) * y ^ 2 = (a * (z + w) + b) * y - b * y - (a * (z * w) - c) - c := by
      rcases hyz with rfl | rfl <;> ring
    have g : |a| * ρ ^ 2 ≤ η * |a| * ρ * ρ + |b| * ρ + η * |c| + |c| := by
      have : ‖(a : ℂ) * y ^ 2‖ = |a| * ρ ^ 2 := by
        rw [norm_mul, norm_pow, Complex.norm_real, Real.norm_eq_abs, hy]
      rw [← this, e]
      refine (norm_sub_le _ _).trans (add_le_add ((norm_sub_le _ _).trans (add_le_add ((norm_sub_le _ _).trans (add_le_add ?_ ?_)) h2)) ?_)
      · rw [norm_mul, hy]
        exact mul_le_mul_of_nonneg_right h1 hρ0
      · rw [norm_mul, Complex.norm_real, Real.norm_eq_abs, hy]
      · rw [Complex.norm_real, Real.norm_eq_abs]
    have k1 := mul_le_mul_of_nonneg_right hη (by positivity : 0 ≤ |a| * ρ ^ 2)
    have k2 := mul_le_mul_of_nonneg_right hη hc
    have k3 : η * |a| * ρ * ρ = η * (|a| * ρ ^ 2) := by ring
    linarith
  have hbig : |a| * ρ ^ 2 * 99 ≤ 100 * (|b| * ρ) + 101 * |c| := by
    rcases max_choice ‖z‖ ‖w‖ with hm | hm
    · exact key z (by rw [hρ, hm]) (Or.inl rfl)
    · exact key w (by rw [hρ, hm]) (Or.inr rfl)
  have hQ : |a| * ρ * |x| ≤ 11 / 10 * (|a| * |x| ^ 2 + |b| * |x| + |c|) := by
    have p1 : 0 ≤ |a| * |x| ^ 2 := by positivity
    have p2 : 0 ≤ |b| * |x| := by positivity
    rcases le_or_gt ρ |x| with hr | hr
    · have := mul_le_mul_of_nonneg_left (mul_le_mul_of_nonneg_right hr hx) ha
      nlinarith
    · have hrp : 0 < ρ := lt_of_le_of_lt hx hr
      refine le_of_mul_le_mul_left ?_ hrp
      have k1 := mul_le_mul_of_nonneg_right hbig hx
      have k2 := mul_le_mul_of_nonneg_left hr.le hc
      have k3 := mul_nonneg hρ0 p1
      have k4 := mul_nonneg hρ0 p2
      have k5 := mul_nonneg hρ0 hc
      linarith
  have e : (a : ℂ) * ((x - z) * (x - w)) - ((a * x ^ 2 + b * x + c : ℝ) : ℂ) = -((a * (z + w) + b) * x) + (a * (z * w) - c) := by
    push_cast
    ring
  rw [e]
  refine (norm_add_le _ _).trans ?_
  rw [norm_neg, norm_mul, Complex.norm_real, Real.norm_eq_abs]
  have k1 := mul_le_mul_of_nonneg_right h1 hx
  have k2 := mul_le_mul_of_nonneg_left hQ hη0
  have k3 : 0 ≤ η * (|a| * |x| ^ 2) := by positivity
  have k4 : 0 ≤ η * (|b| * |x|) := by positivity
  have k5 : 0 ≤ η * |c| := by positivity
  linarith

end Verif
