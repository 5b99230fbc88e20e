import Verif.Proofs.RpolyRoundedReal

/-
The test of the quadratic iteration with rounding after every operation.
-/
set_option linter.unusedSectionVars false

namespace Verif

open Spec Polynomial

variable {rnd : ℝ → ℝ} {u : ℝ}

/-- The polynomial with real coefficients at a complex number. -/
noncomputable def cEval (p : List ℝ) (w : ℂ) : ℂ := ((decPoly p).map (algebraMap ℝ ℂ)).eval w

theorem cEval_snoc (p : List ℝ) (x : ℝ) (w : ℂ) : cEval (p ++ [x]) w = w * cEval p w + x := by
  unfold cEval
  rw [decPoly_snoc]
  simp

theorem cEval_single (x : ℝ) (w : ℂ) : cEval [x] w = x := by
  unfold cEval
  rw [decPoly_single]
  simp

/-- One coefficient of the quotient as it is computed. -/
theorem quadStep_fl (h : Rounding rnd u) (hu : u ≤ 1 / 10 ^ 11) (U V : Fl rnd) (z w : ℂ) (ρ : ℝ)
    (hz : ‖z‖ ≤ ρ) (hw : ‖w‖ ≤ ρ) (hU : ‖z + w + U.val‖ ≤ 40 * u * ρ) (hV : ‖z * w - V.val‖ ≤ 40 * u * ρ ^ 2)
    (a b x : Fl rnd) (q : ℝ) (hq : Near u 3 q (-(a.val * U.val + b.val * V.val) + x.val)
      (|a.val| * |U.val| + |b.val| * |V.val| + |x.val|)) :
    ‖(q : ℂ) - ((z + w) * a.val - z * w * b.val + x.val)‖ ≤ 50 * u * (ρ * |a.val| + ρ ^ 2 * |b.val| + |x.val|) := by
  have hu0 := rounding_nonneg h
  have hρ : 0 ≤ ρ := (norm_nonneg z).trans hz
  have hus : u ≤ 1 / 1000000 := hu.trans (by norm_num)
  have hUb : |U.val| ≤ 21 / 10 * ρ := by
    have e : (U.val : ℂ) = (z + w + U.val) - z - w := by ring
    have := congrArg norm e
    rw [Complex.norm_real, Real.norm_eq_abs] at this
    rw [this]
    have k1 := norm_sub_le (z + w + U.val - z) w
    have k2 := norm_sub_le (z + w + U.val) z
    have k3 := mul_le_mul_of_nonneg_right hus hρ
    linarith
  have hVb : |V.val| ≤ 11 / 10 * ρ ^ 2 := by
    have e : (V.val : ℂ) = z * w - (z * w - V.val) := by ring
    have := congrArg norm e
    rw [Complex.norm_real, Real.norm_eq_abs] at this
    rw [this]
    have k1 := norm_sub_le (z * w) (z * w - V.val)
    rw [norm_mul] at k1
    have k2 := mul_le_mul hz hw (norm_nonneg _) hρ
    have k3 := mul_le_mul_of_nonneg_right hus (sq_nonneg ρ)
    linarith [sq_nonneg ρ]
  have s3 := pow_small hu0 3 (by push_cast; linarith)
  push_cast at s3
  have hq2 := hq.2.trans (mul_le_mul_of_nonneg_right s3 hq.nonneg)
  have e : (q : ℂ) - ((z + w) * a.val - z * w * b.val + x.val) =
      ((q - (-(a.val * U.val + b.val * V.val) + x.val) : ℝ) : ℂ) - (z + w + U.val) * a.val + (z * w - V.val) * b.val := by
    push_cast
    ring
  rw [e]
  have k1 := norm_add_le (((q - (-(a.val * U.val + b.val * V.val) + x.val) : ℝ) : ℂ) - (z + w + U.val) * a.val)
    ((z * w - V.val) * b.val)
  have k2 := norm_sub_le (((q - (-(a.val * U.val + b.val * V.val) + x.val) : ℝ) : ℂ)) ((z + w + U.val) * a.val)
  rw [norm_mul, Complex.norm_real, Real.norm_eq_abs] at k1 k2
  rw [Complex.norm_real, Real.norm_eq_abs] at k2
  have k3 := mul_le_mul_of_nonneg_right hU (abs_nonneg a.val)
  have k4 := mul_le_mul_of_nonneg_right hV (abs_nonneg b.val)
  have k5 := mul_le_mul_of_nonneg_left hUb (abs_nonneg a.val)
  have k6 := mul_le_mul_of_nonneg_left hVb (abs_nonneg b.val)
  have k7 := mul_le_mul_of_nonneg_left k5 hu0
  have k8 := mul_le_mul_of_nonneg_left k6 hu0
  have k9 : 0 ≤ u * (ρ * |a.val|) := by positivity
  have k10 : 0 ≤ u * (ρ ^ 2 * |b.val|) := by positivity
  have k11 : 0 ≤ u * |x.val| := by positivity
  linarith

theorem quadStep_near (h : Rounding rnd u) (U V a b x : Fl rnd) :
    Near u 3 (-(a * U + b * V) + x).val (-(a.val * U.val + b.val * V.val) + x.val)
      (|a.val| * |U.val| + |b.val| * |V.val| + |x.val|) := by
  have hu0 := rounding_nonneg h
  change Near u 3 (rnd (-(rnd (rnd (a.val * U.val) + rnd (b.val * V.val))) + x.val)) _ _
  have k1 := ((Near.self (u := u) (a.val * U.val)).rounded h).add ((Near.self (u := u) (b.val * V.val)).rounded h)
  have k2 := k1.rounded h
  have k3 : Near u 2 (-(rnd (rnd (a.val * U.val) + rnd (b.val * V.val)))) (-(a.val * U.val + b.val * V.val))
      (|a.val * U.val| + |b.val * V.val|) := by
    refine ⟨by rw [abs_neg]; exact k2.1, ?_⟩
    rw [← neg_sub', abs_neg]
    exact k2.2
  rw [← abs_mul, ← abs_mul]
  exact (k3.add ((Near.self (u := u) x.val).mono hu0 (Nat.zero_le 2))).rounded h

theorem quadFirst_near (h : Rounding rnd u) (U V a x : Fl rnd) :
    Near u 3 (-(a * U) + x).val (-(a.val * U.val + (0 : Fl rnd).val * V.val) + x.val)
      (|a.val| * |U.val| + |(0 : Fl rnd).val| * |V.val| + |x.val|) := by
  have hu0 := rounding_nonneg h
  change Near u 3 (rnd (-(rnd (a.val * U.val)) + x.val)) (-(a.val * U.val + 0 * V.val) + x.val)
    (|a.val| * |U.val| + |(0 : ℝ)| * |V.val| + |x.val|)
  rw [zero_mul, add_zero, abs_zero, zero_mul, add_zero]
  have k2 := (Near.self (u := u) (a.val * U.val)).rounded h
  have k3 : Near u 1 (-(rnd (a.val * U.val))) (-(a.val * U.val)) |a.val * U.val| := by
    refine ⟨by rw [abs_neg], ?_⟩
    rw [← neg_sub', abs_neg]
    exact k2.2
  rw [← abs_mul]
  exact ((k3.add ((Near.self (u := u) x.val).mono hu0 (Nat.zero_le 1))).rounded h).mono hu0 (by norm_num)

/-- The state of the division by the quadratic: `pre` are the coefficients used so far, `q` the ones computed, `a` and `b` the last
two of them. -/
structure DivState (u ρ : ℝ) (z w : ℂ) (pre q : List ℝ) (a b : ℝ) : Prop where
  near : ‖(a : ℂ) - w * b‖ ≤ (1 + 20200 * u * pre.length) * absValue pre ρ
  last : |a| ≤ pre.length * ((1 + 20200 * u * pre.length) * absValue pre ρ)
  prev : ρ * |b| ≤ 2 * (pre.length * absValue pre ρ)
  sum : 2 * absValue q ρ ≤ 11 / 10 * (pre.length * (pre.length + 1) * absValue pre ρ)
  rem : ‖cEval pre w - (a - z * b)‖ ≤ 100 * u * (pre.length * (pre.length + 1)) * absValue pre ρ

theorem DivState.step (hu0 : 0 ≤ u) (hu : u ≤ 1 / 10 ^ 11) {ρ : ℝ} {z w : ℂ} (hz : ‖z‖ ≤ ρ) (hw : ‖w‖ ≤ ρ)
    {pre q : List ℝ} {a b : ℝ} (hs : DivState u ρ z w pre q a b) (h1 : 1 ≤ pre.length) (hlen : pre.length < 101) (x a' : ℝ)
    (hx : ‖(a' : ℂ) - ((z + w) * a - z * w * b + x)‖ ≤ 50 * u * (ρ * |a| + ρ ^ 2 * |b| + |x|)) :
    DivState u ρ z w (pre ++ [x]) (q ++ [a']) a' a := by
  obtain ⟨g1, g2, g3, g4, g5⟩ := hs
  have hρ : 0 ≤ ρ := (norm_nonneg z).trans hz
  have hA := absValue_nonneg pre hρ
  have hn1 : (1 : ℝ) ≤ pre.length := by exact_mod_cast h1
  have hn2 : (pre.length : ℝ) ≤ 100 := by
    have : pre.length ≤ 100 := by omega
    exact_mod_cast this
  have el : ((pre ++ [x]).length : ℝ) = pre.length + 1 := by simp
  have eA : absValue (pre ++ [x]) ρ = ρ * absValue pre ρ + |x| := absValue_snoc _ _ _
  have eq' : absValue (q ++ [a']) ρ = ρ * absValue q ρ + |a'| := absValue_snoc _ _ _
  obtain ⟨n, hn⟩ : ∃ n : ℝ, n = pre.length := ⟨_, rfl⟩
  obtain ⟨A, hAe⟩ : ∃ A, A = absValue pre ρ := ⟨_, rfl⟩
  rw [← hn] at hn1 hn2
  have hxp := abs_nonneg x
  -- the rounding errors
  obtain ⟨δ, hδ⟩ : ∃ δ : ℂ, δ = (a' : ℂ) - ((z + w) * a - z * w * b + x) := ⟨_, rfl⟩
  rw [← hδ] at hx
  rw [← hn, ← hAe] at g1 g2 g3 g4 g5
  rw [← hAe] at hA eA
  have hB : 0 ≤ ρ * A + |x| := by positivity
  have hsm : 20200 * u * n ≤ 1 / 10000 := by
    have := mul_le_mul_of_nonneg_left hn2 hu0
    linarith [hu, show 2020000 * ((1 : ℝ) / 10 ^ 11) ≤ 1 / 10000 by norm_num]
  have hsm1 : 20200 * u * (n + 1) ≤ 1 / 1000 := by
    have := mul_le_mul_of_nonneg_left hn2 hu0
    linarith [hu, show 2040200 * ((1 : ℝ) / 10 ^ 11) ≤ 1 / 1000 by norm_num]
  have hun : 0 ≤ u * n := by positivity
  have hk0 : 0 ≤ 1 + 20200 * u * n := by linarith
  have hnA : 0 ≤ n * A := by positivity
  have ha2 : |a| ≤ 2 * (n * A) := by
    have := mul_le_mul_of_nonneg_right hsm hnA
    linarith
  have hδ1 : ‖δ‖ ≤ 200 * u * n * (ρ * A + |x|) := by
    refine hx.trans ?_
    have k1 := mul_le_mul_of_nonneg_left ha2 hρ
    have k2 : ρ ^ 2 * |b| ≤ ρ * (2 * (n * A)) := by
      have := mul_le_mul_of_nonneg_left g3 hρ
      linarith
    have k3 : |x| ≤ n * |x| := le_mul_of_one_le_left hxp hn1
    have k4 : ρ * |a| + ρ ^ 2 * |b| + |x| ≤ 4 * (n * (ρ * A + |x|)) := by linarith
    have := mul_le_mul_of_nonneg_left k4 hu0
    linarith
  have hδ2 : ‖δ‖ ≤ 20200 * u * (ρ * A + |x|) := by
    refine hδ1.trans ?_
    have := mul_le_mul_of_nonneg_left (mul_le_mul_of_nonneg_right hn2 hB) hu0
    have := mul_nonneg hu0 hB
    linarith
  have ρA : ρ * A ≤ ρ * A + |x| := by linarith
  have i1 : ‖(a' : ℂ) - w * a‖ ≤ (1 + 20200 * u * (n + 1)) * (ρ * A + |x|) := by
    have e : (a' : ℂ) - w * a = z * (a - w * b) + x + δ := by
      rw [hδ]
      ring
    rw [e]
    have k1 := norm_add_le (z * ((a : ℂ) - w * b) + x) δ
    have k2 := norm_add_le (z * ((a : ℂ) - w * b)) (x : ℂ)
    rw [norm_mul, Complex.norm_real, Real.norm_eq_abs] at k2
    have k3 := mul_le_mul hz g1 (norm_nonneg _) hρ
    have k4 := mul_nonneg (mul_nonneg (by norm_num : (0 : ℝ) ≤ 20200) hun) hxp
    linarith
  have i2 : |a'| ≤ (n + 1) * ((1 + 20200 * u * (n + 1)) * (ρ * A + |x|)) := by
    have e : (a' : ℂ) = ((a' : ℂ) - w * a) + w * a := by ring
    have k0 := congrArg norm e
    rw [Complex.norm_real, Real.norm_eq_abs] at k0
    rw [k0]
    have k1 := norm_add_le ((a' : ℂ) - w * a) (w * a)
    rw [norm_mul, Complex.norm_real, Real.norm_eq_abs] at k1
    have k2 := mul_le_mul hw g2 (abs_nonneg _) hρ
    have k3 : (1 + 20200 * u * n) * (ρ * A) ≤ (1 + 20200 * u * (n + 1)) * (ρ * A + |x|) :=
      mul_le_mul (by linarith) ρA (by positivity) (by linarith)
    have k4 := mul_le_mul_of_nonneg_left k3 (by linarith : (0 : ℝ) ≤ n)
    linarith
  refine ⟨?_, ?_, ?_, ?_, ?_⟩
  · rw [el, eA, ← hn]
    exact i1
  · rw [el, eA, ← hn]
    exact i2
  · rw [el, eA, ← hn]
    have k1 := mul_le_mul_of_nonneg_left ha2 hρ
    have k2 := mul_le_mul_of_nonneg_left ρA (by linarith : (0 : ℝ) ≤ n)
    linarith
  · rw [el, eA, eq', ← hn]
    have k1 := mul_le_mul_of_nonneg_left g4 hρ
    have k2 : (n * (n + 1)) * (ρ * A) ≤ (n * (n + 1)) * (ρ * A + |x|) := mul_le_mul_of_nonneg_left ρA (by positivity)
    have k3 : (1 + 20200 * u * (n + 1)) * (ρ * A + |x|) ≤ 11 / 10 * (ρ * A + |x|) :=
      mul_le_mul_of_nonneg_right (by linarith) hB
    have k4 := mul_le_mul_of_nonneg_left k3 (by linarith : (0 : ℝ) ≤ n + 1)
    linarith
  · rw [el, eA, ← hn, cEval_snoc]
    have e : w * cEval pre w + x - ((a' : ℂ) - z * a) = w * (cEval pre w - (a - z * b)) - δ := by
      rw [hδ]
      ring
    rw [e]
    have k1 := norm_sub_le (w * (cEval pre w - ((a : ℂ) - z * b))) δ
    rw [norm_mul] at k1
    have k2 := mul_le_mul hw g5 (norm_nonneg _) hρ
    have k3 := mul_le_mul_of_nonneg_left ρA (by positivity : 0 ≤ u * (n * (n + 1)))
    have k4 := mul_nonneg hu0 hB
    linarith

theorem DivState.first (hu0 : 0 ≤ u) {ρ : ℝ} (z w : ℂ) (x : ℝ) : DivState u ρ z w [x] [x] x 0 := by
  have hx := abs_nonneg x
  have hux := mul_nonneg hu0 hx
  refine ⟨?_, ?_, ?_, ?_, ?_⟩ <;>
    simp only [absValue_single, List.length_singleton, Nat.cast_one, cEval_single, Complex.ofReal_zero, mul_zero, sub_zero,
      sub_self, norm_zero, abs_zero, Complex.norm_real, Real.norm_eq_abs] <;> linarith

theorem quadSDLoop_state (h : Rounding rnd u) (hu : u ≤ 1 / 10 ^ 11) (U V : Fl rnd) (z w : ℂ) (ρ : ℝ)
    (hz : ‖z‖ ≤ ρ) (hw : ‖w‖ ≤ ρ) (hU : ‖z + w + U.val‖ ≤ 40 * u * ρ) (hV : ‖z * w - V.val‖ ≤ 40 * u * ρ ^ 2) :
    ∀ (xs : List (Fl rnd)) (pre q : List ℝ) (a b : Fl rnd), DivState u ρ z w pre q a.val b.val → 1 ≤ pre.length →
    pre.length + xs.length ≤ 101 →
    DivState u ρ z w (pre ++ vals xs) (q ++ vals (quadSDLoop U V xs a b).1) (quadSDLoop U V xs a b).2.1.val
      (quadSDLoop U V xs a b).2.2.val := by
  have hu0 := rounding_nonneg h
  intro xs
  induction xs with
  | nil =>
    intro pre q a b hs _ _
    simpa [quadSDLoop, vals] using hs
  | cons x xs ih =>
    intro pre q a b hs h1 h2
    rw [List.length_cons] at h2
    have := ih (pre ++ [x.val]) (q ++ [(-(a * U + b * V) + x).val]) (-(a * U + b * V) + x) a
      (hs.step hu0 hu hz hw h1 (by omega) x.val _
        (quadStep_fl h hu U V z w ρ hz hw hU hV a b x _ (quadStep_near h U V a b x)))
      (by simp) (by rw [List.length_append, List.length_singleton]; omega)
    simpa [quadSDLoop, vals] using this

theorem quadSD_state (h : Rounding rnd u) (hu : u ≤ 1 / 10 ^ 11) (U V : Fl rnd) (z w : ℂ) (ρ : ℝ)
    (hz : ‖z‖ ≤ ρ) (hw : ‖w‖ ≤ ρ) (hU : ‖z + w + U.val‖ ≤ 40 * u * ρ) (hV : ‖z * w - V.val‖ ≤ 40 * u * ρ ^ 2)
    (p : List (Fl rnd)) (hl : p.length ≤ 101) (r : List (Fl rnd) × Fl rnd × Fl rnd) (hr : quadSD U V p = .ok r) :
    DivState u ρ z w (vals p) (vals r.1) r.2.1.val r.2.2.val := by
  have hu0 := rounding_nonneg h
  have hρ : 0 ≤ ρ := (norm_nonneg z).trans hz
  match p, hr, hl with
  | p0 :: p1 :: ps, hr, hl =>
    cases hr
    have s1 := (DivState.first hu0 z w p0.val).step hu0 hu hz hw (by simp) (by simp) p1.val _
      (quadStep_fl h hu U V z w ρ hz hw hU hV p0 (0 : Fl rnd) p1 _ (quadFirst_near h U V p0 p1))
    have := quadSDLoop_state h hu U V z w ρ hz hw hU hV ps _ _ _ p0 s1 (by simp) (by
      simp only [List.length_cons, List.length_append, List.length_nil] at hl ⊢
      omega)
    simpa [vals] using this

/-- The error bound of the code. -/
theorem foldl_bound_fl (h : Rounding rnd u) (m : RMath (Fl rnd)) (hm : RoundedMath m) (zm : Fl rnd) {ρ : ℝ} (hρ : 0 ≤ ρ)
    (h0 : 0 ≤ zm.val) (hz : zm.val ≤ (1 + u) ^ 21 * ρ) : ∀ (xs : List (Fl rnd)) (pre : List ℝ) (e : Fl rnd) (n : ℕ),
    0 ≤ e.val → e.val ≤ (1 + u) ^ n * (2 * absValue pre ρ) →
    0 ≤ (xs.foldl (fun ee x => ee * zm + m.fabs x) e).val ∧
      (xs.foldl (fun ee x => ee * zm + m.fabs x) e).val ≤ (1 + u) ^ (n + 23 * xs.length) * (2 * absValue (pre ++ vals xs) ρ) := by
  have hu0 := rounding_nonneg h
  intro xs
  induction xs with
  | nil =>
    intro pre e n h1 h2
    simpa [vals] using ⟨h1, h2⟩
  | cons x xs ih =>
    intro pre e n h1 h2
    have hA := absValue_nonneg pre hρ
    have he : (e * zm + m.fabs x).val = rnd (rnd (e.val * zm.val) + |x.val|) := by
      change rnd (rnd (e.val * zm.val) + (m.fabs x).val) = _
      rw [hm.fabs]
    have hez : 0 ≤ e.val * zm.val := mul_nonneg h1 h0
    have k0 : 0 ≤ rnd (e.val * zm.val) + |x.val| := add_nonneg (rnd_nonneg' h hez) (abs_nonneg _)
    have := ih (pre ++ [x.val]) (e * zm + m.fabs x) (n + 23) (by rw [he]; exact rnd_nonneg' h k0) (by
      rw [he, absValue_snoc]
      have k1 : e.val * zm.val ≤ (1 + u) ^ n * (2 * absValue pre ρ) * ((1 + u) ^ 21 * ρ) :=
        mul_le_mul h2 hz h0 (by positivity)
      have k2 := rnd_le_mul h k1 (by positivity)
      have k3 : |x.val| ≤ (1 + u) ^ (n + 22) * (2 * |x.val|) := by
        have := one_le_pow_u h (n + 22)
        have := mul_le_mul_of_nonneg_right this (abs_nonneg x.val)
        linarith [abs_nonneg x.val]
      have k4 : rnd (e.val * zm.val) + |x.val| ≤ (1 + u) ^ (n + 22) * (2 * (ρ * absValue pre ρ + |x.val|)) := by
        refine (add_le_add k2 k3).trans (le_of_eq ?_)
        ring
      have k5 := rnd_le_mul h k4 (by positivity)
      refine k5.trans (le_of_eq ?_)
      ring)
    have el : n + 23 + 23 * xs.length = n + 23 * (x :: xs).length := by rw [List.length_cons]; omega
    rw [el] at this
    have ev : pre ++ [x.val] ++ vals xs = pre ++ vals (x :: xs) := by simp [vals]
    rw [ev] at this
    exact this

theorem quadSD_last (U V : Fl rnd) (p : List (Fl rnd)) (r : List (Fl rnd) × Fl rnd × Fl rnd) (hr : quadSD U V p = .ok r) :
    ∃ l, r.1 = l ++ [r.2.2, r.2.1] := by
  have loop : ∀ (xs : List (Fl rnd)) (pre : List (Fl rnd)) (a b : Fl rnd),
      ∃ l, pre ++ [b, a] ++ (quadSDLoop U V xs a b).1 = l ++ [(quadSDLoop U V xs a b).2.2, (quadSDLoop U V xs a b).2.1] := by
    intro xs
    induction xs with
    | nil => intro pre a b; exact ⟨pre, by simp [quadSDLoop]⟩
    | cons x xs ih =>
      intro pre a b
      obtain ⟨l, hl⟩ := ih (pre ++ [b]) (-(a * U + b * V) + x) a
      refine ⟨l, ?_⟩
      rw [show (quadSDLoop U V (x :: xs) a b).2 = (quadSDLoop U V xs (-(a * U + b * V) + x) a).2 from rfl, ← hl]
      simp [quadSDLoop]
  match p, hr with
  | p0 :: p1 :: ps, hr =>
    cases hr
    obtain ⟨l, hl⟩ := loop ps [] (-(p0 * U) + p1) p0
    exact ⟨l, by simpa using hl⟩

/-- A pair that has passed the test. -/
theorem pair_bound_fl (h : Rounding rnd u) (hu : u ≤ 1 / 10 ^ 11) (hnat : ∀ n : ℕ, n < 2 ^ 53 → rnd n = n)
    (m : RMath (Fl rnd)) (hm : RoundedMath m) (hs : RoundedSqrt m) (U V : Fl rnd) (zs : QRoots (Fl rnd)) (ρ : ℝ)
    (hz : ‖flComplex (zs.sr, zs.si)‖ ≤ ρ) (hw : ‖flComplex (zs.lr, zs.li)‖ ≤ ρ)
    (hU : ‖flComplex (zs.sr, zs.si) + flComplex (zs.lr, zs.li) + U.val‖ ≤ 40 * u * ρ)
    (hV : ‖flComplex (zs.sr, zs.si) * flComplex (zs.lr, zs.li) - V.val‖ ≤ 40 * u * ρ ^ 2)
    (p : List (Fl rnd)) (hl : p.length ≤ 101) (r : List (Fl rnd) × Fl rnd × Fl rnd) (hr : quadSD U V p = .ok r)
    (e : Fl rnd × Fl rnd) (he : quadError m zs V r.2.1 r.2.2 r.1 = .ok e) (ht : e.1 ≤ num 20 * e.2) :
    ‖cEval (vals p) (flComplex (zs.lr, zs.li))‖ ≤
      (395 * m.eps.val + 102 * u) * (p.length * (p.length + 1)) * absValue (vals p) ρ := by
  have hu0 := rounding_nonneg h
  have hρ : 0 ≤ ρ := (norm_nonneg _).trans hz
  have hc : ∀ n : ℕ, n < 2 ^ 53 → (num n : Fl rnd).val = n := hnat
  have hst := quadSD_state h hu U V _ _ ρ hz hw hU hV p hl r hr
  obtain ⟨l, hl2⟩ := quadSD_last U V p r hr
  have hlen := quadSD_length_of U V p r hr
  obtain ⟨q, a, b⟩ := r
  dsimp only at hl2 hst he hlen
  subst hl2
  obtain ⟨q0, hq0, he'⟩ := Res.bind_eq_ok.mp he
  cases he'
  have hE : ((l ++ [b, a]).take ((l ++ [b, a]).length - 1)).drop 1 = (l ++ [b]).drop 1 := by
    have h1 : (l ++ [b, a]).length - 1 = (l ++ [b]).length := by simp
    have h2 : l ++ [b, a] = (l ++ [b]) ++ [a] := by simp
    rw [h1, h2, List.take_left]
  rw [hE] at ht
  have hq : l ++ [b] = [q0] ++ (l ++ [b]).drop 1 := by
    have h1 := Res.at'_eq_ok.mp hq0
    cases l with
    | nil => simpa using h1
    | cons y l => simpa using h1
  obtain ⟨zm, hzm⟩ : ∃ zm, zm = m.sqrt (m.fabs V) := ⟨_, rfl⟩
  have hzm0 : zm.val = rnd (Real.sqrt |V.val|) := by rw [hzm, hs.sqrt, hm.fabs]
  have hzmn : 0 ≤ zm.val := by
    rw [hzm0]
    exact rnd_nonneg' h (Real.sqrt_nonneg _)
  have hzmb : zm.val ≤ (1 + u) ^ 21 * ρ := by
    have e1 : Real.sqrt |V.val| ≤ (1 + u) ^ 20 * ρ := by
      apply Real.sqrt_le_iff.mpr
      refine ⟨by positivity, ?_⟩
      have ev : (V.val : ℂ) = flComplex (zs.sr, zs.si) * flComplex (zs.lr, zs.li) -
          (flComplex (zs.sr, zs.si) * flComplex (zs.lr, zs.li) - V.val) := by ring
      have hn := congrArg norm ev
      rw [Complex.norm_real, Real.norm_eq_abs] at hn
      rw [hn]
      have k1 := norm_sub_le (flComplex (zs.sr, zs.si) * flComplex (zs.lr, zs.li))
        (flComplex (zs.sr, zs.si) * flComplex (zs.lr, zs.li) - V.val)
      rw [norm_mul] at k1
      have k2 := mul_le_mul hz hw (norm_nonneg _) hρ
      have k3 := one_add_mul_le_pow (show (-2 : ℝ) ≤ u by linarith) 40
      push_cast at k3
      have k4 := mul_le_mul_of_nonneg_right k3 (sq_nonneg ρ)
      have k5 : ((1 + u) ^ 20 * ρ) ^ 2 = (1 + u) ^ 40 * ρ ^ 2 := by ring
      rw [k5]
      linarith
    have e2 := rnd_le_mul h e1 (by positivity)
    rw [hzm0]
    refine e2.trans (le_of_eq (by ring))
  obtain ⟨E, hEe⟩ : ∃ E, E = ((l ++ [b]).drop 1).foldl (fun ee x => ee * zm + m.fabs x) (num 2 * m.fabs q0) := ⟨_, rfl⟩
  rw [← hzm, ← hEe] at ht
  have hf := foldl_bound_fl h m hm zm hρ hzmn hzmb ((l ++ [b]).drop 1) [q0.val] (num 2 * m.fabs q0) 1
    (by
      change 0 ≤ rnd ((num 2 : Fl rnd).val * (m.fabs q0).val)
      rw [hc 2 (by norm_num), hm.fabs]
      exact rnd_nonneg' h (by positivity))
    (by
      change rnd ((num 2 : Fl rnd).val * (m.fabs q0).val) ≤ _
      rw [hc 2 (by norm_num), hm.fabs, absValue_single, pow_one]
      exact rnd_le_mul h (by push_cast; exact le_rfl) (by positivity))
  rw [← hEe] at hf
  have hqv : [q0.val] ++ vals ((l ++ [b]).drop 1) = vals (l ++ [b]) := by
    have : vals (l ++ [b]) = vals ([q0] ++ (l ++ [b]).drop 1) := by rw [← hq]
    rw [this]
    simp [vals]
  rw [hqv] at hf
  have hll : l.length + 2 = p.length := by simpa using hlen
  have hdl : ((l ++ [b]).drop 1).length ≤ 100 := by
    rw [List.length_drop, List.length_append, List.length_singleton]
    omega
  have hut : 1000000 * u ≤ 1 / 100000 := by linarith [hu, show 1000000 * ((1 : ℝ) / 10 ^ 11) ≤ 1 / 100000 by norm_num]
  have hpw : (1 + u) ^ (1 + 23 * ((l ++ [b]).drop 1).length) ≤ 1001 / 1000 := by
    have hd : (((l ++ [b]).drop 1).length : ℝ) ≤ 100 := by exact_mod_cast hdl
    have hd' := mul_le_mul_of_nonneg_right hd hu0
    have := pow_small hu0 (1 + 23 * ((l ++ [b]).drop 1).length) (by push_cast; linarith)
    push_cast at this
    linarith
  have hp21 : (1 + u) ^ 21 ≤ 1001 / 1000 := by
    have := pow_small hu0 21 (by push_cast; linarith)
    push_cast at this
    linarith
  -- the sizes
  obtain ⟨n, hn⟩ : ∃ n : ℝ, n = p.length := ⟨_, rfl⟩
  have hvl : ((vals p).length : ℝ) = n := by rw [hn]; simp [vals]
  obtain ⟨S, hS⟩ : ∃ S, S = absValue (vals (l ++ [b])) ρ := ⟨_, rfl⟩
  rw [← hS] at hf
  have hab : absValue (vals (l ++ [b, a])) ρ = ρ * S + |a.val| := by
    have h2 : vals (l ++ [b, a]) = vals (l ++ [b]) ++ [a.val] := by simp [vals]
    rw [h2, absValue_snoc, hS]
  have hbS : |b.val| ≤ S := by
    rw [hS, show vals (l ++ [b]) = vals l ++ [b.val] by simp [vals], absValue_snoc]
    have := mul_nonneg hρ (absValue_nonneg (vals l) hρ)
    linarith
  have hS0 : 0 ≤ S := (abs_nonneg _).trans hbS
  have hsum := hst.sum
  have hrem := hst.rem
  rw [hab, hvl] at hsum
  rw [hvl] at hrem
  rw [← hn]
  have hA := absValue_nonneg (vals p) hρ
  generalize absValue (vals p) ρ = A at hsum hrem hA ⊢
  have hEb : E.val ≤ 1001 / 1000 * (2 * S) := hf.2.trans (mul_le_mul_of_nonneg_right hpw (by positivity))
  have hE0 := hf.1
  have hzb : zm.val ≤ 1001 / 1000 * ρ := hzmb.trans (mul_le_mul_of_nonneg_right hp21 hρ)
  have hsr : |zs.sr.val| ≤ ρ := (Complex.abs_re_le_norm (flComplex (zs.sr, zs.si))).trans hz
  have hx2 : 1 + u ≤ 1001 / 1000 := by linarith
  -- what the code computes
  obtain ⟨B, hB⟩ : ∃ B, B = ρ * S + |a.val| := ⟨_, rfl⟩
  rw [← hB] at hsum
  have hB0 : 0 ≤ B := by rw [hB]; positivity
  have hρS : ρ * S ≤ B := by rw [hB]; linarith [abs_nonneg a.val]
  have haB : |a.val| ≤ B := by rw [hB]; linarith [mul_nonneg hρ hS0]
  have hρb : ρ * |b.val| ≤ B := (mul_le_mul_of_nonneg_left hbS hρ).trans hρS
  have hsb : |zs.sr.val * b.val| ≤ ρ * |b.val| := by
    rw [abs_mul]
    exact mul_le_mul_of_nonneg_right hsr (abs_nonneg _)
  have rnd_up : ∀ {x y : ℝ}, x ≤ y → 0 ≤ y → rnd x ≤ 1001 / 1000 * y := fun hxy hy =>
    (rnd_le_mul h hxy hy).trans (mul_le_mul_of_nonneg_right hx2 hy)
  have rnd_abs : ∀ x : ℝ, |rnd x| ≤ 1001 / 1000 * |x| := fun x => by
    have k1 := h.rel x
    have k2 := abs_add_le (rnd x - x) x
    rw [sub_add_cancel] at k2
    have k3 := mul_le_mul_of_nonneg_right hx2 (abs_nonneg x)
    linarith
  have htv : |rnd (zs.sr.val * b.val)| ≤ 1001 / 1000 * B :=
    (rnd_abs _).trans (mul_le_mul_of_nonneg_left (hsb.trans hρb) (by norm_num))
  have hat : |rnd (a.val + -rnd (zs.sr.val * b.val))| ≤ 101 / 100 * B := by
    refine (rnd_abs _).trans ?_
    have k1 := abs_add_le a.val (-rnd (zs.sr.val * b.val))
    rw [abs_neg] at k1
    have k2 := rnd_abs (zs.sr.val * b.val)
    have k3 := mul_le_mul_of_nonneg_left hbS hρ
    rw [hB]
    linarith [mul_nonneg hρ hS0, abs_nonneg a.val]
  have hEz : rnd (E.val * zm.val) ≤ 21 / 10 * B := by
    have k1 : E.val * zm.val ≤ 1001 / 1000 * (2 * S) * (1001 / 1000 * ρ) := mul_le_mul hEb hzb hzmn (by positivity)
    have k2 := rnd_up k1 (by positivity)
    have k3 := mul_nonneg hρ hS0
    linarith
  have hEz0 : 0 ≤ rnd (E.val * zm.val) := rnd_nonneg' h (mul_nonneg hE0 hzmn)
  have hee : rnd (rnd (E.val * zm.val) + |rnd (a.val + -rnd (zs.sr.val * b.val))|) ≤ 312 / 100 * B := by
    have := rnd_up (add_le_add hEz hat) (by linarith)
    linarith
  have ht' : rnd (|rnd (-rnd (zs.sr.val * b.val) + a.val)| + |rnd (zs.si.val * b.val)|) ≤
      rnd (20 * rnd (rnd (rnd (rnd (9 * rnd (rnd (E.val * zm.val) + |rnd (a.val + -rnd (zs.sr.val * b.val))|)) +
        rnd (2 * |rnd (zs.sr.val * b.val)|)) -
        rnd (7 * rnd (|rnd (a.val + -rnd (zs.sr.val * b.val))| + rnd (zm.val * |b.val|)))) * m.eps.val)) := by
    have h1 : ∀ x : Fl rnd, (m.fabs x).val = |x.val| := hm.fabs
    have : rnd ((m.fabs (-(zs.sr * b) + a)).val + (m.fabs (zs.si * b)).val) ≤
      rnd ((num 20 : Fl rnd).val * rnd (rnd (rnd (rnd ((num 9 : Fl rnd).val * rnd (rnd (E.val * zm.val) +
        (m.fabs (a + -(zs.sr * b))).val)) + rnd ((num 2 : Fl rnd).val * (m.fabs (-(zs.sr * b))).val)) -
        rnd ((num 7 : Fl rnd).val * rnd ((m.fabs (a + -(zs.sr * b))).val + rnd (zm.val * (m.fabs b).val)))) * m.eps.val)) := ht
    rw [hc 20 (by norm_num), hc 9 (by norm_num), hc 2 (by norm_num), hc 7 (by norm_num)] at this
    simp only [h1] at this
    have e1 : |(-(zs.sr * b)).val| = |rnd (zs.sr.val * b.val)| := by
      change |-(rnd (zs.sr.val * b.val))| = _
      rw [abs_neg]
    rw [e1] at this
    exact_mod_cast this
  have heps := hs.eps
  have u1 : rnd (9 * rnd (rnd (E.val * zm.val) + |rnd (a.val + -rnd (zs.sr.val * b.val))|)) ≤ 1001 / 1000 * (9 * (312 / 100 * B)) :=
    rnd_up (mul_le_mul_of_nonneg_left hee (by norm_num)) (by positivity)
  have u2 : rnd (2 * |rnd (zs.sr.val * b.val)|) ≤ 1001 / 1000 * (2 * (1001 / 1000 * B)) :=
    rnd_up (mul_le_mul_of_nonneg_left htv (by norm_num)) (by positivity)
  have u3 := rnd_up (add_le_add u1 u2) (by positivity)
  have u4 : 0 ≤ rnd (7 * rnd (|rnd (a.val + -rnd (zs.sr.val * b.val))| + rnd (zm.val * |b.val|))) := by
    refine rnd_nonneg' h (mul_nonneg (by norm_num) (rnd_nonneg' h (add_nonneg (abs_nonneg _) (rnd_nonneg' h ?_))))
    exact mul_nonneg hzmn (abs_nonneg _)
  have u5 := rnd_up ((sub_le_self _ u4).trans u3) (by positivity)
  have u6 := rnd_up (mul_le_mul_of_nonneg_right u5 heps) (by positivity)
  have u7 := rnd_up (mul_le_mul_of_nonneg_left u6 (by norm_num : (0 : ℝ) ≤ 20)) (by positivity)
  have u8 : rnd (|rnd (-rnd (zs.sr.val * b.val) + a.val)| + |rnd (zs.si.val * b.val)|) ≤ 620 * (m.eps.val * B) := by
    refine ht'.trans (u7.trans ?_)
    have : 0 ≤ m.eps.val * B := by positivity
    linarith
  -- the value at the other zero
  have lo : ∀ x : ℝ, |x| ≤ 1001 / 1000 * |rnd x| := fun x => by
    have k1 := h.rel x
    have k2 := abs_sub (rnd x) (rnd x - x)
    rw [sub_sub_cancel] at k2
    have k3 := mul_le_mul_of_nonneg_right (by linarith : u ≤ 1 / 10000) (abs_nonneg x)
    linarith [abs_nonneg x]
  have lo1 : |rnd (-rnd (zs.sr.val * b.val) + a.val)| + |rnd (zs.si.val * b.val)| ≤
      1001 / 1000 * rnd (|rnd (-rnd (zs.sr.val * b.val) + a.val)| + |rnd (zs.si.val * b.val)|) := by
    have k0 : 0 ≤ |rnd (-rnd (zs.sr.val * b.val) + a.val)| + |rnd (zs.si.val * b.val)| := by positivity
    have k1 := lo (|rnd (-rnd (zs.sr.val * b.val) + a.val)| + |rnd (zs.si.val * b.val)|)
    rwa [abs_of_nonneg k0, abs_of_nonneg (rnd_nonneg' h k0)] at k1
  have hval : ‖(a.val : ℂ) - flComplex (zs.sr, zs.si) * b.val‖ ≤ 640 * (m.eps.val * B) + u * B := by
    refine (Complex.norm_le_abs_re_add_abs_im _).trans ?_
    have er : ((a.val : ℂ) - flComplex (zs.sr, zs.si) * b.val).re = (-rnd (zs.sr.val * b.val) + a.val) +
        (rnd (zs.sr.val * b.val) - zs.sr.val * b.val) := by
      simp [flComplex]
      ring
    have ei : ((a.val : ℂ) - flComplex (zs.sr, zs.si) * b.val).im = -(zs.si.val * b.val) := by
      simp [flComplex]
    rw [er, ei, abs_neg]
    have k1 := abs_add_le (-rnd (zs.sr.val * b.val) + a.val) (rnd (zs.sr.val * b.val) - zs.sr.val * b.val)
    have k2 := h.rel (zs.sr.val * b.val)
    have k3 := mul_le_mul_of_nonneg_left (hsb.trans hρb) hu0
    have k4 := lo (-rnd (zs.sr.val * b.val) + a.val)
    have k5 := lo (zs.si.val * b.val)
    have k6 : 0 ≤ m.eps.val * B := by positivity
    linarith
  have hfin : ‖cEval (vals p) (flComplex (zs.lr, zs.li))‖ ≤ 100 * u * (n * (n + 1)) * A +
      ‖(a.val : ℂ) - flComplex (zs.sr, zs.si) * b.val‖ := by
    have := norm_add_le (cEval (vals p) (flComplex (zs.lr, zs.li)) - ((a.val : ℂ) - flComplex (zs.sr, zs.si) * b.val))
      ((a.val : ℂ) - flComplex (zs.sr, zs.si) * b.val)
    rw [sub_add_cancel] at this
    linarith
  have v1 := mul_le_mul_of_nonneg_left hsum heps
  have v2 := mul_le_mul_of_nonneg_left hsum hu0
  have hn0 : 0 ≤ n := by rw [hn]; exact Nat.cast_nonneg _
  have v3 : 0 ≤ u * (n * (n + 1) * A) := by positivity
  have v4 : 0 ≤ m.eps.val * (n * (n + 1) * A) := by positivity
  linarith

end Verif
