import Verif.Proofs.RpolyRounded

/-
With rounding after every operation the root finder returns: the two loops without bound, and the driver.
-/
set_option linter.unusedSectionVars false

namespace Verif

open Spec

section
variable {rnd : ℝ → ℝ} {u : ℝ}

theorem rnd_nat_close (h : Rounding rnd u) (hu : u ≤ 1 / 10 ^ 11) (n : ℕ) :
    (1 - 1 / 10 ^ 11) * (n : ℝ) ≤ rnd n ∧ rnd n ≤ (1 + 1 / 10 ^ 11) * n := by
  have h1 := abs_le.mp (rel_small h hu (n : ℝ))
  rw [abs_of_nonneg (Nat.cast_nonneg n)] at h1
  constructor <;> linarith [h1.1, h1.2]

theorem rnd_close (h : Rounding rnd u) (hu : u ≤ 1 / 10 ^ 11) {x : ℝ} (hx : 0 ≤ x) :
    (1 - 1 / 10 ^ 11) * x ≤ rnd x ∧ rnd x ≤ (1 + 1 / 10 ^ 11) * x := by
  have h1 := abs_le.mp (rel_small h hu x)
  rw [abs_of_nonneg hx] at h1
  constructor <;> linarith [h1.1, h1.2]

/-- A tenth of `x` as it is computed. -/
theorem tenth_close (h : Rounding rnd u) (hu : u ≤ 1 / 10 ^ 11) (x : Fl rnd) (hx : 0 < x.val) :
    x.val / (10 + 1 / 10 ^ 6) ≤ (num 1 / num 10 * x : Fl rnd).val ∧
      (num 1 / num 10 * x : Fl rnd).val ≤ x.val / (10 - 1 / 10 ^ 6) := by
  change _ ≤ rnd (rnd (rnd ((1 : ℕ) : ℝ) / rnd ((10 : ℕ) : ℝ)) * x.val) ∧
    rnd (rnd (rnd ((1 : ℕ) : ℝ) / rnd ((10 : ℕ) : ℝ)) * x.val) ≤ _
  obtain ⟨a1, a2⟩ := rnd_nat_close h hu 1
  obtain ⟨b1, b2⟩ := rnd_nat_close h hu 10
  push_cast at a1 a2 b1 b2 ⊢
  obtain ⟨a, ha⟩ : ∃ a, a = rnd 1 := ⟨_, rfl⟩
  obtain ⟨b, hb⟩ : ∃ b, b = rnd 10 := ⟨_, rfl⟩
  rw [← ha] at a1 a2 ⊢
  rw [← hb] at b1 b2 ⊢
  have hbpos : 0 < b := by linarith
  have hq : 0 ≤ a / b := div_nonneg (by linarith) hbpos.le
  obtain ⟨c1, c2⟩ := rnd_close h hu hq
  obtain ⟨q, hq'⟩ : ∃ q, q = a / b := ⟨_, rfl⟩
  rw [← hq'] at c1 c2 hq ⊢
  have hqb : q * b = a := by rw [hq']; field_simp
  obtain ⟨r, hr⟩ : ∃ r, r = rnd q := ⟨_, rfl⟩
  rw [← hr] at c1 c2 ⊢
  have q1 : (1 / 10 - 1 / 10 ^ 10 : ℝ) ≤ q := by
    by_contra hn
    push Not at hn
    nlinarith
  have q2 : q ≤ (1 / 10 + 1 / 10 ^ 10 : ℝ) := by
    by_contra hn
    push Not at hn
    nlinarith
  have r1 : (1 / 10 - 1 / 10 ^ 9 : ℝ) ≤ r := by linarith
  have r2 : r ≤ (1 / 10 + 1 / 10 ^ 9 : ℝ) := by linarith
  have hrx : 0 ≤ r * x.val := mul_nonneg (by linarith) hx.le
  obtain ⟨d1, d2⟩ := rnd_close h hu hrx
  constructor
  · rw [div_le_iff₀ (by norm_num)]
    nlinarith
  · rw [le_div_iff₀ (by norm_num)]
    nlinarith

/-- What holds when Newton's iteration begins. -/
def Bracket (l : List ℝ) (c x : ℝ) : Prop := 0 < x ∧ c / 2 ≤ modPoly l x ∧ modPoly l (x / 11) ≤ c

theorem small_arg_half (l : List ℝ) (c : ℝ) (hc : 0 < c) :
    ∃ L, 0 < L ∧ ∀ x, 0 ≤ x → x ≤ L → modPoly l x < c / 2 := by
  obtain ⟨L, h1, h2⟩ := small_arg l (c / 2) (by positivity)
  rw [abs_of_pos (by positivity)] at h2
  exact ⟨L, h1, h2⟩

theorem chop_bracket (h : Rounding rnd u) (hu : u ≤ 1 / 10 ^ 11) (l : List ℝ) (hl : l ≠ []) (hlen : l.length ≤ 100)
    (c L : ℝ) (hc : c ≠ 0) (hL0 : 0 < L) (hL : ∀ x, 0 ≤ x → x ≤ L → modPoly l x < |c| / 2) :
    ∀ (n : ℕ) (x : Fl rnd), 0 < x.val → |c| / 2 ≤ modPoly l x.val → x.val * (1 / 5) ^ (n + 1) ≤ L →
      Settles (fun fuel => chop (flModuli rnd l ++ [⟨-|c|⟩]) fuel x) (fun y => Bracket l |c| y.val) := by
  have hc' := abs_pos.mpr hc
  have key : ∀ x : Fl rnd, 0 < x.val → |c| / 2 ≤ modPoly l x.val →
      ¬ (num 0 : Fl rnd) < polyValue (num 1 / num 10 * x) (flModuli rnd l ++ [⟨-|c|⟩]) →
      Settles (fun fuel => chop (flModuli rnd l ++ [⟨-|c|⟩]) fuel x) (fun y => Bracket l |c| y.val) := by
    intro x hx hlow hv
    obtain ⟨t1, t2⟩ := tenth_close h hu x hx
    have ht0 : 0 < (num 1 / num 10 * x : Fl rnd).val := lt_of_lt_of_le (by positivity) t1
    obtain ⟨B', hB', hpos⟩ := polyValue_pos h hu (num 1 / num 10 * x) ht0.le l hl hlen c
    refine ⟨1, x, ⟨hx, hlow, ?_⟩, fun fuel hf => ?_⟩
    · have hv' : ¬ rnd ((0 : ℕ) : ℝ) < (polyValue (num 1 / num 10 * x) (flModuli rnd l ++ [⟨-|c|⟩])).val := hv
      rw [Nat.cast_zero, rnd_zero h, hpos, not_lt] at hv'
      have h1 : modPoly l (num 1 / num 10 * x : Fl rnd).val ≤ (1 + 1 / 10 ^ 8) * |c| :=
        hB'.2.trans (mul_le_mul_of_nonneg_left hv' (by norm_num))
      have h2 := modPoly_mono l (show (0 : ℝ) ≤ x.val / (10 + 1 / 10 ^ 6) by positivity) t1
      have h3 := modPoly_scale_le l (show (0 : ℝ) ≤ x.val / (10 + 1 / 10 ^ 6) by positivity)
        (show (0 : ℝ) ≤ (10 + 1 / 10 ^ 6) / 11 by norm_num) (by norm_num)
      rw [show (10 + 1 / 10 ^ 6) / 11 * (x.val / (10 + 1 / 10 ^ 6)) = x.val / 11 by field_simp] at h3
      refine h3.trans ?_
      have h4 := h2.trans h1
      calc (10 + 1 / 10 ^ 6) / 11 * modPoly l (x.val / (10 + 1 / 10 ^ 6))
          ≤ (10 + 1 / 10 ^ 6) / 11 * ((1 + 1 / 10 ^ 8) * |c|) := mul_le_mul_of_nonneg_left h4 (by norm_num)
        _ ≤ |c| := by linarith
    · obtain ⟨f, rfl⟩ : ∃ f, fuel = f + 1 := ⟨fuel - 1, by omega⟩
      beta_reduce
      unfold chop
      dsimp only
      rw [if_neg hv]
  intro n
  induction n with
  | zero =>
    intro x hx hlow hn
    refine key x hx hlow ?_
    obtain ⟨t1, t2⟩ := tenth_close h hu x hx
    have ht0 : 0 < (num 1 / num 10 * x : Fl rnd).val := lt_of_lt_of_le (by positivity) t1
    obtain ⟨B', hB', hpos⟩ := polyValue_pos h hu (num 1 / num 10 * x) ht0.le l hl hlen c
    change ¬ rnd ((0 : ℕ) : ℝ) < _
    rw [Nat.cast_zero, rnd_zero h, hpos, not_lt]
    have h1 := hL _ ht0.le (t2.trans (by
      rw [div_le_iff₀ (by norm_num)]
      have : x.val ≤ 5 * L := by linarith
      linarith))
    linarith [hB'.1]
  | succ n ih =>
    intro x hx hlow hn
    by_cases hv : (num 0 : Fl rnd) < polyValue (num 1 / num 10 * x) (flModuli rnd l ++ [⟨-|c|⟩])
    · obtain ⟨t1, t2⟩ := tenth_close h hu x hx
      have ht0 : 0 < (num 1 / num 10 * x : Fl rnd).val := lt_of_lt_of_le (by positivity) t1
      obtain ⟨B', hB', hpos⟩ := polyValue_pos h hu (num 1 / num 10 * x) ht0.le l hl hlen c
      have hv' : rnd ((0 : ℕ) : ℝ) < (polyValue (num 1 / num 10 * x) (flModuli rnd l ++ [⟨-|c|⟩])).val := hv
      rw [Nat.cast_zero, rnd_zero h, hpos] at hv'
      have hm := modPoly_nonneg l ht0.le
      obtain ⟨F, y, hy, hF⟩ := ih (num 1 / num 10 * x) ht0 (by linarith [hB'.1]) (by
        have h5 : (num 1 / num 10 * x : Fl rnd).val ≤ x.val * (1 / 5) := t2.trans (by
          rw [div_le_iff₀ (by norm_num)]
          linarith)
        have h6 := mul_le_mul_of_nonneg_right h5 (show (0 : ℝ) ≤ (1 / 5) ^ (n + 1) by positivity)
        rw [mul_assoc, ← pow_succ'] at h6
        linarith)
      refine ⟨F + 1, y, hy, fun fuel hf => ?_⟩
      obtain ⟨f, rfl⟩ : ∃ f, fuel = f + 1 := ⟨fuel - 1, by omega⟩
      beta_reduce
      unfold chop
      dsimp only
      rw [if_pos hv]
      exact hF f (by omega)
    · exact key x hx hlow hv

theorem newtonBound_step {K : Type} [Add K] [Sub K] [Mul K] [Div K] [Neg K] [NatCast K] [LE K] [LT K] [DecidableLE K]
    [DecidableLT K] (m : RMath K) (pt : List K) (fuel : ℕ) (x dx : K) :
    newtonBound m pt (fuel + 1) x dx = if num 1 / num 200 < m.fabs (dx / x) then
      newtonBound m pt fuel (x - (valueDeriv x pt).1 / (valueDeriv x pt).2)
        ((valueDeriv x pt).1 / (valueDeriv x pt).2) else .ok x := rfl

/-- When the iteration goes on, the last step was not small. -/
theorem not_small (h : Rounding rnd u) (hu : u ≤ 1 / 10 ^ 11) (m : RMath (Fl rnd)) (hm : RoundedMath m) (x d : Fl rnd)
    (hx : 0 < x.val) (hd : (num 1 / num 200 : Fl rnd) < m.fabs (d / x)) : x.val / 220 ≤ |d.val| := by
  have hd' : rnd (rnd ((1 : ℕ) : ℝ) / rnd ((200 : ℕ) : ℝ)) < (m.fabs (d / x)).val := hd
  rw [hm.fabs] at hd'
  change _ < |rnd (d.val / x.val)| at hd'
  obtain ⟨a1, a2⟩ := rnd_nat_close h hu 1
  obtain ⟨b1, b2⟩ := rnd_nat_close h hu 200
  push_cast at a1 a2 b1 b2 hd'
  obtain ⟨a, ha⟩ : ∃ a, a = rnd 1 := ⟨_, rfl⟩
  obtain ⟨b, hb⟩ : ∃ b, b = rnd 200 := ⟨_, rfl⟩
  rw [← ha] at a1 a2 hd'
  rw [← hb] at b1 b2 hd'
  have hbpos : 0 < b := by linarith
  have hq : 0 ≤ a / b := div_nonneg (by linarith) hbpos.le
  obtain ⟨c1, c2⟩ := rnd_close h hu hq
  have hq1 : (1 / 205 : ℝ) ≤ a / b := by
    rw [le_div_iff₀ hbpos]
    linarith
  have e := rel_small h hu (d.val / x.val)
  have e2 := abs_sub_abs_le_abs_sub (rnd (d.val / x.val)) (d.val / x.val)
  rw [abs_div, abs_of_pos hx] at e e2
  have e3 : (1 / 220 : ℝ) ≤ |d.val| / x.val := by
    have := abs_nonneg d.val
    linarith
  rw [le_div_iff₀ hx] at e3
  linarith

/-- One step as it is computed. -/
theorem newton_step_fl (h : Rounding rnd u) (hu : u ≤ 1 / 10 ^ 11) (l : List ℝ) (hl : l ≠ [])
    (hlen : l.length ≤ 100) (h0 : ∀ a ∈ l.head?, a ≠ 0) (c : ℝ) (hc : c ≠ 0) (x : Fl rnd) (hb : Bracket l |c| x.val) :
    let r := valueDeriv x (flModuli rnd l ++ [⟨-|c|⟩])
    let d := r.1 / r.2
    let x' := x - d
    0 < x'.val ∧ (1 - 1 / 1000) * |c| ≤ modPoly l x'.val ∧
      (d.val ≤ 0 → x'.val ≤ 21 / 10 * x.val) ∧
      ((1 - 1 / 1000) * |c| ≤ modPoly l x.val → d.val ≤ 0 → |d.val| ≤ x'.val / 800) ∧
      (x'.val / 220 ≤ d.val → x'.val ≤ 300 / 301 * x.val) := by
  obtain ⟨hx, hlow, hup⟩ := hb
  have hS := slope_pos hx l hl h0
  refine newton_step l |c| x.val _ _ hlen (abs_pos.mpr hc) hx hS hlow hup (step_error h hu x hx l hl hlen c hS) ?_
  exact (rel_small h hu _).trans (mul_le_mul_of_nonneg_right (by norm_num) (abs_nonneg _))

/-- Newton's iteration after the first step. -/
theorem newton_settles_low (h : Rounding rnd u) (hu : u ≤ 1 / 10 ^ 11) (m : RMath (Fl rnd)) (hm : RoundedMath m)
    (l : List ℝ) (hl : l ≠ []) (hlen : l.length ≤ 100) (h0 : ∀ a ∈ l.head?, a ≠ 0) (c L : ℝ) (hc : c ≠ 0)
    (hL : ∀ x, 0 ≤ x → x ≤ L → modPoly l x < |c| / 2) :
    ∀ (n : ℕ) (x dx : Fl rnd), Bracket l |c| x.val → (1 - 1 / 1000) * |c| ≤ modPoly l x.val →
      x.val * (300 / 301) ^ n ≤ L →
      Settles (fun fuel => newtonBound m (flModuli rnd l ++ [⟨-|c|⟩]) fuel x dx) (fun _ => True) := by
  have hc' := abs_pos.mpr hc
  intro n
  induction n with
  | zero =>
    intro x dx hb hv hn
    have := hL x.val hb.1.le (by simpa using hn)
    linarith [hb.2.1]
  | succ n ih =>
    intro x dx hb hv hn
    by_cases hd : (num 1 / num 200 : Fl rnd) < m.fabs (dx / x)
    · obtain ⟨s1, s2, s3, s4, s5⟩ := newton_step_fl h hu l hl hlen h0 c hc x hb
      obtain ⟨d, hdd⟩ : ∃ d, d = (valueDeriv x (flModuli rnd l ++ [⟨-|c|⟩])).1 /
        (valueDeriv x (flModuli rnd l ++ [⟨-|c|⟩])).2 := ⟨_, rfl⟩
      rw [← hdd] at s1 s2 s3 s4 s5
      have hstep : ∀ fuel, newtonBound m (flModuli rnd l ++ [⟨-|c|⟩]) (fuel + 1) x dx =
          newtonBound m (flModuli rnd l ++ [⟨-|c|⟩]) fuel (x - d) d := by
        intro fuel
        rw [newtonBound_step, if_pos hd, ← hdd]
      by_cases hd2 : (num 1 / num 200 : Fl rnd) < m.fabs (d / (x - d))
      · have hbig := not_small h hu m hm _ _ s1 hd2
        have hdpos : 0 < d.val := by
          by_contra hneg
          push Not at hneg
          have := s4 hv hneg
          linarith
        rw [abs_of_pos hdpos] at hbig
        have hdec := s5 hbig
        obtain ⟨F, y, hy, hF⟩ := ih (x - d) d ⟨s1, by linarith, le_trans (modPoly_mono l (by positivity)
            (by linarith [hb.1])) hb.2.2⟩ s2 (by
          have := mul_le_mul_of_nonneg_right hdec (show (0 : ℝ) ≤ (300 / 301) ^ n by positivity)
          rw [pow_succ] at hn
          linarith)
        refine ⟨F + 1, y, hy, fun fuel hf => ?_⟩
        obtain ⟨f, rfl⟩ : ∃ f, fuel = f + 1 := ⟨fuel - 1, by omega⟩
        beta_reduce
        rw [hstep]
        exact hF f (by omega)
      · refine ⟨2, x - d, trivial, fun fuel hf => ?_⟩
        obtain ⟨f, rfl⟩ : ∃ f, fuel = f + 1 + 1 := ⟨fuel - 2, by omega⟩
        beta_reduce
        rw [hstep, newtonBound_step, if_neg hd2]
    · refine ⟨1, x, trivial, fun fuel hf => ?_⟩
      obtain ⟨f, rfl⟩ : ∃ f, fuel = f + 1 := ⟨fuel - 1, by omega⟩
      beta_reduce
      rw [newtonBound_step, if_neg hd]

theorem newton_settles_fl (h : Rounding rnd u) (hu : u ≤ 1 / 10 ^ 11) (m : RMath (Fl rnd)) (hm : RoundedMath m)
    (l : List ℝ) (hl : l ≠ []) (hlen : l.length ≤ 100) (h0 : ∀ a ∈ l.head?, a ≠ 0) (c : ℝ) (hc : c ≠ 0)
    (x dx : Fl rnd) (hb : Bracket l |c| x.val) :
    Settles (fun fuel => newtonBound m (flModuli rnd l ++ [⟨-|c|⟩]) fuel x dx) (fun _ => True) := by
  have hc' := abs_pos.mpr hc
  obtain ⟨L, hL0, hL⟩ := small_arg_half l |c| hc'
  by_cases hd : (num 1 / num 200 : Fl rnd) < m.fabs (dx / x)
  · obtain ⟨s1, s2, s3, s4, s5⟩ := newton_step_fl h hu l hl hlen h0 c hc x hb
    obtain ⟨d, hdd⟩ : ∃ d, d = (valueDeriv x (flModuli rnd l ++ [⟨-|c|⟩])).1 /
      (valueDeriv x (flModuli rnd l ++ [⟨-|c|⟩])).2 := ⟨_, rfl⟩
    have hSt := step_error h hu x hb.1 l hl hlen c (slope_pos hb.1 l hl h0)
    dsimp only at hSt
    rw [← hdd] at s1 s2 s3 s4 s5 hSt
    have hstep : ∀ fuel, newtonBound m (flModuli rnd l ++ [⟨-|c|⟩]) (fuel + 1) x dx =
        newtonBound m (flModuli rnd l ++ [⟨-|c|⟩]) fuel (x - d) d := by
      intro fuel
      rw [newtonBound_step, if_pos hd, ← hdd]
    by_cases hd2 : (num 1 / num 200 : Fl rnd) < m.fabs (d / (x - d))
    · have hbig := not_small h hu m hm _ _ s1 hd2
      have hbr : modPoly l ((x - d).val / 11) ≤ |c| := by
        by_cases hdpos : 0 < d.val
        · rw [abs_of_pos hdpos] at hbig
          have hdec := s5 hbig
          exact le_trans (modPoly_mono l (by positivity) (by linarith [hb.1])) hb.2.2
        · push Not at hdpos
          have h3 := s3 hdpos
          -- the value at `x` cannot be large
          have hBc : modPoly l x.val ≤ 2 * |c| := by
            by_contra hn
            push Not at hn
            have hS := slope_pos hb.1 l hl h0
            have hq : 0 < (modPoly l x.val - |c|) / slope x.val l := div_pos (by linarith) hS
            rw [abs_of_pos hq] at hSt
            have h5 := (abs_le.mp hSt).1
            obtain ⟨q, hqq⟩ : ∃ q, q = (modPoly l x.val - |c|) / slope x.val l := ⟨_, rfl⟩
            rw [← hqq] at h5 hq
            -- the step is small, so the iteration would have ended
            have hq1 : q ≤ 2 / 10 ^ 7 * x.val := by linarith
            have h6 := (abs_le.mp hSt).2
            rw [← hqq] at h6
            have h7 : |d.val| ≤ 4 / 10 ^ 7 * x.val := by
              rw [abs_of_nonpos hdpos]
              linarith
            have h8 : x.val * (1 - 1 / 10 ^ 11) ≤ (x - d).val := by
              have h9 := (rnd_close h hu (show (0 : ℝ) ≤ x.val - d.val by linarith [hb.1])).1
              change _ ≤ rnd (x.val - d.val)
              linarith
            linarith [hb.1]
          have hs := modPoly_scale_le l hb.1.le (show (0 : ℝ) ≤ 1 / 5 by norm_num) (by norm_num)
          have hm' := modPoly_mono l (show (0 : ℝ) ≤ (x - d).val / 11 by positivity)
            (show (x - d).val / 11 ≤ 1 / 5 * x.val by linarith [hb.1])
          linarith
      obtain ⟨n, hn⟩ := exists_pow_lt_of_lt_one (show 0 < L / (x - d).val by positivity)
        (show (300 / 301 : ℝ) < 1 by norm_num)
      rw [lt_div_iff₀ s1] at hn
      obtain ⟨F, y, hy, hF⟩ := newton_settles_low h hu m hm l hl hlen h0 c L hc hL n (x - d) d
        ⟨s1, by linarith, hbr⟩ s2 (by linarith)
      refine ⟨F + 1, y, hy, fun fuel hf => ?_⟩
      obtain ⟨f, rfl⟩ : ∃ f, fuel = f + 1 := ⟨fuel - 1, by omega⟩
      beta_reduce
      rw [hstep]
      exact hF f (by omega)
    · refine ⟨2, x - d, trivial, fun fuel hf => ?_⟩
      obtain ⟨f, rfl⟩ : ∃ f, fuel = f + 1 + 1 := ⟨fuel - 2, by omega⟩
      beta_reduce
      rw [hstep, newtonBound_step, if_neg hd2]
  · refine ⟨1, x, trivial, fun fuel hf => ?_⟩
    obtain ⟨f, rfl⟩ : ∃ f, fuel = f + 1 := ⟨fuel - 1, by omega⟩
    beta_reduce
    rw [newtonBound_step, if_neg hd]

/-! ### The lower bound -/

theorem Fl.ext_val {a b : Fl rnd} (h : a.val = b.val) : a = b := by
  cases a; cases b; simp_all

theorem moduli_fl (m : RMath (Fl rnd)) (hm : RoundedMath m) (l : List (Fl rnd)) (c : Fl rnd) :
    moduli m (l ++ [c]) = flModuli rnd (vals l) ++ [⟨-|c.val|⟩] := by
  unfold moduli
  have e : m.fabs = fun x => ⟨|x.val|⟩ := funext fun x => Fl.ext_val (hm.fabs x)
  rw [e, List.map_append, List.map_singleton, List.length_append, List.length_singleton, Nat.add_sub_cancel,
    List.modify_eq_set_getElem?]
  simp [flModuli, vals]
  rfl

theorem modPoly_head_le (l : List ℝ) (a : ℝ) (ha : l.head? = some a) {x : ℝ} (hx : 0 ≤ x) :
    |a| * x ^ l.length ≤ modPoly l x := by
  unfold modPoly
  have key : ∀ l : List ℝ, ∀ a, l.head? = some a → |a| * x ^ (l.length - 1) ≤ absValue l x := by
    intro l
    induction l using List.reverseRecOn with
    | nil => intro a ha; simp at ha
    | append_singleton l b ih =>
      intro a ha
      by_cases hl : l = []
      · subst hl
        simp only [List.nil_append, List.head?_cons, Option.some.injEq] at ha
        rw [List.nil_append, absValue_single, ha]
        simp
      · have hlen := List.length_pos_of_ne_nil hl
        have h1 := ih a (by
          cases l with
          | nil => exact absurd rfl hl
          | cons d l => simpa using ha)
        rw [absValue_snoc, List.length_append, List.length_singleton, Nat.add_sub_cancel,
          show l.length = (l.length - 1) + 1 by omega, pow_succ]
        have := mul_le_mul_of_nonneg_left h1 hx
        have := abs_nonneg b
        nlinarith
  have h1 := mul_le_mul_of_nonneg_left (key l a ha) hx
  have hlen : l ≠ [] := by
    rintro rfl
    simp at ha
  have := List.length_pos_of_ne_nil hlen
  rw [show l.length = (l.length - 1) + 1 by omega, pow_succ]
  linarith

theorem modPoly_last_le (l : List ℝ) (b : ℝ) {x : ℝ} (hx : 0 ≤ x) : |b| * x ≤ modPoly (l ++ [b]) x := by
  unfold modPoly
  rw [absValue_snoc]
  have := absValue_nonneg l hx
  nlinarith [mul_nonneg hx (mul_nonneg hx this)]

theorem lowerBound_settles_fl (h : Rounding rnd u) (hu : u ≤ 1 / 10 ^ 11) (m : RMath (Fl rnd)) (hm : RoundedMath m)
    (p : List (Fl rnd)) (hp : 4 ≤ p.length) (hp' : p.length ≤ 101) (h0 : ∀ a ∈ p.head?, a.val ≠ 0) :
    Settles (fun fuel => lowerBound m fuel p) (fun _ => True) := by
  have hu1 : u < 1 := by linarith
  obtain ⟨pl, pc, rfl⟩ : ∃ l c, p = l ++ [c] := by
    have : p ≠ [] := by rintro rfl; simp at hp
    exact ⟨p.dropLast, p.getLast this, (List.dropLast_append_getLast this).symm⟩
  obtain ⟨pk, pb, rfl⟩ : ∃ l c, pl = l ++ [c] := by
    have : pl ≠ [] := by rintro rfl; simp at hp
    exact ⟨pl.dropLast, pl.getLast this, (List.dropLast_append_getLast this).symm⟩
  obtain ⟨pa, pr, rfl⟩ : ∃ a r, pk = a :: r := by
    cases pk with
    | nil => simp at hp
    | cons a r => exact ⟨a, r, rfl⟩
  have ha0 : pa.val ≠ 0 := h0 pa (by simp)
  obtain ⟨l, hl⟩ : ∃ l, l = vals (pa :: pr ++ [pb]) := ⟨_, rfl⟩
  have hlen : (pa :: pr ++ [pb] ++ [pc]).length - 1 = l.length := by rw [hl]; simp [vals]
  have hllen : l.length ≤ 100 := by omega
  have hlpos : 1 ≤ l.length := by omega
  have hlne : l ≠ [] := by rw [hl]; simp [vals]
  have hhead : l.head? = some pa.val := by rw [hl]; simp [vals]
  have hsnoc : l = vals (pa :: pr) ++ [pb.val] := by rw [hl]; simp [vals]
  unfold lowerBound
  rw [hlen, moduli_fl m hm, ← hl]
  have hlen2 : (flModuli rnd l).length = l.length := by simp [flModuli]
  have e0 : Res.at' (flModuli rnd l ++ [(⟨-|pc.val|⟩ : Fl rnd)]) 0 = .ok ⟨|pa.val|⟩ := by
    refine Res.at'_eq_ok.mpr ?_
    rw [hl]
    simp [flModuli, vals]
  have en : Res.at' (flModuli rnd l ++ [(⟨-|pc.val|⟩ : Fl rnd)]) l.length = .ok ⟨-|pc.val|⟩ := by
    refine Res.at'_eq_ok.mpr ?_
    rw [List.getElem?_append_right (by omega), hlen2]
    simp
  have e1 : Res.at' (flModuli rnd l ++ [(⟨-|pc.val|⟩ : Fl rnd)]) (l.length - 1) = .ok ⟨|pb.val|⟩ := by
    refine Res.at'_eq_ok.mpr ?_
    rw [List.getElem?_append_left (by omega), hsnoc]
    simp [flModuli]
  simp only [e0, en, e1, Res.ok_bind]
  have eneg : -(⟨-|pc.val|⟩ : Fl rnd) = ⟨|pc.val|⟩ := Fl.ext_val (neg_neg _)
  rw [eneg]
  by_cases hc : pc.val = 0
  · have hx0 : (if m.isZero ⟨|pb.val|⟩ = true then m.est ⟨|pc.val|⟩ ⟨|pa.val|⟩ l.length else
        if (⟨|pc.val|⟩ / ⟨|pb.val|⟩ : Fl rnd) < m.est ⟨|pc.val|⟩ ⟨|pa.val|⟩ l.length then ⟨|pc.val|⟩ / ⟨|pb.val|⟩
        else m.est ⟨|pc.val|⟩ ⟨|pa.val|⟩ l.length) = (⟨0⟩ : Fl rnd) := by
      have he : m.est ⟨|pc.val|⟩ ⟨|pa.val|⟩ l.length = ⟨0⟩ :=
        Fl.ext_val (hm.est_zero _ _ _ (by simp [hc]))
      have hq : (⟨|pc.val|⟩ / ⟨|pb.val|⟩ : Fl rnd) = ⟨0⟩ := Fl.ext_val (by
        change rnd (|pc.val| / |pb.val|) = 0
        rw [hc, abs_zero, zero_div, rnd_zero h])
      rw [he, hq]
      simp
    rw [hx0]
    refine ⟨1, ⟨0⟩, trivial, fun fuel hf => ?_⟩
    obtain ⟨f, rfl⟩ : ∃ f, fuel = f + 1 := ⟨fuel - 1, by omega⟩
    beta_reduce
    have hch : chop (flModuli rnd l ++ [⟨-|pc.val|⟩]) (f + 1) (⟨0⟩ : Fl rnd) = .ok ⟨0⟩ := by
      unfold chop
      dsimp only
      rw [if_neg]
      have hz : (num 1 / num 10 * (⟨0⟩ : Fl rnd) : Fl rnd).val = 0 := by
        change rnd (_ * 0) = 0
        rw [mul_zero, rnd_zero h]
      change ¬ rnd ((0 : ℕ) : ℝ) < _
      rw [Nat.cast_zero, rnd_zero h, polyValue_snoc_fl _ _ _ (by simpa [flModuli] using hlne), hz, mul_zero, rnd_zero h,
        hc]
      simp [rnd_zero h]
    rw [hch, Res.ok_bind, newtonBound_step, if_neg]
    change ¬ rnd (rnd ((1 : ℕ) : ℝ) / rnd ((200 : ℕ) : ℝ)) < (m.fabs (⟨0⟩ / ⟨0⟩)).val
    rw [hm.fabs]
    change ¬ _ < |rnd (0 / 0)|
    rw [div_zero, rnd_zero h, abs_zero, not_lt]
    have h1 : 0 < rnd ((1 : ℕ) : ℝ) := rnd_pos h hu1 (by norm_num)
    have h2 : 0 < rnd ((200 : ℕ) : ℝ) := rnd_pos h hu1 (by norm_num)
    exact (rnd_pos h hu1 (div_pos h1 h2)).le
  · have hc' := abs_pos.mpr hc
    have ha' := abs_pos.mpr ha0
    obtain ⟨x, hx⟩ : ∃ x, x = (if m.isZero ⟨|pb.val|⟩ = true then m.est ⟨|pc.val|⟩ ⟨|pa.val|⟩ l.length else
        if (⟨|pc.val|⟩ / ⟨|pb.val|⟩ : Fl rnd) < m.est ⟨|pc.val|⟩ ⟨|pa.val|⟩ l.length then ⟨|pc.val|⟩ / ⟨|pb.val|⟩
        else m.est ⟨|pc.val|⟩ ⟨|pa.val|⟩ l.length) := ⟨_, rfl⟩
    have hest : 0 < (m.est ⟨|pc.val|⟩ ⟨|pa.val|⟩ l.length).val ∧
        |pc.val| / 2 ≤ modPoly l (m.est ⟨|pc.val|⟩ ⟨|pa.val|⟩ l.length).val := by
      have g1 := hm.est_pos ⟨|pc.val|⟩ ⟨|pa.val|⟩ l.length hc' ha'
      have g2 := hm.est_low ⟨|pc.val|⟩ ⟨|pa.val|⟩ l.length hlpos hllen hc' ha'
      have g3 := modPoly_head_le l pa.val hhead g1.le
      refine ⟨g1, ?_⟩
      dsimp only at g2
      linarith
    have hxp : 0 < x.val ∧ |pc.val| / 2 ≤ modPoly l x.val := by
      rw [hx]
      split
      · exact hest
      · rename_i hb0
        have hb : pb.val ≠ 0 := by
          intro hb
          exact hb0 ((hm.isZero _).mpr (by simp [hb]))
        have hb' := abs_pos.mpr hb
        split
        · have g1 : 0 < rnd (|pc.val| / |pb.val|) := rnd_pos h hu1 (div_pos hc' hb')
          refine ⟨g1, ?_⟩
          have g2 := modPoly_last_le (vals (pa :: pr)) pb.val g1.le
          rw [← hsnoc] at g2
          have g3 := (rnd_close h hu (div_pos hc' hb').le).1
          have g4 := mul_le_mul_of_nonneg_left g3 hb'.le
          have g5 : |pb.val| * ((1 - 1 / 10 ^ 11) * (|pc.val| / |pb.val|)) = (1 - 1 / 10 ^ 11) * |pc.val| := by
            field_simp
          change _ ≤ modPoly l (rnd (|pc.val| / |pb.val|))
          linarith
        · exact hest
    rw [← hx]
    obtain ⟨L, hL0, hL⟩ := small_arg_half l |pc.val| hc'
    obtain ⟨n, hn⟩ := exists_pow_lt_of_lt_one (show 0 < L / x.val from div_pos hL0 hxp.1) (show (1 / 5 : ℝ) < 1 by norm_num)
    refine Settles.bind (chop_bracket h hu l hlne hllen pc.val L hc hL0 hL n x hxp.1 hxp.2 ?_) fun y hy =>
      newton_settles_fl h hu m hm l hlne hllen ?_ pc.val hc y y hy
    · rw [lt_div_iff₀ hxp.1] at hn
      have h1 : (1 / 5 : ℝ) ^ (n + 1) ≤ (1 / 5) ^ n := pow_le_pow_of_le_one (by norm_num) (by norm_num) (by omega)
      have := mul_le_mul_of_nonneg_left h1 hxp.1.le
      linarith
    · intro a ha
      rw [hhead] at ha
      cases ha
      exact ha0

end

end Verif
