import Verif.Proofs.RpolyRoundedLoops
import Verif.Proofs.RpolyDriver
import Verif.Props.Rpoly

/-
Property C123: with rounding after every operation the root finder returns.
`Spec.Rounding rnd u` says that `rnd` rounds with relative error at most `u`; `Spec.RoundedMath m` is what is assumed of
the C library.
-/
set_option linter.unusedSectionVars false

namespace Verif

open Spec

section
variable {rnd : ℝ → ℝ} {u : ℝ}

/-- **C123.** With every operation rounded (relative error at most 10^-11; for doubles it is 2^-53), the root finder
returns for every polynomial with at most 101 coefficients, whatever they are: the two loops that have no bound in the code
(the interval is chopped, and Newton's iteration goes on until the step is below half a percent) end, so that the result is
the same for all bounds on their rounds from some number on. -/
theorem C123_returns (h : Rounding rnd u) (hu : u ≤ 1 / 10 ^ 11) (m : RMath (Fl rnd)) (hm : RoundedMath m)
    (coeffs : List (Fl rnd)) (hc : coeffs.length ≤ 101) :
    ∃ F r, ∀ fuel, F ≤ fuel → findRoots m fuel coeffs = .ok r := by
  refine findRoots_settles_of m (NZ := fun x => x.val ≠ 0) ⟨?_, ?_⟩ ?_ coeffs hc
  · intro x y hx
    change rnd (x.val * (m.pow2 y).val) ≠ 0
    obtain ⟨δ, e, hδ⟩ := rnd_factor h (x.val * (m.pow2 y).val)
    rw [e]
    refine mul_ne_zero (mul_ne_zero hx (hm.pow2 y)) ?_
    have := (abs_le.mp hδ).1
    rw [pow_one] at this
    linarith
  · exact fun p h1 h2 h3 => lowerBound_settles_fl h hu m hm p h1 h2 h3
  · intro x hx hx'
    rw [(hm.isZero x).mpr hx'] at hx
    exact absurd hx (by simp)

/-- So it reports failure or a list of zeros, at most as many as the degree, and it touches no memory outside its arrays. -/
theorem C123_reports (h : Rounding rnd u) (hu : u ≤ 1 / 10 ^ 11) (m : RMath (Fl rnd)) (hm : RoundedMath m)
    (coeffs : List (Fl rnd)) (hc : coeffs.length ≤ 101) :
    ∃ F, ∀ fuel, F ≤ fuel → findRoots m fuel coeffs = .ok (false, none) ∨
      ∃ zs, findRoots m fuel coeffs = .ok (true, some zs) ∧ zs.length ≤ coeffs.length - 1 := by
  obtain ⟨F, r, hF⟩ := C123_returns h hu m hm coeffs hc
  refine ⟨F, fun fuel hf => ?_⟩
  rcases C61_memory_safe m fuel coeffs hc with e | e
  · rw [hF fuel hf] at e
    cases e
  · exact e

end

/-- The C library with correct rounding. -/
noncomputable def flMath (rnd : ℝ → ℝ) : RMath (Fl rnd) where
  fabs x := ⟨|x.val|⟩
  sqrt x := ⟨rnd (Real.sqrt x.val)⟩
  isZero x := decide (x.val = 0)
  eps := ⟨1 / 2 ^ 52⟩
  dblMin := ⟨1 / 2 ^ 1022⟩
  fltMin := ⟨1 / 2 ^ 126⟩
  fltMax := ⟨(2 - 1 / 2 ^ 23) * 2 ^ 127⟩
  est a b n := ⟨if a.val = 0 then 0 else rnd (Real.exp ((Real.log a.val - Real.log b.val) / n))⟩
  pow2 x := ⟨2 ^ (if 0 ≤ Real.log x.val / Real.log 2 + 1 / 2 then ⌊Real.log x.val / Real.log 2 + 1 / 2⌋
    else ⌈Real.log x.val / Real.log 2 + 1 / 2⌉)⟩
  cosr := ⟨rnd (-(69756 / 1000000))⟩
  sinr := ⟨rnd (997564 / 1000000)⟩
  sqrtHalf := ⟨rnd (Real.sqrt (1 / 2))⟩

theorem flMath_rounded {rnd : ℝ → ℝ} {u : ℝ} (h : Rounding rnd u) (hu : u ≤ 1 / 10 ^ 11) : RoundedMath (flMath rnd) where
  fabs _ := rfl
  isZero x := by simp [flMath]
  pow2 x := by
    change ((2 : ℝ) ^ _) ≠ 0
    positivity
  est_pos a b n ha hb := by
    change 0 < if a.val = 0 then 0 else rnd _
    rw [if_neg ha.ne']
    exact rnd_pos h (by linarith) (Real.exp_pos _)
  est_low a b n h1 hn ha hb := by
    change _ ≤ 2 * (b.val * (if a.val = 0 then 0 else rnd (Real.exp ((Real.log a.val - Real.log b.val) / n))) ^ n)
    rw [if_neg ha.ne']
    obtain ⟨e, he⟩ : ∃ e, e = Real.exp ((Real.log a.val - Real.log b.val) / n) := ⟨_, rfl⟩
    have hpos : 0 < e := by rw [he]; exact Real.exp_pos _
    have hn0 : (n : ℝ) ≠ 0 := by
      have : n ≠ 0 := by omega
      exact_mod_cast this
    have hen : b.val * e ^ n = a.val := by
      rw [he, ← Real.exp_nat_mul, mul_div_cancel₀ _ hn0, Real.exp_sub, Real.exp_log ha, Real.exp_log hb]
      field_simp
    rw [← he]
    have g1 := (rnd_close h hu hpos.le).1
    have g2 : ((1 - 1 / 10 ^ 11) * e) ^ n ≤ rnd e ^ n := pow_le_pow_left₀ (by positivity) g1 n
    have hn' : (n : ℝ) ≤ 100 := by exact_mod_cast hn
    have g3 : (1 / 2 : ℝ) ≤ (1 - 1 / 10 ^ 11) ^ n := by
      have := one_add_mul_le_pow (show (-2 : ℝ) ≤ -(1 / 10 ^ 11) by norm_num) n
      rw [sub_eq_add_neg]
      refine le_trans ?_ this
      linarith
    rw [mul_pow] at g2
    have g4 : 1 / 2 * e ^ n ≤ rnd e ^ n := le_trans (mul_le_mul_of_nonneg_right g3 (by positivity)) g2
    have g5 := mul_le_mul_of_nonneg_left g4 hb.le
    linarith
  est_zero a b n ha := by
    change (if a.val = 0 then 0 else rnd _) = (0 : ℝ)
    rw [if_pos ha]

-- doubles and a cubic
example : ∃ F r, ∀ fuel, F ≤ fuel → findRoots (flMath round53) fuel
    [(⟨-6⟩ : Fl round53), ⟨11⟩, ⟨-6⟩, ⟨1⟩] = .ok r :=
  C123_returns round53_rounding (by norm_num) _ (flMath_rounded round53_rounding (by norm_num)) _ (by simp)

end Verif
