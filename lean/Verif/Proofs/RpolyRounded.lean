import Verif.Spec.RpolyRounded
import Verif.Proofs.RpolyTermination
import Verif.Proofs.RoundedTimes

/-
With rounding after every operation the root finder returns.
-/
set_option linter.unusedSectionVars false

namespace Verif

open Spec Polynomial

/-! ### Newton's step with errors, in real numbers -/

/-- `x` times the polynomial of the moduli. -/
noncomputable def modPoly (l : List ℝ) (x : ℝ) : ℝ := x * absValue l x

theorem modPoly_nonneg (l : List ℝ) {x : ℝ} (hx : 0 ≤ x) : 0 ≤ modPoly l x :=
  mul_nonneg hx (absValue_nonneg l hx)

theorem modPoly_mono (l : List ℝ) {x y : ℝ} (hx : 0 ≤ x) (hxy : x ≤ y) : modPoly l x ≤ modPoly l y :=
  mul_le_mul hxy (absValue_mono l hx hxy) (absValue_nonneg l hx) (hx.trans hxy)

theorem modPoly_scale_le (l : List ℝ) {x t : ℝ} (hx : 0 ≤ x) (ht : 0 ≤ t) (ht1 : t ≤ 1) :
    modPoly l (t * x) ≤ t * modPoly l x := by
  unfold modPoly
  have := absValue_mono l (mul_nonneg ht hx) (mul_le_of_le_one_left hx ht1)
  rw [mul_assoc]
  exact mul_le_mul_of_nonneg_left (mul_le_mul_of_nonneg_left this hx) ht

theorem absValue_scale_ge (l : List ℝ) {x t : ℝ} (hx : 0 ≤ x) (ht : 0 ≤ t) (ht1 : t ≤ 1) :
    t ^ l.length * absValue l x ≤ absValue l (t * x) := by
  induction l using List.reverseRecOn with
  | nil => simp [absValue, decPoly_nil]
  | append_singleton l a ih =>
    rw [absValue_snoc, absValue_snoc, List.length_append, List.length_singleton, pow_succ]
    have h1 : t ^ l.length * t ≤ 1 := by
      have := pow_le_one₀ (n := l.length) ht ht1
      have h0 := pow_nonneg ht l.length
      nlinarith
    have h2 : t * x * (t ^ l.length * absValue l x) ≤ t * x * absValue l (t * x) :=
      mul_le_mul_of_nonneg_left ih (mul_nonneg ht hx)
    nlinarith [abs_nonneg a]

theorem modPoly_scale_ge (l : List ℝ) {x t : ℝ} (hx : 0 ≤ x) (ht : 0 ≤ t) (ht1 : t ≤ 1) :
    t ^ (l.length + 1) * modPoly l x ≤ modPoly l (t * x) := by
  unfold modPoly
  have := mul_le_mul_of_nonneg_left (absValue_scale_ge l hx ht ht1) (mul_nonneg ht hx)
  rw [pow_succ]
  linarith

theorem modPoly_le_slope (l : List ℝ) {x : ℝ} (hx : 0 ≤ x) : modPoly l x ≤ slope x l * x := by
  have := tangent hx (le_refl (0 : ℝ)) l
  unfold modPoly
  linarith

/-- The error of a quotient `(B - c) / S` that is computed from approximations. -/
theorem quotient_error {B S B' S' c d' Q x : ℝ} (hx : 0 < x) (hS : 0 < S) (hBS : B ≤ S * x) (hB : 0 ≤ B)
    (hQ : 1 ≤ Q) (hQ1 : Q ≤ 1 + 1 / 10 ^ 8) (h1 : Factor Q B' B) (h2 : Factor Q S' S)
    (h3 : |d' - (B' - c) / S'| ≤ 1 / 10 ^ 8 * |(B' - c) / S'|) :
    |d' - (B - c) / S| ≤ 1 / 10 ^ 7 * (|(B - c) / S| + x) := by
  obtain ⟨ha, hb⟩ := h1
  obtain ⟨hc, hd⟩ := h2
  have hQp : 0 < Q := by linarith
  have hS' : 0 < S' := by
    by_contra hn
    push Not at hn
    nlinarith
  -- the error of the numerator
  have e1 : |(B' - c) / S - (B - c) / S| ≤ 1 / 10 ^ 8 * x := by
    rw [← sub_div, abs_div, abs_of_pos hS, div_le_iff₀ hS]
    have hB' : 0 ≤ B' := by
      by_contra hn
      push Not at hn
      nlinarith
    have : |B' - c - (B - c)| ≤ 1 / 10 ^ 8 * B := by
      rw [abs_le]
      constructor
      · have : B ≤ Q * B' := hb
        have h4 : (1 - 1 / 10 ^ 8) * B ≤ B' := by
          have : (1 - 1 / 10 ^ 8) * Q ≤ 1 := by nlinarith
          nlinarith
        linarith
      · nlinarith
    calc _ ≤ 1 / 10 ^ 8 * B := this
      _ ≤ _ := by nlinarith
  have e2 : |(B' - c) / S' - (B' - c) / S| ≤ 1 / 10 ^ 8 * |(B' - c) / S| := by
    have : (B' - c) / S' - (B' - c) / S = (S / S' - 1) * ((B' - c) / S) := by field_simp
    rw [this, abs_mul]
    refine mul_le_mul_of_nonneg_right ?_ (abs_nonneg _)
    rw [abs_le]
    constructor
    · have : (1 - 1 / 10 ^ 8 : ℝ) ≤ S / S' := by
        rw [le_div_iff₀ hS']
        have : (1 - 1 / 10 ^ 8) * Q ≤ 1 := by nlinarith
        nlinarith
      linarith
    · have : S / S' ≤ 1 + 1 / 10 ^ 8 := by
        rw [div_le_iff₀ hS']
        nlinarith
      linarith
  obtain ⟨p, hp⟩ : ∃ p, p = (B - c) / S := ⟨_, rfl⟩
  obtain ⟨q, hq⟩ : ∃ q, q = (B' - c) / S := ⟨_, rfl⟩
  obtain ⟨r, hr⟩ : ∃ r, r = (B' - c) / S' := ⟨_, rfl⟩
  rw [← hp, ← hq] at e1
  rw [← hq, ← hr] at e2
  rw [← hr] at h3
  rw [← hp]
  have f1 : |q| ≤ |p| + 1 / 10 ^ 8 * x := by
    have := abs_sub_abs_le_abs_sub q p
    linarith
  have f2 : |r| ≤ |q| + 1 / 10 ^ 8 * |q| := by
    have := abs_sub_abs_le_abs_sub r q
    linarith
  have f3 : |d' - p| ≤ |d' - r| + |r - q| + |q - p| := by
    have g1 := abs_sub_le d' r p
    have g2 := abs_sub_le r q p
    linarith
  have := abs_nonneg p
  have := abs_nonneg q
  nlinarith

/-- One step of Newton's method from `x` with errors: `d'` is the step and `x'` the new argument. -/
theorem newton_step (l : List ℝ) (c x d' x' : ℝ) (hlen : l.length ≤ 100) (hc : 0 < c) (hx : 0 < x)
    (hS : 0 < slope x l) (hlow : c / 2 ≤ modPoly l x) (hup : modPoly l (x / 11) ≤ c)
    (hd : |d' - (modPoly l x - c) / slope x l| ≤ 1 / 10 ^ 7 * (|(modPoly l x - c) / slope x l| + x))
    (hx' : |x' - (x - d')| ≤ 1 / 10 ^ 8 * |x - d'|) :
    0 < x' ∧ (1 - 1 / 1000) * c ≤ modPoly l x' ∧
      (d' ≤ 0 → x' ≤ 21 / 10 * x) ∧
      ((1 - 1 / 1000) * c ≤ modPoly l x → d' ≤ 0 → |d'| ≤ x' / 800) ∧
      (x' / 220 ≤ d' → x' ≤ 300 / 301 * x) := by
  obtain ⟨d, hdd⟩ : ∃ d, d = (modPoly l x - c) / slope x l := ⟨_, rfl⟩
  rw [← hdd] at hd
  have hds : d * slope x l = modPoly l x - c := by rw [hdd]; field_simp
  have hBS := modPoly_le_slope l hx.le
  have hB0 := modPoly_nonneg l hx.le
  -- the exact step
  have hd1 : d ≤ 10 / 11 * x := by
    have ht := tangent hx.le (show (0 : ℝ) ≤ x / 11 by positivity) l
    change modPoly l x + slope x l * (x / 11 - x) ≤ modPoly l (x / 11) at ht
    by_contra hn
    push Not at hn
    nlinarith
  have hd2 : -x ≤ d := by
    by_contra hn
    push Not at hn
    nlinarith
  have hda : |d| ≤ x := abs_le.mpr ⟨hd2, by linarith⟩
  have he : |d' - d| ≤ 2 / 10 ^ 7 * x := by linarith
  obtain ⟨he1, he2⟩ := abs_le.mp he
  have hpos : 0 < x - d' := by linarith
  rw [abs_of_pos hpos] at hx'
  obtain ⟨hx1, hx2⟩ := abs_le.mp hx'
  have hxd : x / 11 ≤ x - d := by linarith
  have hx'pos : 0 < x' := by linarith
  refine ⟨hx'pos, ?_, ?_, ?_, ?_⟩
  · -- the exact value is not below `c`
    have hex : c ≤ modPoly l (x - d) := by
      have ht := tangent hx.le (show (0 : ℝ) ≤ x - d by linarith) l
      change modPoly l x + slope x l * (x - d - x) ≤ modPoly l (x - d) at ht
      nlinarith
    have ht0 : (1 - 1 / 200000 : ℝ) * (x - d) ≤ x' := by linarith
    have hm := modPoly_mono l (by linarith : (0 : ℝ) ≤ (1 - 1 / 200000) * (x - d)) ht0
    have hs := modPoly_scale_ge l (show (0 : ℝ) ≤ x - d by linarith)
      (show (0 : ℝ) ≤ 1 - 1 / 200000 by norm_num) (by norm_num)
    have hb := one_add_mul_le_pow (show (-2 : ℝ) ≤ -(1 / 200000) by norm_num) (l.length + 1)
    have hn : ((l.length + 1 : ℕ) : ℝ) ≤ 101 := by
      exact_mod_cast (by omega : l.length + 1 ≤ 101)
    have hp : (1 - 1 / 1000 : ℝ) ≤ (1 - 1 / 200000) ^ (l.length + 1) := by
      rw [sub_eq_add_neg (1 : ℝ) (1 / 200000)]
      refine le_trans ?_ hb
      linarith
    have h0 := modPoly_nonneg l (show (0 : ℝ) ≤ x - d by linarith)
    nlinarith
  · intro h
    linarith
  · intro hlow' h
    have hd3 : -(x / 998) ≤ d := by
      by_contra hn
      push Not at hn
      nlinarith
    rw [abs_of_nonpos h]
    by_cases h0 : 0 ≤ d
    · linarith
    · linarith
  · intro h
    nlinarith

/-! ### The computed values -/

section
variable {rnd : ℝ → ℝ} {u : ℝ}

theorem rnd_pos (h : Rounding rnd u) (hu : u < 1) {x : ℝ} (hx : 0 < x) : 0 < rnd x := by
  have h1 := (abs_le.mp (h.rel x)).1
  rw [abs_of_pos hx] at h1
  nlinarith

theorem rnd_pos_iff (h : Rounding rnd u) (hu : u < 1) {x : ℝ} : 0 < rnd x ↔ 0 < x := by
  refine ⟨fun hx => ?_, rnd_pos h hu⟩
  by_contra hn
  have := h.mono (not_lt.mp hn)
  rw [rnd_zero h] at this
  linarith

theorem flα_small (h : Rounding rnd u) (hu : u ≤ 1 / 10 ^ 11) {k : ℕ} (hk : k ≤ 300) :
    flα u ^ k ≤ 1 + 1 / 10 ^ 8 := by
  have h0 := rounding_nonneg h
  have hk' : (k : ℝ) ≤ 300 := by exact_mod_cast hk
  have hb := one_add_mul_le_pow (show (-2 : ℝ) ≤ -u by linarith) k
  have hku : (k : ℝ) * u ≤ 300 * (1 / 10 ^ 11) := mul_le_mul hk' hu h0 (by norm_num)
  have hp : (1 - 300 / 10 ^ 11 : ℝ) ≤ (1 - u) ^ k := by
    rw [sub_eq_add_neg (1 : ℝ) u]
    refine le_trans ?_ hb
    linarith
  unfold flα
  rw [inv_pow]
  rw [inv_le_comm₀ (by linarith) (by norm_num)]
  refine le_trans ?_ hp
  rw [inv_le_comm₀ (by norm_num) (by norm_num)]
  norm_num

/-- The moduli of the coefficients as they are stored. -/
def flModuli (rnd : ℝ → ℝ) (l : List ℝ) : List (Fl rnd) := l.map fun x => ⟨|x|⟩

theorem polyValue_snoc_fl (x : Fl rnd) (l : List (Fl rnd)) (c : Fl rnd) (hl : l ≠ []) :
    (polyValue x (l ++ [c])).val = rnd (rnd ((polyValue x l).val * x.val) + c.val) := by
  cases l with
  | nil => exact absurd rfl hl
  | cons a l =>
    simp only [polyValue, List.cons_append, List.foldl_append, List.foldl_cons, List.foldl_nil]
    rfl

theorem polyValue_factor (h : Rounding rnd u) (hu : u < 1) (x : Fl rnd) (hx : 0 ≤ x.val) (l : List ℝ) (hl : l ≠ []) :
    Factor (flα u ^ (2 * l.length - 2)) (polyValue x (flModuli rnd l)).val (absValue l x.val) := by
  induction l using List.reverseRecOn with
  | nil => exact absurd rfl hl
  | append_singleton l a ih =>
    by_cases hl' : l = []
    · subst hl'
      rw [List.nil_append, absValue_single]
      simp only [flModuli, List.map_singleton, polyValue, List.foldl_nil, List.length_singleton]
      exact factor_refl (flα_pow h hu _) (abs_nonneg a)
    · have hlen := List.length_pos_of_ne_nil hl'
      rw [absValue_snoc]
      have e : flModuli rnd (l ++ [a]) = flModuli rnd l ++ [⟨|a|⟩] := by simp [flModuli]
      rw [e, polyValue_snoc_fl x _ _ (by simpa [flModuli] using hl')]
      have hA := absValue_nonneg l hx
      have h1 := (ih hl').mul_left hx
      rw [mul_comm x.val (polyValue x (flModuli rnd l)).val] at h1
      have h2 := h1.rounded h hu (mul_nonneg hx hA)
      have h3 := h2.add (factor_refl (flα_pow h hu _) (abs_nonneg a))
      have h4 := h3.rounded h hu (add_nonneg (mul_nonneg hx hA) (abs_nonneg a))
      exact h4.up h hu (add_nonneg (mul_nonneg hx hA) (abs_nonneg a)) (by simp; omega)

/-- The sign of the computed value. -/
theorem polyValue_pos (h : Rounding rnd u) (hu : u ≤ 1 / 10 ^ 11) (x : Fl rnd) (hx : 0 ≤ x.val) (l : List ℝ) (hl : l ≠ [])
    (hlen : l.length ≤ 100) (c : ℝ) :
    ∃ B', Factor (1 + 1 / 10 ^ 8) B' (modPoly l x.val) ∧
      (0 < (polyValue x (flModuli rnd l ++ [⟨-|c|⟩])).val ↔ |c| < B') := by
  have hu1 : u < 1 := by linarith
  have h1 := (polyValue_factor h hu1 x hx l hl).mul_left hx
  have h2 := h1.rounded h hu1 (modPoly_nonneg l hx)
  have hB := modPoly_nonneg l hx
  rw [mul_comm x.val (polyValue x (flModuli rnd l)).val] at h2
  refine ⟨_, h2.mono (h2.nonneg (by have := flα_pow h hu1 (2 * l.length - 2 + 1); linarith) hB) hB
    (flα_small h hu (by omega)), ?_⟩
  rw [polyValue_snoc_fl x _ _ (by simpa [flModuli] using hl), rnd_pos_iff h hu1]
  constructor <;> intro h <;> linarith

/-- The fold that computes the value and the derivative. -/
noncomputable def flFold (x : Fl rnd) (l : List (Fl rnd)) : Fl rnd × Fl rnd :=
  match l with
  | [] => (num 0, num 0)
  | c :: cs => cs.foldl (fun (r : Fl rnd × Fl rnd) c => (x * r.1 + c, x * r.2 + (x * r.1 + c))) (c, c)

theorem flFold_snoc (x : Fl rnd) (l : List (Fl rnd)) (c : Fl rnd) (hl : l ≠ []) :
    (flFold x (l ++ [c])).1.val = rnd (rnd (x.val * (flFold x l).1.val) + c.val) ∧
    (flFold x (l ++ [c])).2.val = rnd (rnd (x.val * (flFold x l).2.val) + (flFold x (l ++ [c])).1.val) := by
  cases l with
  | nil => exact absurd rfl hl
  | cons a l =>
    simp only [flFold, List.cons_append, List.foldl_append, List.foldl_cons, List.foldl_nil]
    exact ⟨rfl, rfl⟩

theorem valueDeriv_fl (x : Fl rnd) (l : List (Fl rnd)) (c : Fl rnd) (hl : l ≠ []) :
    valueDeriv x (l ++ [c]) = (x * (flFold x l).1 + c, (flFold x l).2) := by
  cases l with
  | nil => exact absurd rfl hl
  | cons a l =>
    simp only [valueDeriv, List.cons_append, List.dropLast_concat, flFold]
    rw [List.getLastD_eq_getLast?]
    simp

theorem flFold_factor (h : Rounding rnd u) (hu : u < 1) (x : Fl rnd) (hx : 0 ≤ x.val) (l : List ℝ) (hl : l ≠ []) :
    Factor (flα u ^ (2 * l.length)) (flFold x (flModuli rnd l)).1.val (absValue l x.val) ∧
    Factor (flα u ^ (2 * l.length + 1)) (flFold x (flModuli rnd l)).2.val (slope x.val l) := by
  induction l using List.reverseRecOn with
  | nil => exact absurd rfl hl
  | append_singleton l a ih =>
    by_cases hl' : l = []
    · subst hl'
      rw [List.nil_append, absValue_single, slope_single]
      simp only [flModuli, List.map_singleton, flFold, List.foldl_nil, List.length_singleton]
      exact ⟨factor_refl (flα_pow h hu _) (abs_nonneg a), factor_refl (flα_pow h hu _) (abs_nonneg a)⟩
    · obtain ⟨i1, i2⟩ := ih hl'
      have e : flModuli rnd (l ++ [a]) = flModuli rnd l ++ [⟨|a|⟩] := by simp [flModuli]
      obtain ⟨s1, s2⟩ := flFold_snoc x (flModuli rnd l) ⟨|a|⟩ (by simpa [flModuli] using hl')
      have hA := absValue_nonneg l hx
      have hA' := absValue_nonneg (l ++ [a]) hx
      have hS := slope_nonneg hx l
      have g1 : Factor (flα u ^ (2 * l.length + 2)) (flFold x (flModuli rnd (l ++ [a]))).1.val
          (absValue (l ++ [a]) x.val) := by
        rw [e, s1, absValue_snoc]
        exact (((i1.mul_left hx).rounded h hu (mul_nonneg hx hA)).add
          (factor_refl (flα_pow h hu _) (abs_nonneg a))).rounded h hu
          (add_nonneg (mul_nonneg hx hA) (abs_nonneg a))
      refine ⟨g1.up h hu hA' (by simp; omega), ?_⟩
      rw [slope_snoc _ _ _ hl']
      rw [← e] at s2
      rw [s2]
      have g2 := ((i2.mul_left hx).rounded h hu (mul_nonneg hx hS)).add g1
      exact (g2.rounded h hu (add_nonneg (mul_nonneg hx hS) hA')).up h hu (add_nonneg (mul_nonneg hx hS) hA')
        (by simp; omega)

theorem rel_small (h : Rounding rnd u) (hu : u ≤ 1 / 10 ^ 11) (x : ℝ) : |rnd x - x| ≤ 1 / 10 ^ 11 * |x| :=
  (h.rel x).trans (mul_le_mul_of_nonneg_right hu (abs_nonneg x))

/-- The step that is computed. -/
theorem step_error (h : Rounding rnd u) (hu : u ≤ 1 / 10 ^ 11) (x : Fl rnd) (hx : 0 < x.val) (l : List ℝ) (hl : l ≠ [])
    (hlen : l.length ≤ 100) (c : ℝ) (hS : 0 < slope x.val l) :
    let r := valueDeriv x (flModuli rnd l ++ [⟨-|c|⟩])
    |(r.1 / r.2).val - (modPoly l x.val - |c|) / slope x.val l| ≤
      1 / 10 ^ 7 * (|(modPoly l x.val - |c|) / slope x.val l| + x.val) := by
  have hu1 : u < 1 := by linarith
  obtain ⟨i1, i2⟩ := flFold_factor h hu1 x hx.le l hl
  have hB := modPoly_nonneg l hx.le
  rw [valueDeriv_fl x _ _ (by simpa [flModuli] using hl)]
  have h1 := (i1.mul_left hx.le).rounded h hu1 hB
  have h1' := h1.mono (h1.nonneg (by have := flα_pow h hu1 (2 * l.length + 1); linarith) hB) hB
    (flα_small h hu (by omega))
  have hS' := i2.nonneg (by have := flα_pow h hu1 (2 * l.length + 1); linarith) hS.le
  have h2' := i2.mono hS' hS.le (flα_small h hu (by omega))
  refine quotient_error hx hS (modPoly_le_slope l hx.le) hB (by norm_num) le_rfl h1' h2' ?_
  obtain ⟨B', hB'⟩ : ∃ B', B' = rnd (x.val * (flFold x (flModuli rnd l)).1.val) := ⟨_, rfl⟩
  obtain ⟨S', hSS'⟩ : ∃ S', S' = (flFold x (flModuli rnd l)).2.val := ⟨_, rfl⟩
  change |rnd (rnd (rnd (x.val * (flFold x (flModuli rnd l)).1.val) + -|c|) / (flFold x (flModuli rnd l)).2.val) - _| ≤ _
  rw [← hB', ← hSS'] at *
  rw [← sub_eq_add_neg]
  obtain ⟨δ, e1, hδ⟩ := rnd_factor h (B' - |c|)
  rw [e1]
  obtain ⟨η, e2, hη⟩ := rnd_factor h ((B' - |c|) * (1 + δ) / S')
  rw [e2]
  have : (B' - |c|) * (1 + δ) / S' * (1 + η) - (B' - |c|) / S' = (δ + η + δ * η) * ((B' - |c|) / S') := by ring
  rw [this, abs_mul]
  refine mul_le_mul_of_nonneg_right ?_ (abs_nonneg _)
  have f1 : |δ| ≤ 1 / 10 ^ 11 := by linarith
  have f2 : |η| ≤ 1 / 10 ^ 11 := by linarith
  have f3 := abs_mul δ η
  have f4 : |δ| * |η| ≤ 1 / 10 ^ 11 * (1 / 10 ^ 11) := mul_le_mul f1 f2 (abs_nonneg _) (by norm_num)
  have f5 := abs_add_le (δ + η) (δ * η)
  have f6 := abs_add_le δ η
  rw [f3] at f5
  linarith

end

end Verif
