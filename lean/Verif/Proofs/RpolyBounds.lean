import Verif.Proofs.RpolyFound
import Mathlib.Tactic.Positivity

/-
Bounds on the residuals of the zeros that the iterations report, in exact arithmetic.
-/
set_option linter.unusedSectionVars false

namespace Verif

open Spec Polynomial

theorem absValue_snoc (l : List ℝ) (x ρ : ℝ) : absValue (l ++ [x]) ρ = ρ * absValue l ρ + |x| := by
  unfold absValue
  rw [List.map_append, List.map_singleton, decPoly_snoc, eval_add, eval_mul, eval_X, eval_C]

theorem absValue_single (x ρ : ℝ) : absValue [x] ρ = |x| := by
  unfold absValue
  rw [List.map_singleton, decPoly_single, eval_C]

theorem absValue_nonneg (l : List ℝ) {ρ : ℝ} (h : 0 ≤ ρ) : 0 ≤ absValue l ρ := by
  induction l using List.reverseRecOn with
  | nil => simp [absValue, decPoly_nil]
  | append_singleton l x ih =>
    rw [absValue_snoc]
    positivity

theorem decPoly_map_mul (l : List ℝ) (c : ℝ) : decPoly (l.map fun x => x * c) = C c * decPoly l := by
  induction l using List.reverseRecOn with
  | nil => simp [decPoly_nil]
  | append_singleton l x ih =>
    rw [List.map_append, List.map_singleton, decPoly_snoc, decPoly_snoc, ih, map_mul]
    ring

theorem absValue_map_mul (l : List ℝ) (c ρ : ℝ) : absValue (l.map fun x => x * c) ρ = |c| * absValue l ρ := by
  induction l using List.reverseRecOn with
  | nil => simp [absValue, decPoly_nil]
  | append_singleton l x ih =>
    rw [List.map_append, List.map_singleton, absValue_snoc, absValue_snoc, ih, abs_mul]
    ring

/-! ### Real zeros -/

theorem hornerLoop_bound (s : ℝ) : ∀ (xs pre : List ℝ) (pv e : ℝ),
    |pv| ≤ absValue pre |s| → e ≤ pre.length * absValue pre |s| →
    (hornerLoop s pv xs).1.foldl (fun ee x => ee * |s| + |x|) e ≤
      (pre ++ xs).length * absValue (pre ++ xs) |s| := by
  intro xs
  induction xs with
  | nil =>
    intro pre pv e _ he
    simpa [hornerLoop] using he
  | cons x xs ih =>
    intro pre pv e hpv he
    have hB := absValue_nonneg pre (abs_nonneg s)
    have hs := abs_nonneg s
    have h1 : |pv * s + x| ≤ absValue (pre ++ [x]) |s| := by
      rw [absValue_snoc]
      calc |pv * s + x| ≤ |pv| * |s| + |x| := by rw [← abs_mul]; exact abs_add_le _ _
        _ ≤ _ := by nlinarith
    have := ih (pre ++ [x]) (pv * s + x) (e * |s| + |pv * s + x|) h1 (by
      have h2 : absValue pre |s| * |s| ≤ absValue (pre ++ [x]) |s| := by
        rw [absValue_snoc]
        nlinarith [abs_nonneg x]
      have h3 : e * |s| ≤ pre.length * absValue pre |s| * |s| := mul_le_mul_of_nonneg_right he hs
      have hn : (0 : ℝ) ≤ pre.length := Nat.cast_nonneg _
      rw [List.length_append, List.length_singleton]
      push_cast
      nlinarith)
    simpa [hornerLoop] using this

/-- The test of the real iteration bounds the remainder. -/
theorem real_bound (m : RMath ℝ) (hm : ExactMath m) (s : ℝ) (p : List ℝ) (r : List ℝ × ℝ)
    (h : horner s p = .ok r)
    (ht : m.fabs r.2 ≤ num 20 * m.eps * (num 2 * realError m s r.1 - m.fabs r.2)) :
    |r.2| ≤ 40 * p.length * m.eps * absValue p |s| := by
  match p, h with
  | p0 :: ps, h =>
    cases h
    simp only [hm.fabs, num_eq] at ht
    have hb := hornerLoop_bound s ps [p0] p0 (1 / 2 * |p0|) (by rw [absValue_single]) (by
      rw [absValue_single]
      have := abs_nonneg p0
      simp
      linarith)
    have he : realError m s (p0 :: (hornerLoop s p0 ps).1) =
        (hornerLoop s p0 ps).1.foldl (fun ee x => ee * |s| + |x|) (1 / 2 * |p0|) := by
      simp [realError, hm.fabs, num_eq]
    simp only [he] at ht
    have hl : ([p0] ++ ps) = p0 :: ps := rfl
    rw [hl] at hb
    push_cast at ht
    have h1 := hm.eps
    have h2 := abs_nonneg (hornerLoop s p0 ps).2
    dsimp only at ht ⊢
    nlinarith [mul_le_mul_of_nonneg_left hb h1.le, mul_nonneg h1.le h2]

/-! ### Pairs -/

theorem quadSDLoop_bound (u v ρ : ℝ) (z w : ℂ) (hu : z + w = -(u : ℂ)) (hv : z * w = v) (hz : ‖z‖ ≤ ρ)
    (hw : ‖w‖ ≤ ρ) : ∀ (xs pre q : List ℝ) (a b : ℝ),
    ‖(a : ℂ) - w * b‖ ≤ absValue pre ρ → |a| ≤ pre.length * absValue pre ρ →
    2 * absValue q ρ ≤ pre.length * (pre.length + 1) * absValue pre ρ →
    2 * absValue (q ++ (quadSDLoop u v xs a b).1) ρ ≤
      (pre ++ xs).length * ((pre ++ xs).length + 1) * absValue (pre ++ xs) ρ := by
  have hρ : 0 ≤ ρ := le_trans (norm_nonneg z) hz
  intro xs
  induction xs with
  | nil =>
    intro pre q a b _ _ h
    simpa [quadSDLoop] using h
  | cons x xs ih =>
    intro pre q a b h1 h2 h3
    have hB := absValue_nonneg pre hρ
    have hB' : ρ * absValue pre ρ + |x| = absValue (pre ++ [x]) ρ := (absValue_snoc _ _ _).symm
    have hn : (0 : ℝ) ≤ pre.length := Nat.cast_nonneg _
    have e1 : ‖((-(a * u + b * v) + x : ℝ) : ℂ) - w * a‖ ≤ absValue (pre ++ [x]) ρ := by
      have : ((-(a * u + b * v) + x : ℝ) : ℂ) - w * a = z * (a - w * b) + x := by
        push_cast
        rw [← hv]
        linear_combination (-(a : ℂ)) * hu
      rw [this, ← hB']
      calc ‖z * (a - w * b) + x‖ ≤ ‖z * (a - w * b)‖ + ‖(x : ℂ)‖ := norm_add_le _ _
        _ = ‖z‖ * ‖(a : ℂ) - w * b‖ + |x| := by rw [norm_mul, Complex.norm_real, Real.norm_eq_abs]
        _ ≤ ρ * absValue pre ρ + |x| := by
          have := mul_le_mul hz h1 (norm_nonneg _) hρ
          linarith
    have e2 : |-(a * u + b * v) + x| ≤ (pre ++ [x]).length * absValue (pre ++ [x]) ρ := by
      have h4 : |-(a * u + b * v) + x| ≤ ρ * |a| + absValue (pre ++ [x]) ρ := by
        have : ((-(a * u + b * v) + x : ℝ) : ℂ) = (((-(a * u + b * v) + x : ℝ) : ℂ) - w * a) + w * a := by ring
        have h5 := congrArg norm this
        rw [Complex.norm_real, Real.norm_eq_abs] at h5
        rw [h5]
        refine le_trans (norm_add_le _ _) ?_
        rw [norm_mul, Complex.norm_real, Real.norm_eq_abs]
        have := mul_le_mul_of_nonneg_right hw (abs_nonneg a)
        linarith
      have h6 : ρ * |a| ≤ ρ * (pre.length * absValue pre ρ) := mul_le_mul_of_nonneg_left h2 hρ
      rw [List.length_append, List.length_singleton]
      push_cast
      nlinarith [abs_nonneg x]
    have := ih (pre ++ [x]) (q ++ [-(a * u + b * v) + x]) (-(a * u + b * v) + x) a e1 e2 (by
      rw [absValue_snoc]
      have h7 : ρ * (2 * absValue q ρ) ≤ ρ * (pre.length * (pre.length + 1) * absValue pre ρ) :=
        mul_le_mul_of_nonneg_left h3 hρ
      have h8 : ρ * absValue pre ρ ≤ absValue (pre ++ [x]) ρ := by
        rw [← hB']
        linarith [abs_nonneg x]
      have h9 := mul_le_mul_of_nonneg_left h8 (mul_nonneg hn (by linarith : (0 : ℝ) ≤ pre.length + 1))
      rw [List.length_append, List.length_singleton] at e2 ⊢
      push_cast at e2 ⊢
      nlinarith)
    simpa [quadSDLoop] using this

theorem quadSD_bound (u v ρ : ℝ) (z w : ℂ) (hu : z + w = -(u : ℂ)) (hv : z * w = v) (hz : ‖z‖ ≤ ρ)
    (hw : ‖w‖ ≤ ρ) (p : List ℝ) (r : List ℝ × ℝ × ℝ) (h : quadSD u v p = .ok r) :
    2 * absValue r.1 ρ ≤ p.length * (p.length + 1) * absValue p ρ := by
  match p, h with
  | p0 :: p1 :: ps, h =>
    cases h
    have := quadSDLoop_bound u v ρ z w hu hv hz hw (p1 :: ps) [p0] [p0] p0 0
      (by simp [absValue_single]) (by simp [absValue_single]) (by simp [absValue_single]; linarith)
    simpa [quadSDLoop] using this

theorem foldl_bound (σ ρ : ℝ) (h0 : 0 ≤ σ) (h : σ ≤ ρ) : ∀ (xs pre : List ℝ) (e : ℝ), 0 ≤ e →
    e ≤ 2 * absValue pre ρ →
    0 ≤ xs.foldl (fun ee x => ee * σ + |x|) e ∧
      xs.foldl (fun ee x => ee * σ + |x|) e ≤ 2 * absValue (pre ++ xs) ρ := by
  intro xs
  induction xs with
  | nil =>
    intro pre e h1 h2
    simpa using ⟨h1, h2⟩
  | cons x xs ih =>
    intro pre e h1 h2
    have := ih (pre ++ [x]) (e * σ + |x|) (by positivity) (by
      rw [absValue_snoc]
      have h3 := mul_le_mul_of_nonneg_left h h1
      have h4 := mul_le_mul_of_nonneg_right h2 (le_trans h0 h)
      nlinarith [abs_nonneg x])
    simpa using this

/-- The test of the quadratic iteration bounds the value at the second zero. -/
theorem pair_bound (m : RMath ℝ) (hm : ExactMath m) (u v : ℝ) (z : QRoots ℝ) (p : List ℝ) (r : List ℝ × ℝ × ℝ)
    (e : ℝ × ℝ) (hu : (⟨z.sr, z.si⟩ : ℂ) + ⟨z.lr, z.li⟩ = -(u : ℂ)) (hv : (⟨z.sr, z.si⟩ : ℂ) * ⟨z.lr, z.li⟩ = v)
    (h : quadSD u v p = .ok r) (he : quadError m z v r.2.1 r.2.2 r.1 = .ok e) (ht : e.1 ≤ num 20 * e.2) :
    ‖(r.2.1 : ℂ) - r.2.2 * ⟨z.sr, z.si⟩‖ ≤ 290 * (p.length * (p.length + 1)) * m.eps *
      absValue p (max ‖(⟨z.sr, z.si⟩ : ℂ)‖ ‖(⟨z.lr, z.li⟩ : ℂ)‖) := by
  have hb := quadSD_bound u v _ _ _ hu hv (le_max_left ‖(⟨z.sr, z.si⟩ : ℂ)‖ ‖(⟨z.lr, z.li⟩ : ℂ)‖)
    (le_max_right _ _) p r h
  obtain ⟨l, hl, _⟩ := quadSD_spec u v p r h
  have hz := le_max_left ‖(⟨z.sr, z.si⟩ : ℂ)‖ ‖(⟨z.lr, z.li⟩ : ℂ)‖
  have hσ : √|v| ≤ max ‖(⟨z.sr, z.si⟩ : ℂ)‖ ‖(⟨z.lr, z.li⟩ : ℂ)‖ := by
    apply Real.sqrt_le_iff.mpr
    refine ⟨le_trans (norm_nonneg _) hz, ?_⟩
    have h1 : |v| = ‖(⟨z.sr, z.si⟩ : ℂ)‖ * ‖(⟨z.lr, z.li⟩ : ℂ)‖ := by
      rw [← norm_mul, hv, Complex.norm_real, Real.norm_eq_abs]
    rw [h1, sq]
    exact mul_le_mul hz (le_max_right _ _) (norm_nonneg _) (le_trans (norm_nonneg _) hz)
  have hsr : |z.sr| ≤ max ‖(⟨z.sr, z.si⟩ : ℂ)‖ ‖(⟨z.lr, z.li⟩ : ℂ)‖ := by
    refine le_trans ?_ hz
    exact Complex.abs_re_le_norm ⟨z.sr, z.si⟩
  generalize max ‖(⟨z.sr, z.si⟩ : ℂ)‖ ‖(⟨z.lr, z.li⟩ : ℂ)‖ = ρ at hb hz hσ hsr ⊢
  have hρ : 0 ≤ ρ := le_trans (abs_nonneg _) hsr
  obtain ⟨q, a, b⟩ := r
  dsimp only at hl hb he ⊢
  subst hl
  obtain ⟨q0, hq0, he'⟩ := Res.bind_eq_ok.mp he
  cases he'
  simp only [hm.fabs, hm.sqrt, num_eq] at ht
  have hE : ((l ++ [b, a]).take ((l ++ [b, a]).length - 1)).drop 1 = (l ++ [b]).drop 1 := by
    have h1 : (l ++ [b, a]).length - 1 = (l ++ [b]).length := by simp
    have h2 : l ++ [b, a] = (l ++ [b]) ++ [a] := by simp
    rw [h1, h2, List.take_left]
  rw [hE] at ht
  -- the first entry
  have hq : l ++ [b] = [q0] ++ (l ++ [b]).drop 1 := by
    have h1 := Res.at'_eq_ok.mp hq0
    cases l with
    | nil => simpa using h1
    | cons y l => simpa using h1
  have hf := foldl_bound √|v| ρ (Real.sqrt_nonneg _) hσ ((l ++ [b]).drop 1) [q0] ((2 : ℕ) * |q0|)
    (by positivity) (by rw [absValue_single]; simp)
  rw [← hq] at hf
  have hσ0 := Real.sqrt_nonneg |v|
  generalize √|v| = σ at ht hf hσ hσ0
  generalize ((l ++ [b]).drop 1).foldl (fun ee x => ee * σ + |x|) ((2 : ℕ) * |q0|) = E at ht hf
  have hab : absValue (l ++ [b, a]) ρ = ρ * absValue (l ++ [b]) ρ + |a| := by
    have h2 : l ++ [b, a] = (l ++ [b]) ++ [a] := by simp
    rw [h2, absValue_snoc]
  have hbS : |b| ≤ absValue (l ++ [b]) ρ := by
    rw [absValue_snoc]
    have := mul_nonneg hρ (absValue_nonneg l hρ)
    linarith
  rw [hab] at hb
  generalize absValue (l ++ [b]) ρ = S at hf hb hbS
  have hn : ‖(a : ℂ) - b * ⟨z.sr, z.si⟩‖ ≤ |-(z.sr * b) + a| + |z.si * b| := by
    refine le_trans (Complex.norm_le_abs_re_add_abs_im _) ?_
    simp only [Complex.sub_re, Complex.sub_im, Complex.ofReal_re, Complex.ofReal_im, Complex.re_ofReal_mul,
      Complex.im_ofReal_mul, zero_sub, abs_neg]
    rw [show a - b * z.sr = -(z.sr * b) + a by ring, mul_comm b z.si]
  refine le_trans hn (le_trans ht ?_)
  have ht1 : |-(z.sr * b)| ≤ ρ * |b| := by
    rw [abs_neg, abs_mul]
    exact mul_le_mul_of_nonneg_right hsr (abs_nonneg _)
  have hat : |a + -(z.sr * b)| ≤ |a| + ρ * |b| := le_trans (abs_add_le _ _) (by linarith)
  have hEσ : E * σ ≤ 2 * S * ρ := mul_le_mul hf.2 hσ hσ0 (le_trans hf.1 hf.2)
  have hbρ : ρ * |b| ≤ ρ * S := mul_le_mul_of_nonneg_left hbS hρ
  have hab0 := abs_nonneg (a + -(z.sr * b))
  have hσb : 0 ≤ σ * |b| := mul_nonneg hσ0 (abs_nonneg _)
  have ha0 := abs_nonneg a
  have hmain : (9 : ℕ) * (E * σ + |a + -(z.sr * b)|) + (2 : ℕ) * |-(z.sr * b)| -
      (7 : ℕ) * (|a + -(z.sr * b)| + σ * |b|) ≤ 29 * (ρ * S + |a|) := by
    push_cast
    nlinarith
  have := mul_le_mul_of_nonneg_right hmain hm.eps.le
  have h3 := mul_le_mul_of_nonneg_right hb hm.eps.le
  push_cast at this ⊢
  nlinarith

end Verif
