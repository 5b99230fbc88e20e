import Verif.Spec.Rpoly
import Verif.Proofs.Rpoly
import Verif.Proofs.PolynomialArith
import Mathlib.Tactic.LinearCombination
import Mathlib.Tactic.FieldSimp
import Mathlib.Tactic.Linarith

/-
The root finder in exact arithmetic.
-/
set_option linter.unusedSectionVars false

namespace Verif

open Spec Polynomial

/-! ### Coefficients in decreasing order -/

theorem ofCoeffs_cons {K : Type} [CommSemiring K] (x : K) (l : List K) :
    ofCoeffs (x :: l) = X * ofCoeffs l + C x := by
  unfold ofCoeffs
  rw [List.length_cons, Finset.sum_range_succ', Finset.mul_sum]
  congr 1
  · apply Finset.sum_congr rfl
    intro i _
    rw [List.getD_cons_succ, X_mul_monomial]

theorem decPoly_snoc {K : Type} [CommSemiring K] (l : List K) (x : K) :
    decPoly (l ++ [x]) = X * decPoly l + C x := by
  unfold decPoly
  rw [List.reverse_append, List.reverse_singleton, List.singleton_append, ofCoeffs_cons]

theorem decPoly_nil {K : Type} [CommSemiring K] : decPoly ([] : List K) = 0 := by
  simp [decPoly, ofCoeffs]

theorem decPoly_single {K : Type} [CommSemiring K] (x : K) : decPoly [x] = C x := by
  have := decPoly_snoc [] x
  simpa [decPoly_nil] using this

section Ring
variable {K : Type} [CommRing K]

/-- The loop of the division by `X² + u X + v`. -/
theorem quadSDLoop_spec (u v : K) : ∀ (xs pre l : List K) (a b : K),
    decPoly pre = (X ^ 2 + C u * X + C v) * decPoly l + C b * (X + C u) + C a →
    ∃ l', l ++ [b, a] ++ (quadSDLoop u v xs a b).1 =
        l' ++ [(quadSDLoop u v xs a b).2.2, (quadSDLoop u v xs a b).2.1] ∧
      decPoly (pre ++ xs) = (X ^ 2 + C u * X + C v) * decPoly l' +
        C (quadSDLoop u v xs a b).2.2 * (X + C u) + C (quadSDLoop u v xs a b).2.1 := by
  intro xs
  induction xs with
  | nil =>
    intro pre l a b h
    exact ⟨l, by simp [quadSDLoop], by simpa [quadSDLoop] using h⟩
  | cons x xs ih =>
    intro pre l a b h
    obtain ⟨l', h1, h2⟩ := ih (pre ++ [x]) (l ++ [b]) (-(a * u + b * v) + x) a (by
      rw [decPoly_snoc, decPoly_snoc, h]
      simp only [map_add, map_neg, map_mul]
      ring)
    refine ⟨l', ?_, ?_⟩
    · simpa [quadSDLoop] using h1
    · simpa [quadSDLoop] using h2

theorem quadSD_spec (u v : K) (p : List K) (r : List K × K × K) (h : quadSD u v p = .ok r) :
    ∃ l, r.1 = l ++ [r.2.2, r.2.1] ∧
      decPoly p = (X ^ 2 + C u * X + C v) * decPoly l + C r.2.2 * (X + C u) + C r.2.1 := by
  match p, h with
  | p0 :: p1 :: ps, h =>
    cases h
    obtain ⟨l, h1, h2⟩ := quadSDLoop_spec u v ps [p0, p1] [] (-(p0 * u) + p1) p0 (by
      have := decPoly_snoc [p0] p1
      rw [decPoly_single] at this
      simp only [List.singleton_append] at this
      rw [this, decPoly_nil]
      simp only [map_add, map_neg, map_mul]
      ring)
    exact ⟨l, by simpa using h1, by simpa using h2⟩

/-- The loop of the division by `X - s`. -/
theorem hornerLoop_spec (s : K) : ∀ (xs pre l : List K) (pv : K),
    decPoly pre = (X - C s) * decPoly l + C pv →
    ∃ l', l ++ [pv] ++ (hornerLoop s pv xs).1 = l' ++ [(hornerLoop s pv xs).2] ∧
      decPoly (pre ++ xs) = (X - C s) * decPoly l' + C (hornerLoop s pv xs).2 := by
  intro xs
  induction xs with
  | nil =>
    intro pre l pv h
    exact ⟨l, by simp [hornerLoop], by simpa [hornerLoop] using h⟩
  | cons x xs ih =>
    intro pre l pv h
    obtain ⟨l', h1, h2⟩ := ih (pre ++ [x]) (l ++ [pv]) (pv * s + x) (by
      rw [decPoly_snoc, decPoly_snoc, h]
      simp only [map_add, map_mul]
      ring)
    refine ⟨l', ?_, ?_⟩
    · simpa [hornerLoop] using h1
    · simpa [hornerLoop] using h2

theorem horner_spec (s : K) (p : List K) (r : List K × K) (h : horner s p = .ok r) :
    ∃ l, r.1 = l ++ [r.2] ∧ decPoly p = (X - C s) * decPoly l + C r.2 := by
  match p, h with
  | p0 :: ps, h =>
    cases h
    obtain ⟨l, h1, h2⟩ := hornerLoop_spec s ps [p0] [] p0 (by simp [decPoly_single, decPoly_nil])
    exact ⟨l, by simpa using h1, by simpa using h2⟩

end Ring

/-! ### The quadratic formula -/

theorem num_eq (n : ℕ) : (num n : ℝ) = n := by
  have h : (num n : ℝ) = n := rfl
  exact h.trans (Eq.refl _)

/-- What `e` and `d` are: `d` is the root of the modulus of the discriminant, `e` has its sign. -/
theorem quadDiscr_spec (m : RMath ℝ) (hm : ExactMath m) (a b c : ℝ) (hc : c ≠ 0) :
    0 ≤ (quadDiscr m a b c).2 ∧
    (0 ≤ (quadDiscr m a b c).1 → (quadDiscr m a b c).2 ^ 2 = b ^ 2 - a * c) ∧
    ((quadDiscr m a b c).1 < 0 → (quadDiscr m a b c).2 ^ 2 = a * c - b ^ 2 ∧ b ^ 2 < a * c) := by
  unfold quadDiscr
  simp only [hm.fabs, hm.sqrt, num_eq]
  split
  · have hc' : 0 < |c| := abs_pos.mpr hc
    have key : (-(if (0 : ℕ) ≤ c then a else -a) + b * (b / |c|)) * |c| = b ^ 2 - a * c := by
      split
      · rename_i h
        simp only [Nat.cast_zero] at h
        rw [abs_of_nonneg h]
        field_simp
        ring
      · rename_i h
        simp only [Nat.cast_zero, not_le] at h
        rw [abs_of_neg h]
        field_simp
        ring
    dsimp only
    generalize (-(if (0 : ℕ) ≤ c then a else -a) + b * (b / |c|)) = e at key ⊢
    have hsq : (√|e| * √|c|) ^ 2 = |e| * |c| := by
      rw [mul_pow, Real.sq_sqrt (abs_nonneg _), Real.sq_sqrt (abs_nonneg _)]
    refine ⟨by positivity, ?_, ?_⟩
    · intro he
      rw [hsq, abs_of_nonneg he, key]
    · intro he
      rw [hsq, abs_of_neg he]
      refine ⟨by linarith, ?_⟩
      nlinarith
  · rename_i h
    have hb : b ≠ 0 := by
      rintro rfl
      rw [abs_zero, not_lt] at h
      exact hc (abs_eq_zero.mp (le_antisymm h (abs_nonneg _)))
    have key : (-((a / b) * (c / b)) + (1 : ℕ)) * b ^ 2 = b ^ 2 - a * c := by
      push_cast
      field_simp
      ring
    dsimp only
    generalize (-((a / b) * (c / b)) + ((1 : ℕ) : ℝ)) = e at key ⊢
    have hsq : (√|e| * |b|) ^ 2 = |e| * b ^ 2 := by
      rw [mul_pow, Real.sq_sqrt (abs_nonneg _), sq_abs]
    have hb2 : 0 < b ^ 2 := by positivity
    refine ⟨by positivity, ?_, ?_⟩
    · intro he
      rw [hsq, abs_of_nonneg he, key]
    · intro he
      rw [hsq, abs_of_neg he]
      refine ⟨by linarith, ?_⟩
      nlinarith

/-- The quadratic formula: the two complex numbers returned are the two zeros. -/
theorem quad_spec (m : RMath ℝ) (hm : ExactMath m) (a b1 c : ℝ) (ha : a ≠ 0) :
    (∀ x : ℂ, (a : ℂ) * x ^ 2 + b1 * x + c = a * (x - ⟨(quad m a b1 c).sr, (quad m a b1 c).si⟩) *
      (x - ⟨(quad m a b1 c).lr, (quad m a b1 c).li⟩)) ∧
    ((quad m a b1 c).si = 0 ∧ (quad m a b1 c).li = 0 ∨
      0 < (quad m a b1 c).si ∧ (quad m a b1 c).li = -(quad m a b1 c).si ∧
        (quad m a b1 c).sr = (quad m a b1 c).lr) := by
  have haC : (a : ℂ) ≠ 0 := by exact_mod_cast ha
  have hz : ∀ x : ℝ, m.isZero x = decide (x = 0) := by
    intro x
    by_cases h : x = 0
    · rw [(hm.isZero x).mpr h]; simp [h]
    · have : m.isZero x ≠ true := fun h' => h ((hm.isZero x).mp h')
      simp [h, this]
  have hre : ∀ s : ℝ, (⟨s, ((0 : ℕ) : ℝ)⟩ : ℂ) = (s : ℂ) := by
    intro s
    apply Complex.ext <;> simp
  unfold quad
  simp only [hz, decide_eq_true_eq, num_eq]
  rw [if_neg ha]
  split
  · rename_i hc
    subst hc
    constructor
    · intro x
      simp only [hre]
      push_cast
      field_simp
      ring
    · left
      simp
  · rename_i hc
    obtain ⟨h0, h1, h2⟩ := quadDiscr_spec m hm a (b1 / (2 : ℕ)) c hc
    generalize (quadDiscr m a (b1 / (2 : ℕ)) c).1 = e at h0 h1 h2 ⊢
    generalize (quadDiscr m a (b1 / (2 : ℕ)) c).2 = d at h0 h1 h2 ⊢
    obtain ⟨b, hb⟩ : ∃ b, b = b1 / (2 : ℕ) := ⟨_, rfl⟩
    have hb1 : b1 = 2 * b := by
      rw [hb]
      push_cast
      ring
    rw [← hb] at h1 h2 ⊢
    subst hb1
    unfold quadFromDiscr
    simp only [hz, decide_eq_true_eq, num_eq, hm.fabs]
    split
    · rename_i he
      have hd := h1 (by simpa using he)
      have hsd : ∃ d' : ℝ, (if ((0 : ℕ) : ℝ) ≤ b then -d else d) = d' ∧ d' ^ 2 = b ^ 2 - a * c ∧ -b + d' ≠ 0 := by
        refine ⟨_, rfl, ?_, ?_⟩
        · split
          · rw [neg_sq, hd]
          · exact hd
        · split
          · rename_i hb0
            simp only [Nat.cast_zero] at hb0
            intro h
            have hb' : b = 0 := by linarith
            have hd' : d = 0 := by linarith
            rw [hb', hd'] at hd
            have : a * c = 0 := by linarith
            exact (mul_ne_zero ha hc) this
          · rename_i hb0
            simp only [Nat.cast_zero, not_le] at hb0
            intro h
            linarith
      obtain ⟨d', e1, e2, e3⟩ := hsd
      rw [e1]
      have hlr : (-b + d') / a ≠ 0 := div_ne_zero e3 ha
      rw [if_neg hlr]
      constructor
      · intro x
        simp only [hre]
        have hp : ((-b + d') / a) * (c / ((-b + d') / a) / a) = c / a := by
          field_simp
        have hs : (-b + d') / a + c / ((-b + d') / a) / a = -(2 * b) / a := by
          have : c / ((-b + d') / a) / a = c / (-b + d') := by field_simp
          rw [this]
          field_simp
          linear_combination e2
        have hpC := congrArg (fun y : ℝ => (y : ℂ)) hp
        have hsC := congrArg (fun y : ℝ => (y : ℂ)) hs
        rw [Complex.ofReal_mul] at hpC
        rw [Complex.ofReal_add] at hsC
        generalize (((-b + d') / a : ℝ) : ℂ) = L at hpC hsC ⊢
        generalize ((c / ((-b + d') / a) / a : ℝ) : ℂ) = S at hpC hsC ⊢
        push_cast at hpC hsC ⊢
        have e4 : (a : ℂ) * (L * S) = c := by rw [hpC]; field_simp
        have e5 : (a : ℂ) * (L + S) = -(2 * b) := by rw [hsC]; field_simp
        linear_combination -e4 + x * e5
      · left
        simp
    · rename_i he
      obtain ⟨hd, hlt⟩ := h2 (by simpa using he)
      have hd0 : d ≠ 0 := by
        rintro rfl
        nlinarith
      constructor
      · intro x
        have hi2 : |d / a| ^ 2 = (a * c - b ^ 2) / a ^ 2 := by
          rw [sq_abs, div_pow, hd]
        generalize |d / a| = i at hi2 ⊢
        have z1 : (⟨-(b / a), i⟩ : ℂ) = -(b / a) + i * Complex.I := by
          apply Complex.ext <;> simp [Complex.div_ofReal_re, Complex.div_ofReal_im]
        have z2 : (⟨-(b / a), -i⟩ : ℂ) = -(b / a) - i * Complex.I := by
          apply Complex.ext <;> simp [Complex.div_ofReal_re, Complex.div_ofReal_im]
        rw [z1, z2]
        have hi2C : (i : ℂ) ^ 2 = (a * c - b ^ 2) / a ^ 2 := by exact_mod_cast congrArg (fun y : ℝ => (y : ℂ)) hi2
        have hI := Complex.I_sq
        have : (a : ℂ) * (x - (-(b / a) + i * Complex.I)) * (x - (-(b / a) - i * Complex.I)) =
            a * ((x + b / a) ^ 2 + i ^ 2) := by
          linear_combination (-(a : ℂ) * i ^ 2) * hI
        rw [this, hi2C]
        push_cast
        field_simp
        ring
      · right
        exact ⟨abs_pos.mpr (div_ne_zero hd0 ha), rfl, rfl⟩

end Verif
