import Mathlib.Algebra.Order.BigOperators.Ring.Finset
import Mathlib.Data.Int.Log
import Mathlib.Algebra.Order.Round
import Mathlib.Tactic.LinearCombination
import Mathlib.Tactic.Linarith
import Mathlib.Tactic.Positivity
import Verif.Model.Rounded
import Verif.Spec.Rounded
import Verif.Proofs.Polynomial

/-
Lemmas about rounding.
-/
namespace Verif

open Spec

variable {rnd : ℝ → ℝ} {u : ℝ}

theorem rounding_nonneg (h : Rounding rnd u) : 0 ≤ u := by
  have := h.rel 1
  rw [abs_one, mul_one] at this
  exact (abs_nonneg _).trans this

theorem rnd_zero (h : Rounding rnd u) : rnd 0 = 0 := by
  have := h.rel 0
  simpa using this

/-- A rounded number is the exact one times `1 + δ`. -/
theorem rnd_factor (h : Rounding rnd u) (x : ℝ) : ∃ δ, rnd x = x * (1 + δ) ∧ |δ| ≤ (1 + u) ^ 1 - 1 := by
  by_cases hx : x = 0
  · refine ⟨0, by rw [hx, rnd_zero h, zero_mul], ?_⟩
    rw [abs_zero, pow_one]
    have := rounding_nonneg h
    linarith
  · refine ⟨(rnd x - x) / x, by field_simp; ring, ?_⟩
    rw [abs_div, div_le_iff₀ (abs_pos.mpr hx)]
    simpa using h.rel x

theorem factor_mul (_hu : 0 ≤ u) {a b : ℝ} {m n : ℕ} (ha : |a| ≤ (1 + u) ^ m - 1) (hb : |b| ≤ (1 + u) ^ n - 1) :
    ∃ c, (1 + a) * (1 + b) = 1 + c ∧ |c| ≤ (1 + u) ^ (m + n) - 1 := by
  refine ⟨a + b + a * b, by ring, ?_⟩
  have h1 : |a + b + a * b| ≤ |a| + |b| + |a| * |b| := by
    rw [← abs_mul]
    exact (abs_add_le _ _).trans (add_le_add_left (abs_add_le _ _) _)
  have h2 : |a| * |b| ≤ ((1 + u) ^ m - 1) * ((1 + u) ^ n - 1) :=
    mul_le_mul ha hb (abs_nonneg _) ((abs_nonneg _).trans ha)
  calc |a + b + a * b| ≤ |a| + |b| + |a| * |b| := h1
    _ ≤ ((1 + u) ^ m - 1) + ((1 + u) ^ n - 1) + ((1 + u) ^ m - 1) * ((1 + u) ^ n - 1) :=
      add_le_add (add_le_add ha hb) h2
    _ = (1 + u) ^ (m + n) - 1 := by rw [pow_add]; ring

theorem factor_mono (hu : 0 ≤ u) {a : ℝ} {m n : ℕ} (hmn : m ≤ n) (ha : |a| ≤ (1 + u) ^ m - 1) :
    |a| ≤ (1 + u) ^ n - 1 :=
  ha.trans (sub_le_sub_right (pow_le_pow_right₀ (by linarith) hmn) 1)

theorem factor_zero (hu : 0 ≤ u) (m : ℕ) : |(0 : ℝ)| ≤ (1 + u) ^ m - 1 := by
  rw [abs_zero]
  have := one_le_pow₀ (n := m) (by linarith : (1 : ℝ) ≤ 1 + u)
  linarith

/-- Horner's scheme with rounding. -/
theorem hornerDown_rounded (h : Rounding rnd u) (f : ℕ → Fl rnd) (t : Fl rnd) (d n : ℕ) :
    ∀ acc : Fl rnd, ∃ (θ : ℕ → ℝ) (η : ℝ), (∀ i, |θ i| ≤ (1 + u) ^ (2 * i + 1) - 1) ∧
      |η| ≤ (1 + u) ^ (2 * n) - 1 ∧
      (hornerDown f t d n acc).val = acc.val * t.val ^ n * (1 + η) +
        ∑ i ∈ Finset.range n, (f (d + i)).val * t.val ^ i * (1 + θ i) := by
  have hu := rounding_nonneg h
  induction n with
  | zero =>
    intro acc
    exact ⟨fun _ => 0, 0, fun i => factor_zero hu _, factor_zero hu _, by simp [hornerDown]⟩
  | succ n ih =>
    intro acc
    obtain ⟨θ, η, h1, h2, h3⟩ := ih (acc * t + f (d + n))
    obtain ⟨δ₁, e1, b1⟩ := rnd_factor h (acc.val * t.val)
    obtain ⟨δ₂, e2, b2⟩ := rnd_factor h (rnd (acc.val * t.val) + (f (d + n)).val)
    obtain ⟨a, ea, ba⟩ := factor_mul hu b2 h2
    obtain ⟨b, eb, bb⟩ := factor_mul hu b1 ba
    have hv : (acc * t + f (d + n)).val = (acc.val * t.val * (1 + δ₁) + (f (d + n)).val) * (1 + δ₂) := by
      rw [← e1, ← e2]
      rfl
    refine ⟨fun i => if i = n then a else θ i, b, ?_, ?_, ?_⟩
    · intro i
      dsimp only
      split_ifs with hi
      · subst hi
        exact factor_mono hu (by omega) ba
      · exact h1 i
    · exact factor_mono hu (by omega) bb
    · rw [hornerDown, h3, hv, Finset.sum_range_succ]
      dsimp only
      have hs : ∑ i ∈ Finset.range n, (f (d + i)).val * t.val ^ i * (1 + if i = n then a else θ i) =
          ∑ i ∈ Finset.range n, (f (d + i)).val * t.val ^ i * (1 + θ i) :=
        Finset.sum_congr rfl fun i hi => by rw [if_neg (Finset.mem_range.mp hi).ne]
      rw [if_pos rfl, hs, ← eb, ← ea]
      ring

/-- The table of coefficients with rounding. -/
theorem baseRow_rounded (h : Rounding rnd u) (size d : ℕ) (j : ℕ) (hj : j < size) :
    ∃ θ, |θ| ≤ (1 + u) ^ (2 * d) - 1 ∧
      ((baseRow size d : List (Fl rnd)).getD j 0).val = (j.descFactorial d : ℝ) * (1 + θ) := by
  have hu := rounding_nonneg h
  induction d with
  | zero =>
    refine ⟨0, factor_zero hu _, ?_⟩
    rw [baseRow, List.getD_eq_getElem?_getD, List.getElem?_replicate, if_pos hj]
    simp only [Nat.descFactorial_zero, Nat.cast_one, add_zero, mul_one, Option.getD_some]
    rfl
  | succ d ih =>
    obtain ⟨θ, h1, h2⟩ := ih
    rw [baseRow, List.getD_eq_getElem?_getD, List.getElem?_map, List.getElem?_range hj, Option.map_some,
      Option.getD_some]
    rw [Nat.descFactorial_succ]
    split_ifs with hd
    · obtain ⟨δ₁, e1, b1⟩ := rnd_factor h ((j - d : ℕ) : ℝ)
      obtain ⟨δ₂, e2, b2⟩ := rnd_factor h (rnd ((j - d : ℕ) : ℝ) * ((baseRow size d : List (Fl rnd)).getD j 0).val)
      obtain ⟨a, ea, ba⟩ := factor_mul hu b1 h1
      obtain ⟨b, eb, bb⟩ := factor_mul hu ba b2
      refine ⟨b, factor_mono hu (by omega) bb, ?_⟩
      change rnd (rnd ((j - d : ℕ) : ℝ) * ((baseRow size d : List (Fl rnd)).getD j 0).val) = _
      rw [e2, e1, h2, ← eb, ← ea]
      push_cast
      ring
    · refine ⟨0, factor_zero hu _, ?_⟩
      rw [show j - d = 0 by omega]
      simp only [zero_mul, Nat.cast_zero]
      rfl

/-- `evaluate` with rounding: every coefficient gets a relative error of its own. -/
theorem evalCore_rounded (h : Rounding rnd u) (p : Poly (Fl rnd)) (t : Fl rnd) (d : ℕ) (hd : d < p.N)
    (hN : p.N ≤ kMaxConvolutionSize) :
    ∃ c : List ℝ, c.length = p.N ∧
      (∀ (j : ℕ) x, p.coeffs[j]? = some x → ∃ θ, |θ| ≤ (1 + u) ^ (2 * (j + 1)) - 1 ∧
        c[j]? = some (x.val * (1 + θ))) ∧
      (p.evalCore t d).val = derivAt c d t.val := by
  have hu := rounding_nonneg h
  have hterm : ∀ j, j < p.N → ∃ θ, |θ| ≤ (1 + u) ^ (2 * d + 1) - 1 ∧
      ((baseCoeff d j : Fl rnd) * p.coeffs.getD j 0).val =
        (j.descFactorial d : ℝ) * (p.coeffs.getD j 0).val * (1 + θ) := by
    intro j hj
    obtain ⟨θ, h1, h2⟩ := baseRow_rounded h kMaxConvolutionSize d j (by omega)
    obtain ⟨δ, e1, b1⟩ := rnd_factor h ((baseCoeff d j : Fl rnd).val * (p.coeffs.getD j 0).val)
    obtain ⟨a, ea, ba⟩ := factor_mul hu h1 b1
    refine ⟨a, ba, ?_⟩
    change rnd ((baseCoeff d j : Fl rnd).val * (p.coeffs.getD j 0).val) = _
    rw [e1, baseCoeff, h2, ← ea]
    ring
  choose! τ hτ1 hτ2 using hterm
  obtain ⟨θ, η, g1, g2, g3⟩ := hornerDown_rounded h (fun j => (baseCoeff d j : Fl rnd) * p.coeffs.getD j 0) t d
    (p.N - 1 - d) (baseCoeff d (p.N - 1) * p.coeffs.getD (p.N - 1) 0)
  -- the relative error of coefficient `j`
  have hrel : ∀ j, ∃ ρ, |ρ| ≤ (1 + u) ^ (2 * (j + 1)) - 1 ∧ (d ≤ j → j < p.N → 1 + ρ =
      (1 + τ j) * (1 + if j = p.N - 1 then η else θ (j - d))) := by
    intro j
    by_cases hj : d ≤ j ∧ j < p.N
    · have : |if j = p.N - 1 then η else θ (j - d)| ≤ (1 + u) ^ (2 * (j - d) + 1) - 1 := by
        split_ifs with he
        · refine factor_mono hu ?_ g2
          omega
        · exact g1 _
      obtain ⟨a, ea, ba⟩ := factor_mul hu (hτ1 j hj.2) this
      exact ⟨a, factor_mono hu (by omega) ba, fun _ _ => ea.symm⟩
    · exact ⟨0, factor_zero hu _, fun h1 h2 => absurd ⟨h1, h2⟩ hj⟩
  choose ρ hρ1 hρ2 using hrel
  refine ⟨(List.range p.N).map fun j => (p.coeffs.getD j 0).val * (1 + ρ j), by simp, ?_, ?_⟩
  · intro j x hx
    have hj : j < p.N := (List.getElem?_eq_some_iff.mp hx).1
    refine ⟨ρ j, hρ1 j, ?_⟩
    rw [List.getElem?_map, List.getElem?_range hj, Option.map_some, List.getD_eq_getElem?_getD, hx,
      Option.getD_some]
  · unfold Poly.evalCore
    dsimp only
    rw [g3, derivAt_eq_sum, List.length_map, List.length_range]
    have hget : ∀ j, j < p.N → ((List.range p.N).map fun j => (p.coeffs.getD j 0).val * (1 + ρ j)).getD j 0 =
        (p.coeffs.getD j 0).val * (1 + ρ j) := by
      intro j hj
      rw [List.getD_eq_getElem?_getD, List.getElem?_map, List.getElem?_range hj]
      rfl
    have h1 : p.N - 1 = d + (p.N - 1 - d) := by omega
    rw [show p.N - d = (p.N - 1 - d) + 1 by omega, Finset.sum_range_succ, add_comm]
    congr 1
    · refine Finset.sum_congr rfl fun i hi => ?_
      have hi := Finset.mem_range.mp hi
      rw [hget _ (by omega), hρ2 (d + i) (by omega) (by omega), if_neg (by omega), hτ2 (d + i) (by omega),
        Nat.add_sub_cancel_left]
      ring
    · rw [← h1, hget _ (by omega), hρ2 (p.N - 1) (by omega) (by omega), if_pos rfl, hτ2 (p.N - 1) (by omega)]
      ring

/-- A sum of products with rounding. -/
theorem foldl_rounded (h : Rounding rnd u) {α : Type} (a b : α → Fl rnd) (l : List α) :
    ∀ acc : Fl rnd, |(l.foldl (fun s x => s + a x * b x) acc).val -
        (acc.val + (l.map fun x => (a x).val * (b x).val).sum)| ≤
      ((1 + u) ^ l.length - 1) * |acc.val| +
        ((1 + u) ^ (l.length + 1) - 1) * (l.map fun x => |(a x).val| * |(b x).val|).sum := by
  have hu := rounding_nonneg h
  induction l with
  | nil => intro acc; simp
  | cons x l ih =>
    intro acc
    have ih := ih (acc + a x * b x)
    obtain ⟨δ₁, e1, b1⟩ := rnd_factor h ((a x).val * (b x).val)
    obtain ⟨δ₂, e2, b2⟩ := rnd_factor h (acc.val + rnd ((a x).val * (b x).val))
    rw [pow_one, add_sub_cancel_left] at b1 b2
    have hv : (acc + a x * b x).val = (acc.val + (a x).val * (b x).val * (1 + δ₁)) * (1 + δ₂) := by
      rw [← e1, ← e2]
      rfl
    simp only [List.foldl_cons, List.map_cons, List.sum_cons, List.length_cons]
    rw [hv] at ih
    set A := acc.val
    set c := (a x).val * (b x).val with hc
    rw [← abs_mul, ← hc]
    set S := (l.map fun x => (a x).val * (b x).val).sum
    set B := (l.map fun x => |(a x).val| * |(b x).val|).sum
    set r := (l.foldl (fun s x => s + a x * b x) (acc + a x * b x)).val
    set p := (1 + u) ^ l.length with hp
    have hp1 : 1 ≤ p := one_le_pow₀ (by linarith)
    have d1 : |1 + δ₁| ≤ 1 + u := (abs_add_le _ _).trans (by rw [abs_one]; linarith)
    have d2 : |1 + δ₂| ≤ 1 + u := (abs_add_le _ _).trans (by rw [abs_one]; linarith)
    have v1 : |(A + c * (1 + δ₁)) * (1 + δ₂)| ≤ (|A| + |c| * (1 + u)) * (1 + u) := by
      rw [abs_mul]
      refine mul_le_mul ((abs_add_le _ _).trans ?_) d2 (abs_nonneg _) (by positivity)
      rw [abs_mul]
      exact add_le_add_right (mul_le_mul_of_nonneg_left d1 (abs_nonneg _)) _
    have v2 : |(A + c * (1 + δ₁)) * (1 + δ₂) - (A + c)| ≤ |A| * u + |c| * ((1 + u) * (1 + u) - 1) := by
      have e : (A + c * (1 + δ₁)) * (1 + δ₂) - (A + c) = A * δ₂ + c * (δ₁ + δ₂ + δ₁ * δ₂) := by ring
      rw [e]
      refine (abs_add_le _ _).trans ?_
      rw [abs_mul, abs_mul]
      refine add_le_add (mul_le_mul_of_nonneg_left b2 (abs_nonneg _)) (mul_le_mul_of_nonneg_left ?_ (abs_nonneg _))
      refine (abs_add_le _ _).trans ?_
      have := abs_add_le δ₁ δ₂
      have := mul_le_mul b1 b2 (abs_nonneg _) hu
      rw [abs_mul]
      nlinarith
    have v3 : |r - (A + (c + S))| ≤ |r - ((A + c * (1 + δ₁)) * (1 + δ₂) + S)| +
        |(A + c * (1 + δ₁)) * (1 + δ₂) - (A + c)| := by
      have e : r - (A + (c + S)) = (r - ((A + c * (1 + δ₁)) * (1 + δ₂) + S)) +
        ((A + c * (1 + δ₁)) * (1 + δ₂) - (A + c)) := by ring
      rw [e]
      exact abs_add_le _ _
    have v4 := mul_le_mul_of_nonneg_left v1 (by linarith : 0 ≤ p - 1)
    have hB : 0 ≤ B := List.sum_nonneg (by
      intro y hy
      obtain ⟨z, -, rfl⟩ := List.mem_map.mp hy
      positivity)
    have q1 : (1 + u) ^ (l.length + 1) = p * (1 + u) := by rw [pow_succ]
    have q2 : (1 + u) ^ (l.length + 1 + 1) = p * (1 + u) * (1 + u) := by rw [pow_succ, pow_succ]
    rw [q1] at ih ⊢
    rw [q2]
    have hup : 0 ≤ p * (1 + u) * u * B := by positivity
    nlinarith

/-- The factor `scale` of the loop with rounding: coefficient number `j + m` is multiplied by the power of `b`
times some relative errors. -/
theorem scaleLoop_rounded (h : Rounding rnd u) (b : Fl rnd) (l : List (Fl rnd)) :
    ∀ (m : ℕ) (scale : Fl rnd), (∃ θ, |θ| ≤ (1 + u) ^ m - 1 ∧ scale.val = b.val ^ m * (1 + θ)) →
    ∀ (j : ℕ) x, l[j]? = some x → ∃ y θ, (scaleLoop b scale l)[j]? = some y ∧ |θ| ≤ (1 + u) ^ (m + j + 1) - 1 ∧
      y.val = x.val * b.val ^ (m + j) * (1 + θ) := by
  have hu := rounding_nonneg h
  induction l with
  | nil => intro m scale _ j x hx; simp at hx
  | cons c l ih =>
    intro m scale ⟨θ, h1, h2⟩ j x hx
    cases j with
    | zero =>
      simp only [List.getElem?_cons_zero, Option.some.injEq] at hx
      subst hx
      obtain ⟨δ, e, bd⟩ := rnd_factor h (c.val * scale.val)
      obtain ⟨a, ea, ba⟩ := factor_mul hu h1 bd
      refine ⟨c * scale, a, rfl, ba, ?_⟩
      change rnd (c.val * scale.val) = _
      rw [e, h2, ← ea, add_zero]
      ring
    | succ j =>
      rw [List.getElem?_cons_succ] at hx
      obtain ⟨δ, e, bd⟩ := rnd_factor h (scale.val * b.val)
      obtain ⟨a, ea, ba⟩ := factor_mul hu h1 bd
      obtain ⟨y, θ', g1, g2, g3⟩ := ih (m + 1) (scale * b) ⟨a, ba, by
        change rnd (scale.val * b.val) = _
        rw [e, h2, ← ea]
        ring⟩ j x hx
      refine ⟨y, θ', g1, ?_, ?_⟩
      · rw [show m + (j + 1) + 1 = m + 1 + j + 1 by omega]; exact g2
      · rw [show m + (j + 1) = m + 1 + j by omega]; exact g3

/-! ### Rounding to 53 bits -/

/-- Rounding to an integer, ties to even. -/
noncomputable def roundEven (x : ℝ) : ℤ :=
  if Even ⌊x + 1 / 2⌋ ∨ Int.fract (x + 1 / 2) ≠ 0 then ⌊x + 1 / 2⌋ else ⌊x + 1 / 2⌋ - 1

theorem roundEven_le (x : ℝ) : roundEven x ≤ ⌊x + 1 / 2⌋ ∧ ⌊x + 1 / 2⌋ - 1 ≤ roundEven x := by
  unfold roundEven
  split_ifs <;> constructor <;> omega

theorem roundEven_mono {x y : ℝ} (h : x ≤ y) : roundEven x ≤ roundEven y := by
  have hm : ⌊x + 1 / 2⌋ ≤ ⌊y + 1 / 2⌋ := Int.floor_mono (by linarith)
  rcases hm.lt_or_eq with hm | hm
  · have := (roundEven_le x).1
    have := (roundEven_le y).2
    omega
  · by_cases hf : Int.fract (y + 1 / 2) = 0
    · have h1 : y + 1 / 2 = ⌊y + 1 / 2⌋ := by
        have := Int.floor_add_fract (y + 1 / 2)
        rw [hf, add_zero] at this
        exact this.symm
      have h2 : (⌊x + 1 / 2⌋ : ℝ) ≤ x + 1 / 2 := Int.floor_le _
      rw [hm, ← h1] at h2
      have : x = y := le_antisymm h (by linarith)
      rw [this]
    · have h1 : roundEven y = ⌊y + 1 / 2⌋ := by
        unfold roundEven
        rw [if_pos (Or.inr hf)]
      rw [h1, ← hm]
      exact (roundEven_le x).1

theorem roundEven_of_lt {x : ℝ} {n : ℤ} (h1 : (n : ℝ) - 1 / 2 < x) (h2 : x < n + 1 / 2) : roundEven x = n := by
  have hf : ⌊x + 1 / 2⌋ = n := by
    rw [Int.floor_eq_iff]
    exact ⟨by linarith, by linarith⟩
  unfold roundEven
  rw [hf, if_pos]
  right
  intro h0
  have := Int.floor_add_fract (x + 1 / 2)
  rw [hf, h0] at this
  linarith

/-- A tie goes to the even number. -/
theorem roundEven_of_even {x : ℝ} {n : ℤ} (hn : Even n) (h1 : (n : ℝ) - 1 / 2 ≤ x) (h2 : x ≤ n + 1 / 2) :
    roundEven x = n := by
  rcases h2.lt_or_eq with h2 | h2
  · have hf : ⌊x + 1 / 2⌋ = n := by
      rw [Int.floor_eq_iff]
      exact ⟨by linarith, by linarith⟩
    unfold roundEven
    rw [hf, if_pos (Or.inl hn)]
  · have e : x + 1 / 2 = ((n + 1 : ℤ) : ℝ) := by push_cast; linarith
    unfold roundEven
    rw [e, Int.floor_intCast, Int.fract_intCast, if_neg]
    · omega
    · rintro (h | h)
      · exact absurd hn (Int.not_even_iff_odd.mpr (by
          have := h.sub_odd odd_one
          rwa [add_sub_cancel_right] at this))
      · exact h rfl

theorem roundEven_intCast (n : ℤ) : roundEven n = n := roundEven_of_lt (by linarith) (by linarith)

theorem abs_sub_roundEven (x : ℝ) : |x - roundEven x| ≤ 1 / 2 := by
  have h1 := Int.floor_le (x + 1 / 2)
  have h2 := Int.lt_floor_add_one (x + 1 / 2)
  rw [abs_le]
  unfold roundEven
  split_ifs with h
  · exact ⟨by linarith, by linarith⟩
  · rw [not_or, not_not] at h
    have := Int.floor_add_fract (x + 1 / 2)
    rw [h.2, add_zero] at this
    push_cast
    exact ⟨by linarith, by linarith⟩

/-- Rounding to 53 significant bits, ties to even, of a positive number. -/
noncomputable def roundPos (x : ℝ) : ℝ := roundEven (x / 2 ^ (Int.log 2 x - 52)) * 2 ^ (Int.log 2 x - 52)

/-- Rounding to 53 significant bits with unlimited exponents. -/
noncomputable def round53 (x : ℝ) : ℝ := if x < 0 then -roundPos (-x) else if x = 0 then 0 else roundPos x

/-- The value of `roundPos` by its binade. -/
theorem roundPos_eq {x : ℝ} {e : ℤ} (h1 : (2 : ℝ) ^ e ≤ x) (h2 : x < 2 ^ (e + 1)) :
    roundPos x = roundEven (x / 2 ^ (e - 52)) * 2 ^ (e - 52) := by
  have hx : 0 < x := lt_of_lt_of_le (by positivity) h1
  have : Int.log 2 x = e := by
    apply le_antisymm
    · have := (Int.lt_zpow_iff_log_lt (b := 2) (by norm_num) hx (x := e + 1)).mp (by exact_mod_cast h2)
      omega
    · exact (Int.zpow_le_iff_le_log (b := 2) (by norm_num) hx).mp (by exact_mod_cast h1)
  unfold roundPos
  rw [this]

theorem exists_binade {x : ℝ} (hx : 0 < x) : ∃ e : ℤ, (2 : ℝ) ^ e ≤ x ∧ x < 2 ^ (e + 1) :=
  ⟨Int.log 2 x, by exact_mod_cast Int.zpow_log_le_self (b := 2) (by norm_num) hx,
    by exact_mod_cast Int.lt_zpow_succ_log_self (b := 2) (by norm_num) x⟩

/-- A rounded number is in the closed binade of the number. -/
theorem roundPos_binade {x : ℝ} {e : ℤ} (h1 : (2 : ℝ) ^ e ≤ x) (h2 : x < 2 ^ (e + 1)) :
    (2 : ℝ) ^ e ≤ roundPos x ∧ roundPos x ≤ 2 ^ (e + 1) := by
  have hq : (0 : ℝ) < 2 ^ (e - 52) := by positivity
  have e1 : (2 : ℝ) ^ e = ((2 ^ 52 : ℤ) : ℝ) * 2 ^ (e - 52) := by
    rw [zpow_sub₀ (by norm_num)]
    field_simp
    norm_num
  have e2 : (2 : ℝ) ^ (e + 1) = ((2 ^ 53 : ℤ) : ℝ) * 2 ^ (e - 52) := by
    rw [zpow_add₀ (by norm_num), e1]
    push_cast
    ring
  rw [roundPos_eq h1 h2, e1, e2]
  rw [e1] at h1
  rw [e2] at h2
  have g1 : ((2 ^ 52 : ℤ) : ℝ) ≤ x / 2 ^ (e - 52) := by rw [le_div_iff₀ hq]; exact h1
  have g2 : x / 2 ^ (e - 52) ≤ ((2 ^ 53 : ℤ) : ℝ) := by rw [div_le_iff₀ hq]; exact h2.le
  have k1 := roundEven_mono g1
  have k2 := roundEven_mono g2
  rw [roundEven_intCast] at k1 k2
  exact ⟨mul_le_mul_of_nonneg_right (by exact_mod_cast k1) hq.le,
    mul_le_mul_of_nonneg_right (by exact_mod_cast k2) hq.le⟩

theorem roundPos_rel {x : ℝ} (hx : 0 < x) : |roundPos x - x| ≤ 1 / 2 ^ 53 * x := by
  obtain ⟨e, h1, h2⟩ := exists_binade hx
  rw [roundPos_eq h1 h2]
  have hq : (0 : ℝ) < 2 ^ (e - 52) := by positivity
  have h3 := abs_sub_roundEven (x / 2 ^ (e - 52))
  have h4 : (roundEven (x / 2 ^ (e - 52)) : ℝ) * 2 ^ (e - 52) - x =
      -((x / 2 ^ (e - 52) - roundEven (x / 2 ^ (e - 52))) * 2 ^ (e - 52)) := by field_simp; ring
  rw [h4, abs_neg, abs_mul, abs_of_pos hq]
  calc _ ≤ 1 / 2 * (2 : ℝ) ^ (e - 52) := mul_le_mul_of_nonneg_right h3 hq.le
    _ = 1 / 2 ^ 53 * 2 ^ e := by
      rw [zpow_sub₀ (by norm_num)]
      norm_num
      ring
    _ ≤ _ := mul_le_mul_of_nonneg_left h1 (by positivity)

theorem roundPos_mono {x y : ℝ} (hx : 0 < x) (hxy : x ≤ y) : roundPos x ≤ roundPos y := by
  obtain ⟨e, h1, h2⟩ := exists_binade hx
  obtain ⟨f, g1, g2⟩ := exists_binade (hx.trans_le hxy)
  by_cases hef : f ≤ e
  · have : f = e := by
      apply le_antisymm hef
      have : (2 : ℝ) ^ e < 2 ^ (f + 1) := (h1.trans hxy).trans_lt g2
      have := (zpow_lt_zpow_iff_right₀ (by norm_num : (1 : ℝ) < 2)).mp this
      omega
    subst this
    rw [roundPos_eq h1 h2, roundPos_eq g1 g2]
    have hq : (0 : ℝ) < 2 ^ (f - 52) := by positivity
    refine mul_le_mul_of_nonneg_right ?_ hq.le
    exact_mod_cast roundEven_mono (div_le_div_of_nonneg_right hxy hq.le)
  · have a := (roundPos_binade h1 h2).2
    have b := (roundPos_binade g1 g2).1
    have : (2 : ℝ) ^ (e + 1) ≤ 2 ^ f := zpow_le_zpow_right₀ (by norm_num) (by omega)
    linarith

theorem roundPos_idem {x : ℝ} (hx : 0 < x) : 0 < roundPos x ∧ roundPos (roundPos x) = roundPos x := by
  obtain ⟨e, h1, h2⟩ := exists_binade hx
  obtain ⟨b1, b2⟩ := roundPos_binade h1 h2
  have hpos : 0 < roundPos x := lt_of_lt_of_le (by positivity) b1
  refine ⟨hpos, ?_⟩
  rcases b2.lt_or_eq with b2 | b2
  · rw [roundPos_eq b1 b2, roundPos_eq h1 h2]
    have hq : (2 : ℝ) ^ (e - 52) ≠ 0 := by positivity
    rw [mul_div_assoc, div_self hq, mul_one, roundEven_intCast]
  · rw [b2, roundPos_eq le_rfl (zpow_lt_zpow_right₀ (by norm_num) (by omega))]
    rw [← zpow_sub₀ (by norm_num), show e + 1 - (e + 1 - 52) = 52 by ring]
    rw [show (2 : ℝ) ^ (52 : ℤ) = ((2 ^ 52 : ℤ) : ℝ) by norm_num, roundEven_intCast,
      show (((2 ^ 52 : ℤ) : ℤ) : ℝ) = (2 : ℝ) ^ (52 : ℤ) by norm_num, ← zpow_add₀ (by norm_num)]
    congr 1
    ring

theorem round53_rounding : Rounding round53 (1 / 2 ^ 53) where
  rel x := by
    unfold round53
    split_ifs with h1 h2
    · have := roundPos_rel (neg_pos.mpr h1)
      rw [abs_of_neg h1]
      rw [abs_sub_comm] at this
      calc |-roundPos (-x) - x| = |-x - roundPos (-x)| := by congr 1; ring
        _ ≤ _ := this
    · simp [h2]
    · have hx : 0 < x := lt_of_le_of_ne (not_lt.mp h1) (Ne.symm h2)
      rw [abs_of_pos hx]
      exact roundPos_rel hx
  mono x y hxy := by
    unfold round53
    have neg : ∀ z : ℝ, z < 0 → -roundPos (-z) < 0 := fun z hz =>
      neg_lt_zero.mpr (roundPos_idem (neg_pos.mpr hz)).1
    have pos : ∀ z : ℝ, ¬ z < 0 → z ≠ 0 → 0 < roundPos z := fun z hz h0 =>
      (roundPos_idem (lt_of_le_of_ne (not_lt.mp hz) (Ne.symm h0))).1
    by_cases hx : x < 0
    · rw [if_pos hx]
      by_cases hy : y < 0
      · rw [if_pos hy]
        exact neg_le_neg (roundPos_mono (neg_pos.mpr hy) (neg_le_neg hxy))
      · rw [if_neg hy]
        split_ifs with h0
        · exact (neg x hx).le
        · exact ((neg x hx).trans (pos y hy h0)).le
    · have hy : ¬ y < 0 := by linarith
      rw [if_neg hx, if_neg hy]
      split_ifs with h0 h1
      · exact le_rfl
      · exact (pos y hy h1).le
      · exact absurd (le_antisymm (by linarith) (not_lt.mp hx)) h0
      · exact roundPos_mono (lt_of_le_of_ne (not_lt.mp hx) (Ne.symm h0)) hxy
  idem x := by
    unfold round53
    by_cases hx : x < 0
    · have := roundPos_idem (neg_pos.mpr hx)
      rw [if_pos hx, if_pos (by linarith [this.1]), neg_neg, this.2]
    · rw [if_neg hx]
      by_cases h0 : x = 0
      · rw [if_pos h0]; simp
      · have := roundPos_idem (lt_of_le_of_ne (not_lt.mp hx) (Ne.symm h0))
        rw [if_neg h0, if_neg (by linarith [this.1]), if_neg (by linarith [this.1]), this.2]

end Verif
