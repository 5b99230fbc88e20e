import Verif.Model.TestHelpers
import Verif.Proofs.Double
import Mathlib.Algebra.Order.Floor.Ring
import Mathlib.Algebra.Order.Archimedean.Basic
import Mathlib.Tactic.FieldSimp

/-
Property C145: random numbers of the test helpers are in their interval and spread over it; matrices are compared entry by
entry.
-/
namespace Verif

open Spec

section Exact
variable {K : Type} [Field K] [LinearOrder K] [IsStrictOrderedRing K]

/-- **C145.** In exact arithmetic a random number is in its interval, and both ends occur. -/
theorem C145_interval (lo hi : K) (h : lo ≤ hi) (k r : ℕ) (hr : 0 < r) (hk : k ≤ r) :
    lo ≤ createRandomDouble lo hi ((k : K) / r) ∧ createRandomDouble lo hi ((k : K) / r) ≤ hi ∧
      (k = 0 → createRandomDouble lo hi ((k : K) / r) = lo) ∧ (k = r → createRandomDouble lo hi ((k : K) / r) = hi) := by
  unfold createRandomDouble
  have hr' : (0 : K) < r := by exact_mod_cast hr
  have hk' : (k : K) ≤ r := by exact_mod_cast hk
  have h0 : 0 ≤ (k : K) / r := by positivity
  have h1 : (k : K) / r ≤ 1 := (div_le_one hr').mpr hk'
  have h2 : 0 ≤ hi - lo := sub_nonneg.mpr h
  refine ⟨by nlinarith, by nlinarith, ?_, ?_⟩
  · rintro rfl
    simp
  · rintro rfl
    rw [div_self hr'.ne']
    ring

/-- **C145.** The random numbers are spread evenly over the interval: each point of it is within `(hi - lo) / RAND_MAX` of
one. -/
theorem C145_spread [FloorSemiring K] (lo hi x : K) (h1 : lo ≤ x) (h2 : x ≤ hi) (r : ℕ) (hr : 0 < r) :
    ∃ k ≤ r, |createRandomDouble lo hi ((k : K) / r) - x| ≤ (hi - lo) / r := by
  have hr' : (0 : K) < r := by exact_mod_cast hr
  rcases eq_or_lt_of_le (h1.trans h2) with h | h
  · refine ⟨0, Nat.zero_le _, ?_⟩
    have : x = lo := le_antisymm (h2.trans h.symm.le) h1
    rw [this, h]
    simp [createRandomDouble]
  · have hw : 0 < hi - lo := sub_pos.mpr h
    have hy0 : 0 ≤ (x - lo) / (hi - lo) * r := mul_nonneg (div_nonneg (sub_nonneg.mpr h1) hw.le) hr'.le
    have hfl := Nat.floor_le hy0
    have hlt := Nat.lt_floor_add_one ((x - lo) / (hi - lo) * r)
    refine ⟨⌊(x - lo) / (hi - lo) * r⌋₊, ?_, ?_⟩
    · have : (x - lo) / (hi - lo) * r ≤ r := by
        have : (x - lo) / (hi - lo) ≤ 1 := (div_le_one hw).mpr (by linarith)
        nlinarith
      exact_mod_cast hfl.trans this
    · set n : K := (⌊(x - lo) / (hi - lo) * r⌋₊ : K) with hn
      have e : createRandomDouble lo hi (n / r) - x = (n - (x - lo) / (hi - lo) * r) * ((hi - lo) / r) := by
        unfold createRandomDouble
        field_simp
        ring
      rw [e, abs_mul, abs_of_pos (div_pos hw hr')]
      have : |n - (x - lo) / (hi - lo) * r| ≤ 1 := abs_le.mpr ⟨by linarith, by linarith⟩
      calc _ ≤ 1 * ((hi - lo) / r) := mul_le_mul_of_nonneg_right this (div_pos hw hr').le
        _ = _ := one_mul _

/-- **C145.** Matrices of the same size, with at least one entry, compare equal exactly if all pairs of entries are closer
than the tolerance. -/
theorem C145_matrices (m1 m2 : List (List K)) (tol : K) (hs : m1.map List.length = m2.map List.length)
    (hne : ∃ row ∈ m1, row ≠ []) : ∃ b, checkMatrices m1 m2 tol = .ok b ∧
      (b = true ↔ ∀ (i j : ℕ) r1 r2 x y, m1[i]? = some r1 → m2[i]? = some r2 → r1[j]? = some x → r2[j]? = some y →
        |x - y| < tol) := by
  have hmem : ∀ z, z ∈ (List.zipWith (List.zipWith fun a b => |a - b|) m1 m2).flatten ↔
      ∃ (i j : ℕ) (r1 r2 : List K) (x y : K), m1[i]? = some r1 ∧ m2[i]? = some r2 ∧ r1[j]? = some x ∧ r2[j]? = some y ∧ |x - y| = z := by
    intro z
    rw [List.mem_flatten]
    constructor
    · rintro ⟨row, h1, h2⟩
      obtain ⟨i, hi⟩ := List.mem_iff_getElem?.mp h1
      obtain ⟨j, hj⟩ := List.mem_iff_getElem?.mp h2
      rw [List.getElem?_zipWith_eq_some] at hi
      obtain ⟨r1, r2, e1, e2, rfl⟩ := hi
      rw [List.getElem?_zipWith_eq_some] at hj
      obtain ⟨x, y, e3, e4, rfl⟩ := hj
      exact ⟨i, j, r1, r2, x, y, e1, e2, e3, e4, rfl⟩
    · rintro ⟨i, j, r1, r2, x, y, e1, e2, e3, e4, rfl⟩
      refine ⟨_, List.mem_iff_getElem?.mpr ⟨i, List.getElem?_zipWith_eq_some.mpr ⟨r1, r2, e1, e2, rfl⟩⟩,
        List.mem_iff_getElem?.mpr ⟨j, List.getElem?_zipWith_eq_some.mpr ⟨x, y, e3, e4, rfl⟩⟩⟩
  have hfold : ∀ (xs : List K) (x t : K), xs.foldl max x < t ↔ x < t ∧ ∀ z ∈ xs, z < t := by
    intro xs
    induction xs with
    | nil => intro x t; simp
    | cons a xs ih =>
      intro x t
      rw [List.foldl_cons, ih, max_lt_iff]
      simp only [List.mem_cons, forall_eq_or_imp]
      tauto
  unfold checkMatrices
  rw [if_pos hs]
  rcases hl : (List.zipWith (List.zipWith fun a b => |a - b|) m1 m2).flatten with _ | ⟨x, xs⟩
  · exfalso
    obtain ⟨row, hrow, hr⟩ := hne
    obtain ⟨i, hi⟩ := List.mem_iff_getElem?.mp hrow
    obtain ⟨a, l, rfl⟩ := List.exists_cons_of_ne_nil hr
    have h1 : (m1.map List.length)[i]? = some (l.length + 1) := by rw [List.getElem?_map, hi]; rfl
    rw [hs, List.getElem?_map, Option.map_eq_some_iff] at h1
    obtain ⟨r2, h2, h3⟩ := h1
    obtain ⟨b, l2, rfl⟩ := List.exists_cons_of_length_eq_add_one h3
    have := (hmem |a - b|).mpr ⟨i, 0, _, _, a, b, hi, h2, rfl, rfl, rfl⟩
    rw [hl] at this
    cases this
  · refine ⟨_, rfl, ?_⟩
    rw [decide_eq_true_iff, hfold]
    have key : (x < tol ∧ ∀ z ∈ xs, z < tol) ↔ ∀ z ∈ x :: xs, z < tol := by simp
    rw [key, ← hl]
    constructor
    · intro h i j r1 r2 x y e1 e2 e3 e4
      exact h _ ((hmem _).mpr ⟨i, j, r1, r2, x, y, e1, e2, e3, e4, rfl⟩)
    · intro h z hz
      obtain ⟨i, j, r1, r2, x, y, e1, e2, e3, e4, rfl⟩ := (hmem z).mp hz
      exact h i j r1 r2 x y e1 e2 e3 e4

/-- **C145**, without entries or with different sizes the comparison is undefined. -/
theorem C145_undefined (m1 m2 : List (List K)) (tol : K)
    (h : m1.map List.length ≠ m2.map List.length ∨ ∀ row ∈ m1, row = []) : checkMatrices m1 m2 tol = .ub := by
  unfold checkMatrices
  split_ifs with hs
  · rcases h with h | h
    · exact absurd hs h
    · rcases hl : (List.zipWith (List.zipWith fun a b => |a - b|) m1 m2).flatten with _ | ⟨x, xs⟩
      · rfl
      · exfalso
        have hx : x ∈ (List.zipWith (List.zipWith fun a b => |a - b|) m1 m2).flatten := by rw [hl]; exact List.mem_cons_self
        obtain ⟨row, h1, h2⟩ := List.mem_flatten.mp hx
        obtain ⟨i, hi⟩ := List.mem_iff_getElem?.mp h1
        rw [List.getElem?_zipWith_eq_some] at hi
        obtain ⟨r1, r2, e1, e2, rfl⟩ := hi
        rw [h r1 (List.mem_of_getElem? e1)] at h2
        simp at h2
  · rfl

end Exact

theorem isDouble_int {m : ℤ} (h : |m| < 2 ^ 53) : IsDouble m := ⟨m, 0, h, by norm_num, by norm_num, by simp⟩

/-- The quotient is in `[0, 1]`. -/
theorem randomQuotient_unit (k r : ℕ) (hr : 0 < r) (hk : k ≤ r) :
    ∃ q, randomQuotient k r = .fin q ∧ 0 ≤ q ∧ q ≤ 1 ∧ (k = r → q = 1) := by
  have hr' : (0 : ℝ) < r := by exact_mod_cast hr
  have h0 : 0 ≤ (k : ℝ) / r := by positivity
  have h1 : (k : ℝ) / r ≤ 1 := (div_le_one hr').mpr (by exact_mod_cast hk)
  have hb : |(k : ℝ) / r| ≤ (2 : ℝ) ^ (1023 : ℤ) := by
    rw [abs_of_nonneg h0]
    exact h1.trans (one_le_zpow₀ (by norm_num) (by norm_num))
  have e := ofReal_half hb
  have hn := ofReal_nearest e
  have d0 : IsDouble 0 := by simpa using isDouble_int (m := 0) (by norm_num)
  have d1 : IsDouble 1 := by simpa using isDouble_int (m := 1) (by norm_num)
  have n0 := abs_le.mp (hn.2 0 d0)
  have n1 := abs_le.mp (hn.2 1 d1)
  rw [zero_sub, abs_neg, abs_of_nonneg h0] at n0
  rw [abs_of_nonneg (by linarith)] at n1
  refine ⟨_, e, by linarith, by linarith, ?_⟩
  rintro rfl
  rw [div_self hr'.ne'] at n1 ⊢
  linarith

/-- **C145**, partial: in double arithmetic a random number is finite, not below the interval, and above it by no more than
three relative errors of the ends. Missing: that it is not above the interval at all, which is false (`C145_above_false`). -/
theorem C145_double_partial (lo hi : ℝ) (hlo : IsDouble lo) (h : lo ≤ hi)
    (h1 : |lo| ≤ (2 : ℝ) ^ (1021 : ℤ)) (h2 : |hi| ≤ (2 : ℝ) ^ (1021 : ℤ)) (hhi : IsDouble hi) (k r : ℕ) (hr : 0 < r) (hk : k ≤ r) :
    ∃ v, createRandomDouble (.fin lo) (.fin hi) (randomQuotient k r) = .fin v ∧ lo ≤ v ∧
      v ≤ hi + 3 / 2 ^ 53 * (|lo| + |hi|) := by
  obtain ⟨q, hq, q0, q1, -⟩ := randomQuotient_unit k r hr hk
  have hM : (2 : ℝ) ^ (1023 : ℤ) = 4 * (2 : ℝ) ^ (1021 : ℤ) := by
    rw [show (1023 : ℤ) = 2 + 1021 by norm_num, zpow_add₀ (by norm_num)]
    norm_num
  have half : ∀ {x : ℝ}, |x| ≤ 4 * (2 : ℝ) ^ (1021 : ℤ) → Dbl.ofReal x = .fin (round64 x) := fun hx => ofReal_half (hM ▸ hx)
  clear hM
  generalize (2 : ℝ) ^ (1021 : ℤ) = M at *
  have a1 := abs_le.mp h1
  have a2 := abs_le.mp h2
  have d0 : IsDouble 0 := by simpa using isDouble_int (m := 0) (by norm_num)
  -- the width
  have e1 := half (x := hi - lo) (abs_le.mpr ⟨by linarith, by linarith⟩)
  have nd := ofReal_nearest e1
  set d := round64 (hi - lo) with hd
  have hd0 : 0 ≤ d := by
    have := abs_le.mp (nd.2 0 d0)
    rw [zero_sub, abs_neg, abs_of_nonneg (by linarith)] at this
    linarith
  have hd1 : d ≤ (hi - lo) * (1 + 1 / 2 ^ 53) := by
    have e : d = round53 (hi - lo) := by
      rw [hd, sub_eq_add_neg, round64_add hhi hlo.neg]
    obtain ⟨δ, k1, k2⟩ := rnd_factor round53_rounding (hi - lo)
    rw [e, k1]
    have := (abs_le.mp k2).2
    exact mul_le_mul_of_nonneg_left (by linarith) (by linarith)
  -- the product
  have hdq : d * q ≤ d := by nlinarith
  have hdq0 : 0 ≤ d * q := mul_nonneg hd0 q0
  have hdM : d ≤ 3 * M := by nlinarith
  have e2 := half (x := d * q) (abs_le.mpr ⟨by linarith, by linarith⟩)
  have nm := ofReal_nearest e2
  set m := round64 (d * q) with hm
  have m0 : 0 ≤ m := by
    have := abs_le.mp (nm.2 0 d0)
    rw [zero_sub, abs_neg, abs_of_nonneg hdq0] at this
    linarith
  have m1 : m ≤ d := by
    have := abs_le.mp (nm.2 d nd.1)
    rw [abs_of_nonneg (by linarith : 0 ≤ d - d * q)] at this
    linarith
  -- the sum
  have e3 := half (x := m + lo) (abs_le.mpr ⟨by linarith, by linarith⟩)
  have nv := ofReal_nearest e3
  have hv := round64_add nm.1 hlo
  refine ⟨round64 (m + lo), ?_, ?_, ?_⟩
  · unfold createRandomDouble
    rw [hq, fin_sub, e1, fin_mul, e2, fin_add, e3]
  · have := abs_le.mp (nv.2 lo hlo)
    rw [abs_of_nonpos (by linarith : lo - (m + lo) ≤ 0)] at this
    linarith
  · rw [hv]
    obtain ⟨δ, k1, k2⟩ := rnd_factor round53_rounding (m + lo)
    rw [k1]
    have b1 : m + lo ≤ hi + (hi - lo) * (1 / 2 ^ 53) := by linarith
    have b4 : hi - lo ≤ |lo| + |hi| := by linarith [le_abs_self hi, neg_abs_le lo]
    have b2 : |m + lo| ≤ 2 * (|lo| + |hi|) := by
      refine abs_le.mpr ⟨?_, ?_⟩
      · linarith [neg_abs_le lo, abs_nonneg hi, abs_nonneg lo]
      · linarith [le_abs_self hi, abs_nonneg lo]
    have b3 : (m + lo) * δ ≤ |m + lo| * (1 / 2 ^ 53) := by
      have k3 : |δ| ≤ 1 / 2 ^ 53 := by rwa [pow_one, add_sub_cancel_left] at k2
      calc (m + lo) * δ ≤ |(m + lo) * δ| := le_abs_self _
        _ = |m + lo| * |δ| := abs_mul _ _
        _ ≤ _ := mul_le_mul_of_nonneg_left k3 (abs_nonneg _)
    linarith

/-- **C145**, in double arithmetic the lower end occurs, and an interval of one number has only this one. -/
theorem C145_double_ends (lo hi : ℝ) (hlo : IsDouble lo) (r : ℕ) (hr : 0 < r) :
    (|hi - lo| ≤ (2 : ℝ) ^ (1023 : ℤ) → createRandomDouble (.fin lo) (.fin hi) (randomQuotient 0 r) = .fin lo) ∧
      ∀ k ≤ r, createRandomDouble (.fin lo) (.fin lo) (randomQuotient k r) = .fin lo := by
  have fixed : ∀ {x : ℝ}, IsDouble x → Dbl.ofReal x = .fin x := by
    intro x hx
    unfold Dbl.ofReal
    rw [hx.round64, if_pos hx.lt]
  have z : Dbl.ofReal 0 = .fin 0 := fixed (by simpa using isDouble_int (m := 0) (by norm_num))
  constructor
  · intro h
    unfold createRandomDouble randomQuotient
    rw [Nat.cast_zero, zero_div, z, fin_sub, ofReal_half h, fin_mul, mul_zero, z, fin_add, zero_add, fixed hlo]
  · intro k hk
    obtain ⟨q, hq, -⟩ := randomQuotient_unit k r hr hk
    unfold createRandomDouble
    rw [hq, fin_sub, sub_self, z, fin_mul, zero_mul, z, fin_add, zero_add, fixed hlo]

/-- **C145** is false in double arithmetic at the upper end: the largest random number between `-2^53 - 2` and `1.5` is 2. -/
theorem C145_above_false : ∃ lo hi v : ℝ, IsDouble lo ∧ IsDouble hi ∧ lo < hi ∧ hi < v ∧
    ∀ r : ℕ, 0 < r → createRandomDouble (.fin lo) (.fin hi) (randomQuotient r r) = .fin v := by
  have hlo : IsDouble (-(2 ^ 53) - 2) := ⟨-(2 ^ 52) - 1, 1, by norm_num, by norm_num, by norm_num, by norm_num⟩
  have hhi : IsDouble (3 / 2) := ⟨3, -1, by norm_num, by norm_num, by norm_num, by norm_num⟩
  refine ⟨-(2 ^ 53) - 2, 3 / 2, 2, hlo, hhi, by norm_num, by norm_num, fun r hr => ?_⟩
  obtain ⟨q, hq, -, -, h1⟩ := randomQuotient_unit r r hr le_rfl
  have big : (2 : ℝ) ^ 60 ≤ (2 : ℝ) ^ (1023 : ℤ) := by
    rw [← zpow_natCast]
    exact zpow_le_zpow_right₀ (by norm_num) (by norm_num)
  have fixed : ∀ {x : ℝ}, IsDouble x → Dbl.ofReal x = .fin x := by
    intro x hx
    unfold Dbl.ofReal
    rw [hx.round64, if_pos hx.lt]
  have d4 : IsDouble (2 ^ 53 + 4) := ⟨2 ^ 52 + 2, 1, by norm_num, by norm_num, by norm_num, by norm_num⟩
  have d2 : IsDouble 2 := ⟨2, 0, by norm_num, by norm_num, by norm_num, by norm_num⟩
  have e1 : Dbl.ofReal (3 / 2 - (-(2 ^ 53) - 2)) = .fin (2 ^ 53 + 4) := by
    have e := ofReal_half (x := 3 / 2 - (-(2 ^ 53) - 2)) (le_trans (by rw [abs_of_pos (by norm_num)]; norm_num) big)
    have hn := ofReal_nearest e
    rw [e]
    congr 1
    generalize round64 (3 / 2 - (-(2 ^ 53) - 2)) = d at hn
    obtain ⟨⟨m, ex, hm, -, -, rfl⟩, hn⟩ := hn
    have h4 := hn _ d4
    rw [show |(2 : ℝ) ^ 53 + 4 - (3 / 2 - (-(2 ^ 53) - 2))| = 1 / 2 by norm_num, abs_le] at h4
    have hm' : (m : ℝ) < 2 ^ 53 := by exact_mod_cast (abs_lt.mp hm).2
    have hex : 1 ≤ ex := by
      by_contra hc
      have : (2 : ℝ) ^ ex ≤ 1 := zpow_le_one_of_neg (by omega)
      have hp := zpow2_pos ex
      nlinarith
    obtain ⟨n, rfl⟩ : ∃ n : ℕ, ex = n + 1 := ⟨(ex - 1).toNat, by omega⟩
    have ez : (m : ℝ) * (2 : ℝ) ^ ((n : ℤ) + 1) = ((2 * (m * 2 ^ n) : ℤ) : ℝ) := by
      rw [zpow_add₀ (by norm_num), zpow_natCast, zpow_one]
      push_cast
      ring
    rw [ez] at h4 ⊢
    have l1 : (2 : ℤ) ^ 53 + 3 ≤ 2 * (m * 2 ^ n) := by
      have : ((2 ^ 53 + 3 : ℤ) : ℝ) ≤ ((2 * (m * 2 ^ n) : ℤ) : ℝ) := by push_cast at h4 ⊢; linarith [h4.1]
      exact_mod_cast this
    have l2 : 2 * (m * 2 ^ n) ≤ (2 : ℤ) ^ 53 + 4 := by
      have : ((2 * (m * 2 ^ n) : ℤ) : ℝ) ≤ ((2 ^ 53 + 4 : ℤ) : ℝ) := by push_cast at h4 ⊢; linarith [h4.2]
      exact_mod_cast this
    have l3 : 2 * (m * 2 ^ n) = (2 : ℤ) ^ 53 + 4 := by omega
    rw [l3]
    norm_num
  unfold createRandomDouble
  rw [hq, h1 rfl, fin_sub, e1, fin_mul, mul_one, fixed d4, fin_add,
    show (2 : ℝ) ^ 53 + 4 + (-(2 ^ 53) - 2) = 2 by norm_num, fixed d2]

/-! Cases that meet the hypotheses. -/

/-- A number between 1 and 3 for a quarter of the range. -/
example : createRandomDouble (1 : ℚ) 3 ((1 : ℕ) / (4 : ℕ)) = 3 / 2 := by decide +kernel

example : (1 : ℚ) ≤ createRandomDouble (1 : ℚ) 3 (((1 : ℕ) : ℚ) / ((4 : ℕ) : ℚ)) :=
  (C145_interval 1 3 (by norm_num) 1 4 (by norm_num) (by norm_num)).1

example : ∃ k : ℕ, k ≤ 10 ∧
    |createRandomDouble (0 : ℚ) 1 ((k : ℚ) / ((10 : ℕ) : ℚ)) - 1 / 3| ≤ (1 - 0) / ((10 : ℕ) : ℚ) :=
  C145_spread 0 1 (1 / 3) (by norm_num) (by norm_num) 10 (by norm_num)

/-- Two matrices that differ in one entry, with a tolerance above and one at the difference. -/
example : checkMatrices [[(1 : ℚ), 2], [3, 4]] [[1, 2], [3, 5]] 2 = .ok true ∧
    checkMatrices [[(1 : ℚ), 2], [3, 4]] [[1, 2], [3, 5]] 1 = .ok false := by
  decide +kernel

example : ∃ b, checkMatrices [[(1 : ℚ), 2], [3, 4]] [[1, 2], [3, 5]] 1 = .ok b ∧
    (b = true ↔ ∀ (i j : ℕ) r1 r2 x y, [[(1 : ℚ), 2], [3, 4]][i]? = some r1 → [[(1 : ℚ), 2], [3, 5]][i]? = some r2 →
      r1[j]? = some x → r2[j]? = some y → |x - y| < 1) :=
  C145_matrices _ _ _ rfl ⟨[1, 2], by simp, by simp⟩

example : checkMatrices [[], []] [[], []] (1 : ℚ) = .ub := C145_undefined _ _ _ (Or.inr (by simp))

example : ∃ v, createRandomDouble (.fin 0) (.fin 1) (randomQuotient 5 7) = .fin v ∧ 0 ≤ v ∧
    v ≤ 1 + 3 / 2 ^ 53 * (|0| + |1|) :=
  C145_double_partial 0 1 (by simpa using isDouble_int (m := 0) (by norm_num)) (by norm_num)
    (by rw [abs_zero]; exact (zpow2_pos _).le) (by rw [abs_one]; exact one_le_zpow₀ (by norm_num) (by norm_num))
    (by simpa using isDouble_int (m := 1) (by norm_num)) 5 7 (by norm_num) (by norm_num)

example : createRandomDouble (.fin 1) (.fin 1) (randomQuotient 3 7) = .fin 1 :=
  (C145_double_ends 1 1 (by simpa using isDouble_int (m := 1) (by norm_num)) 7 (by norm_num)).2 3 (by norm_num)

end Verif
