import Mathlib.Algebra.Order.Ring.Rat
import Mathlib.Analysis.SpecialFunctions.Log.Basic
import Verif.Proofs.RpolyTermination

/-
Properties C50 (quadratic formula), C51 (synthetic division), C61 (memory safety of the root finder), C62 (the
root finder returns), C63 (what the reported zeros are) and C64 (its buffers).
`Spec.decPoly` is the polynomial with coefficients in decreasing order, `Spec.ExactMath m` says that `m` is
exact real arithmetic, `Spec.Deflation ε p zs o` says how `zs` are split off `p`.
-/
set_option linter.unusedSectionVars false

namespace Verif

open Spec Polynomial

/-- Exact arithmetic with the constants of the C++ library. -/
noncomputable def realMath : RMath ℝ where
  fabs x := |x|
  sqrt := Real.sqrt
  isZero x := decide (x = 0)
  eps := 1 / 2 ^ 52
  dblMin := 1 / 2 ^ 1022
  fltMin := 1 / 2 ^ 126
  fltMax := (2 - 1 / 2 ^ 23) * 2 ^ 127
  est a b n := if a = 0 then 0 else Real.exp ((Real.log a - Real.log b) / n)
  pow2 x := 2 ^ (if 0 ≤ Real.log x / Real.log 2 + 1 / 2 then ⌊Real.log x / Real.log 2 + 1 / 2⌋
    else ⌈Real.log x / Real.log 2 + 1 / 2⌉)
  cosr := -(69756 / 1000000)
  sinr := 997564 / 1000000
  sqrtHalf := Real.sqrt (1 / 2)

theorem realMath_exact : ExactMath realMath where
  fabs _ := rfl
  sqrt _ := rfl
  isZero x := by simp [realMath]
  eps := by simp [realMath]
  dblMin := by simp [realMath]
  pow2 x := zpow_ne_zero _ two_ne_zero
  est_pos a b n ha _ := by
    simp only [realMath, if_neg ha.ne']
    exact Real.exp_pos _
  est_zero b n := by simp [realMath]

/-- Some arithmetic on the rationals, to compute examples with. -/
def ratMath : RMath ℚ where
  fabs x := |x|
  sqrt x := x
  isZero x := x == 0
  eps := 1 / 2 ^ 52
  dblMin := 1 / 2 ^ 1022
  fltMin := 1 / 2 ^ 126
  fltMax := (2 - 1 / 2 ^ 23) * 2 ^ 127
  est _ _ _ := 1
  pow2 _ := 1
  cosr := -(69756 / 1000000)
  sinr := 997564 / 1000000
  sqrtHalf := 7 / 10

/-! ### C50 quadratics -/

/-- **C50.** The quadratic solver returns the two zeros, with multiplicity: the quadratic is the product of its
factors. They are real, or conjugate with the one with positive imaginary part first. -/
theorem C50_quadratic (m : RMath ℝ) (hm : ExactMath m) (a b c : ℝ) (ha : a ≠ 0) :
    ∃ z w : ℂ, (z = ⟨(quad m a b c).sr, (quad m a b c).si⟩ ∧ w = ⟨(quad m a b c).lr, (quad m a b c).li⟩) ∧
      (∀ x : ℂ, a * x ^ 2 + b * x + c = a * (x - z) * (x - w)) ∧
      (z.im = 0 ∧ w.im = 0 ∨ 0 < z.im ∧ w = (starRingEnd ℂ) z) := by
  obtain ⟨h1, h2⟩ := quad_spec m hm a b c ha
  refine ⟨_, _, ⟨rfl, rfl⟩, h1, ?_⟩
  rcases h2 with h | ⟨h3, h4, h5⟩
  · exact Or.inl h
  · refine Or.inr ⟨h3, ?_⟩
    apply Complex.ext
    · simp [h5]
    · simp [h4]

/-- **C50.** For `a = 0` the first zero returned is the zero of the linear polynomial, and it is real. -/
theorem C50_linear (m : RMath ℝ) (hm : ExactMath m) (b c : ℝ) (hb : b ≠ 0) :
    (quad m 0 b c).si = 0 ∧ ∀ x : ℝ, b * x + c = 0 ↔ x = (quad m 0 b c).sr := by
  have h0 : m.isZero 0 = true := (hm.isZero 0).mpr rfl
  have hb' : ¬ m.isZero b = true := fun h => hb ((hm.isZero b).mp h)
  unfold quad
  rw [if_pos h0, if_neg hb']
  refine ⟨by simp [num_eq], fun x => ?_⟩
  constructor
  · intro h
    field_simp
    linarith
  · rintro rfl
    field_simp
    ring

example : ExactMath realMath ∧ (1 : ℝ) ≠ 0 := ⟨realMath_exact, one_ne_zero⟩

/-! ### C51 synthetic division -/

section
variable {K : Type} [CommRing K]

theorem quadSDLoop_len (u v : K) : ∀ (p : List K) (a b : K), (quadSDLoop u v p a b).1.length = p.length
  | [], _, _ => rfl
  | x :: p, a, b => congrArg (· + 1) (quadSDLoop_len u v p (-(a * u + b * v) + x) a)

theorem hornerLoop_len (s : K) : ∀ (p : List K) (a : K), (hornerLoop s a p).1.length = p.length
  | [], _ => rfl
  | x :: p, a => congrArg (· + 1) (hornerLoop_len s p (a * s + x))

/-- **C51.** Division by `X² + u X + v` of a polynomial of degree at least one: the entries of the quotient
array without the last two are the quotient, the remainder is `b (X + u) + a`. -/
theorem C51_quadratic (u v : K) (p : List K) (hp : 2 ≤ p.length) :
    ∃ q a b, quadSD u v p = .ok (q, a, b) ∧ q.length = p.length ∧
      decPoly p = (X ^ 2 + C u * X + C v) * decPoly (q.take (p.length - 2)) + C b * (X + C u) + C a := by
  obtain ⟨r, hr, hl⟩ : ∃ r, quadSD u v p = .ok r ∧ r.1.length = p.length := by
    match p, hp with
    | p0 :: p1 :: ps, _ => exact ⟨_, rfl, by simp [quadSDLoop_len]⟩
  obtain ⟨l, h1, h2⟩ := quadSD_spec u v p r hr
  refine ⟨r.1, r.2.1, r.2.2, hr, hl, ?_⟩
  have h3 : r.1.take (p.length - 2) = l := by
    rw [← hl, h1]
    simp
  rw [h3]
  exact h2

/-- **C51.** Division by `X - s`: the entries of the quotient array without the last one are the quotient, the
remainder is the value at `s`. -/
theorem C51_linear (s : K) (p : List K) (hp : p ≠ []) :
    ∃ q r, horner s p = .ok (q, r) ∧ q.length = p.length ∧ r = (decPoly p).eval s ∧
      decPoly p = (X - C s) * decPoly (q.take (p.length - 1)) + C ((decPoly p).eval s) := by
  obtain ⟨r, hr, hl⟩ : ∃ r, horner s p = .ok r ∧ r.1.length = p.length := by
    match p, hp with
    | p0 :: ps, _ => exact ⟨_, rfl, by simp [hornerLoop_len]⟩
  obtain ⟨l, h1, h2⟩ := horner_spec s p r hr
  have h3 : r.1.take (p.length - 1) = l := by
    rw [← hl, h1]
    simp
  have h4 : (decPoly p).eval s = r.2 := by
    rw [h2]
    simp
  refine ⟨r.1, r.2, hr, hl, h4.symm, ?_⟩
  rw [h3, h4]
  exact h2

end

example : quadSD (3 : ℚ) 2 [1, 6, 11, 6] = .ok ([1, 3, 0, 0], 0, 0) := by decide +kernel
example : horner (2 : ℚ) [1, -5, 7] = .ok ([1, -3, 1], 1) := by decide +kernel

/-! ### C61 memory safety

No law is assumed of the arithmetic in this part; so it holds for IEEE doubles. -/

section
variable {K : Type}
variable [Add K] [Sub K] [Mul K] [Div K] [Neg K] [NatCast K] [LE K] [LT K] [DecidableLE K] [DecidableLT K]

theorem findLastNonZeroCoeff_lt (m : RMath K) (c : List K) (l : ℕ) (h : findLastNonZeroCoeff m c = some l) :
    l < c.length := by
  have := List.mem_of_find?_eq_some h
  simpa using this

/-- **C61.** For a polynomial with at most 101 coefficients, whatever they are, the root finder reads no
variable before it is written and stays within its arrays. If it returns (see C62), it reports either failure
or a list of at most as many zeros as the degree, all of which it has written. -/
theorem C61_memory_safe (m : RMath K) (fuel : ℕ) (coeffs : List K) (h : coeffs.length ≤ 101) :
    findRoots m fuel coeffs = .hang ∨ findRoots m fuel coeffs = .ok (false, none) ∨
      ∃ zs, findRoots m fuel coeffs = .ok (true, some zs) ∧ zs.length ≤ coeffs.length - 1 := by
  unfold findRoots
  cases hl : findLastNonZeroCoeff m coeffs with
  | none => exact Or.inr (Or.inr ⟨[], rfl, by simp⟩)
  | some l =>
    cases l with
    | zero => exact Or.inr (Or.inr ⟨[], rfl, by simp⟩)
    | succ l =>
      have hlt := findLastNonZeroCoeff_lt m coeffs _ hl
      have hop : (coeffs.take (l + 1 + 1)).reverse.length = l + 2 := by
        rw [List.length_reverse, List.length_take]
        omega
      simp only
      rw [if_neg (by omega)]
      rcases rpoly_post m fuel (coeffs.take (l + 1 + 1)).reverse ((coeffs.take (l + 1 + 1)).reverse.length - 1) (by omega)
        (List.replicate 100 none) (by simp) with hr | ⟨r, hr, h1, h2⟩
      · rw [hr]
        exact Or.inl rfl
      · rw [hr, Res.ok_bind]
        split
        · right; right
          obtain ⟨zs, hzs, hlen⟩ := Res.rets_mapM (f := fun i => do
              let x ← Res.at' r.2 i
              Res.get x) (List.range r.1.toNat) (by
            intro i hi
            obtain ⟨x, hx⟩ := h2.2 i (by simpa using hi)
            exact ⟨x, by rw [Res.at'_eq_ok.mpr hx, Res.ok_bind]; rfl, trivial⟩)
          refine ⟨zs, by rw [hzs]; rfl, ?_⟩
          rw [hlen, List.length_range]
          omega
        · exact Or.inr (Or.inl rfl)

end

example : (findRoots ratMath 10 [0, 0, 6, 2]) = .ok (true, some [(0, 0), (0, 0), (-3, 0)]) := by decide +kernel

/-! ### C62 the root finder returns -/

/-- **C62.** In exact arithmetic the root finder returns, for every polynomial with at most 101
coefficients: there is a bound on the number of rounds of the loops that have none in the code, and the
result is the same for every larger bound. -/
theorem C62_returns (m : RMath ℝ) (hm : ExactMath m) (coeffs : List ℝ) (h : coeffs.length ≤ 101) :
    ∃ F r, ∀ fuel, F ≤ fuel → findRoots m fuel coeffs = .ok r := by
  unfold findRoots
  cases hl : findLastNonZeroCoeff m coeffs with
  | none => exact ⟨0, _, fun _ _ => rfl⟩
  | some l =>
    cases l with
    | zero => exact ⟨0, _, fun _ _ => rfl⟩
    | succ l =>
      have hlt := findLastNonZeroCoeff_lt m coeffs _ hl
      have hop : (coeffs.take (l + 1 + 1)).reverse.length = l + 2 := by
        rw [List.length_reverse, List.length_take]
        omega
      have hnot : ¬ 101 < (coeffs.take (l + 1 + 1)).reverse.length := by omega
      simp only [if_neg hnot]
      obtain ⟨F, r, ⟨_, h2⟩, hF⟩ := rpoly_settles m hm (coeffs.take (l + 1 + 1)).reverse ((coeffs.take (l + 1 + 1)).reverse.length - 1) (by omega)
        (List.replicate 100 none) (by simp)
      by_cases hpos : 0 < r.1
      · obtain ⟨zs, hzs, _⟩ := Res.rets_mapM (f := fun i => do
            let x ← Res.at' r.2 i
            Res.get x) (List.range r.1.toNat) (by
          intro i hi
          obtain ⟨x, hx⟩ := h2.2 i (by simpa using hi)
          exact ⟨x, by rw [Res.at'_eq_ok.mpr hx, Res.ok_bind]; rfl, trivial⟩)
        refine ⟨F, (true, some zs), fun fuel hf => ?_⟩
        have := hF fuel hf
        simp only at this
        rw [this, Res.ok_bind, if_pos hpos, hzs]
        rfl
      · refine ⟨F, (false, none), fun fuel hf => ?_⟩
        have := hF fuel hf
        simp only at this
        rw [this, Res.ok_bind, if_neg hpos]
        rfl

example : ExactMath realMath ∧ [6, 11, 6, (1 : ℝ)].length ≤ 101 := ⟨realMath_exact, by simp⟩

/-! ### C63 the zeros -/

/-- Trailing coefficients below the smallest positive double are ignored. -/
theorem findLast_eq (m : RMath ℝ) (hm : ExactMath m) (cs tail : List ℝ) (a : ℝ) (ha : m.dblMin ≤ |a|)
    (ht : ∀ t ∈ tail, |t| < m.dblMin) : findLastNonZeroCoeff m (cs ++ [a] ++ tail) = some cs.length := by
  unfold findLastNonZeroCoeff
  have hlen : (cs ++ [a] ++ tail).length = cs.length + 1 + tail.length := by simp; omega
  rw [hlen]
  have hcs : ((cs ++ [a] ++ tail)[cs.length]?).any (fun x => decide (m.dblMin ≤ m.fabs x)) = true := by
    rw [List.append_assoc, List.getElem?_append_right (Nat.le_refl _)]
    simp [hm.fabs, ha]
  have key : ∀ k, k ≤ tail.length → (List.range (cs.length + 1 + k)).reverse.find? (fun i =>
      ((cs ++ [a] ++ tail)[i]?).any fun x => decide (m.dblMin ≤ m.fabs x)) = some cs.length := by
    intro k
    induction k with
    | zero =>
      intro _
      rw [Nat.add_zero, List.range_succ, List.reverse_append, List.reverse_singleton, List.singleton_append,
        List.find?_cons_of_pos (p := fun i => ((cs ++ [a] ++ tail)[i]?).any fun x => decide (m.dblMin ≤ m.fabs x)) hcs]
    | succ k ih =>
      intro hk
      rw [← Nat.add_assoc, List.range_succ, List.reverse_append, List.reverse_singleton, List.singleton_append,
        List.find?_cons_of_neg, ih (by omega)]
      have h1 : (cs ++ [a] ++ tail)[cs.length + 1 + k]? = tail[k]? := by
        rw [List.getElem?_append_right (by simp)]
        simp
      rw [h1, List.getElem?_eq_getElem (by omega)]
      have := ht tail[k] (List.getElem_mem _)
      simp [hm.fabs, this]
  exact key _ (Nat.le_refl _)

/-- **C63 (partial).** When the root finder reports success, the zeros it lists have been split off one after
the other: each real one leaves a remainder that is small relative to the polynomial it was split off from, and
so does each pair; zeros that are not real come in conjugate pairs. What is left is a polynomial with the
remaining degree (a constant if the number of zeros is the degree). Missing: all zeros are found; the
accuracy with respect to the original polynomial; rounding. -/
theorem C63_deflation_partial (m : RMath ℝ) (hm : ExactMath m) (fuel : ℕ) (cs tail : List ℝ) (a : ℝ)
    (ha : m.dblMin ≤ |a|) (ht : ∀ t ∈ tail, |t| < m.dblMin) (b : Bool) (zs : List (ℝ × ℝ))
    (h : findRoots m fuel (cs ++ [a] ++ tail) = .ok (b, some zs)) :
    b = true ∧ ∃ o : List ℝ, 1 ≤ o.length ∧ zs.length + o.length = cs.length + 1 ∧
      Deflation m.eps (cs ++ [a]).reverse (zs.map fun z => (⟨z.1, z.2⟩ : ℂ)) o := by
  have hl := findLast_eq m hm cs tail a ha ht
  cases hn : cs.length with
  | zero =>
    rw [hn] at hl
    unfold findRoots at h
    rw [hl] at h
    simp only [Res.ok.injEq, Prod.mk.injEq, Option.some.injEq] at h
    obtain ⟨rfl, rfl⟩ := h
    have : cs = [] := List.length_eq_zero_iff.mp hn
    subst this
    exact ⟨rfl, [a], by simp, by simp, Deflation.done _⟩
  | succ n =>
    rw [hn] at hl
    have hlen : n + 1 < (cs ++ [a] ++ tail).length := by
      simp
      omega
    obtain ⟨h1, o, h2, h3, h4⟩ := findRoots_chain m hm fuel _ n hl hlen b zs h
    have htk : (cs ++ [a] ++ tail).take (n + 2) = cs ++ [a] := by
      have : n + 2 = (cs ++ [a]).length := by simp; omega
      rw [this, List.take_left]
    rw [htk] at h4
    exact ⟨h1, o, h2, h3, h4⟩

/-- **C63.** For degree one the zero is found, exactly. -/
theorem C63_degree_one (m : RMath ℝ) (hm : ExactMath m) (fuel : ℕ) (c0 c1 : ℝ) (tail : List ℝ)
    (ha : m.dblMin ≤ |c1|) (ht : ∀ t ∈ tail, |t| < m.dblMin) :
    findRoots m fuel ([c0, c1] ++ tail) = .ok (true, some [(-(c0 / c1), 0)]) := by
  have hl := findLast_eq m hm [c0] tail c1 ha ht
  simp only [List.cons_append, List.nil_append, List.length_cons, List.length_nil] at hl
  have hc1 : c1 ≠ 0 := by
    rintro rfl
    rw [abs_zero] at ha
    exact absurd hm.dblMin (not_lt.mpr ha)
  have hz1 : m.isZero c1 = false := by
    by_contra hh
    exact hc1 ((hm.isZero c1).mp (by simpa using hh))
  unfold findRoots
  rw [List.cons_append, List.cons_append, List.nil_append, hl]
  simp only [List.cons_append, List.nil_append, List.take_succ_cons, List.take_zero, List.reverse_cons,
    List.reverse_nil]
  rw [if_neg (by simp)]
  by_cases h0 : c0 = 0
  · have hz0 : m.isZero 0 = true := (hm.isZero 0).mpr rfl
    subst h0
    simp [rpoly, removeZeros, mainLoop, Res.at', hz0, hz1, Slots.put, num_eq, Res.get, List.range_succ]
  · have hz0 : m.isZero c0 = false := by
      by_contra hh
      exact h0 ((hm.isZero c0).mp (by simpa using hh))
    simp [rpoly, removeZeros, mainLoop, finalZeros, Res.at', hz0, hz1, Slots.put, num_eq, Res.get,
      List.range_succ]

/-- **C63.** For degree two both zeros are found, exactly and with multiplicity. -/
theorem C63_degree_two (m : RMath ℝ) (hm : ExactMath m) (fuel : ℕ) (c0 c1 c2 : ℝ) (tail : List ℝ)
    (ha : m.dblMin ≤ |c2|) (ht : ∀ t ∈ tail, |t| < m.dblMin) :
    ∃ z w : ℝ × ℝ, findRoots m fuel ([c0, c1, c2] ++ tail) = .ok (true, some [z, w]) ∧
      ∀ x : ℂ, c2 * x ^ 2 + c1 * x + c0 = c2 * (x - ⟨z.1, z.2⟩) * (x - ⟨w.1, w.2⟩) := by
  have hl := findLast_eq m hm [c0, c1] tail c2 ha ht
  simp only [List.cons_append, List.nil_append, List.length_cons, List.length_nil] at hl
  have hc2 : c2 ≠ 0 := by
    rintro rfl
    rw [abs_zero] at ha
    exact absurd hm.dblMin (not_lt.mpr ha)
  have hc2C : (c2 : ℂ) ≠ 0 := by exact_mod_cast hc2
  have hz2 : m.isZero c2 = false := by
    by_contra hh
    exact hc2 ((hm.isZero c2).mp (by simpa using hh))
  unfold findRoots
  rw [List.cons_append, List.cons_append, List.cons_append, List.nil_append, hl]
  simp only [List.take_succ_cons, List.take_zero, List.reverse_cons,
    List.reverse_nil, List.nil_append, List.cons_append]
  rw [if_neg (by simp)]
  have hre : ∀ s : ℝ, (⟨s, 0⟩ : ℂ) = (s : ℂ) := by
    intro s
    apply Complex.ext <;> simp
  by_cases h0 : c0 = 0
  · have hz0 : m.isZero c0 = true := (hm.isZero c0).mpr h0
    by_cases h1 : c1 = 0
    · have hz1 : m.isZero c1 = true := (hm.isZero c1).mpr h1
      refine ⟨(0, 0), (0, 0), ?_, ?_⟩
      · simp [rpoly, removeZeros, mainLoop, Res.at', hz0, hz1, hz2, Slots.put, num_eq, Res.get, List.range_succ]
      · intro x
        simp only [hre, h0, h1]
        push_cast
        ring
    · have hz1 : m.isZero c1 = false := by
        by_contra hh
        exact h1 ((hm.isZero c1).mp (by simpa using hh))
      refine ⟨(0, 0), (-(c1 / c2), 0), ?_, ?_⟩
      · simp [rpoly, removeZeros, mainLoop, finalZeros, Res.at', hz0, hz1, hz2, Slots.put, num_eq, Res.get,
          List.range_succ]
      · intro x
        simp only [hre, h0]
        push_cast
        field_simp
        ring
  · have hz0 : m.isZero c0 = false := by
      by_contra hh
      exact h0 ((hm.isZero c0).mp (by simpa using hh))
    refine ⟨((quad m c2 c1 c0).sr, (quad m c2 c1 c0).si), ((quad m c2 c1 c0).lr, (quad m c2 c1 c0).li), ?_,
      (quad_spec m hm c2 c1 c0 hc2).1⟩
    simp [rpoly, removeZeros, mainLoop, finalZeros, Res.at', hz0, hz2, Slots.put, Res.get,
      List.range_succ]

/-- A polynomial that is zero or constant (up to numbers below the smallest positive double) has no zeros, and
that is reported as success. -/
theorem C63_degree_zero (m : RMath ℝ) (hm : ExactMath m) (fuel : ℕ) (c0 : ℝ) (tail : List ℝ)
    (ht : ∀ t ∈ tail, |t| < m.dblMin) : findRoots m fuel (c0 :: tail) = .ok (true, some []) := by
  by_cases hc : m.dblMin ≤ |c0|
  · have hl := findLast_eq m hm [] tail c0 hc ht
    simp only [List.nil_append, List.singleton_append, List.length_nil] at hl
    unfold findRoots
    rw [hl]
    rfl
  · have hl : findLastNonZeroCoeff m (c0 :: tail) = none := by
      unfold findLastNonZeroCoeff
      rw [List.find?_eq_none]
      intro i hi
      have hi' : i < (c0 :: tail).length := by simpa using hi
      rw [List.getElem?_eq_getElem hi']
      have : |(c0 :: tail)[i]| < m.dblMin := by
        rcases List.mem_cons.mp (List.getElem_mem hi') with h | h
        · rw [h]; exact not_le.mp hc
        · exact ht _ h
      simp [hm.fabs, this]
    unfold findRoots
    rw [hl]

example : ExactMath realMath ∧ realMath.dblMin ≤ |(2 : ℝ)| ∧ ∀ t ∈ [(0 : ℝ)], |t| < realMath.dblMin := by
  refine ⟨realMath_exact, ?_, ?_⟩
  · have : realMath.dblMin = 1 / 2 ^ 1022 := rfl
    rw [this, abs_of_pos (by norm_num)]
    have h1 : (1 : ℝ) ≤ 2 ^ 1022 := one_le_pow₀ (by norm_num)
    generalize (2 : ℝ) ^ 1022 = y at h1
    rw [div_le_iff₀ (by linarith)]
    linarith
  · intro t ht
    rw [List.mem_singleton.mp ht, abs_zero]
    exact realMath_exact.dblMin

/-! ### C64 the buffers -/

section
variable {K : Type}
variable [Add K] [Sub K] [Mul K] [Div K] [Neg K] [NatCast K] [LE K] [LT K] [DecidableLE K] [DecidableLT K]

/-- **C64 (refuted).** The root finder does not report failure for a polynomial whose degree exceeds the
largest one it supports (100): it writes past the end of its buffers before the degree is compared, for
every polynomial with more than 101 coefficients whose last one is not negligible. -/
theorem C64_too_long_false (m : RMath K) (fuel : ℕ) (cs : List K) (a : K) (ha : m.dblMin ≤ m.fabs a)
    (hlen : 100 < cs.length) : findRoots m fuel (cs ++ [a]) = .ub := by
  have hl : findLastNonZeroCoeff m (cs ++ [a]) = some cs.length := by
    unfold findLastNonZeroCoeff
    rw [List.length_append, List.length_singleton, List.range_succ, List.reverse_append, List.reverse_singleton,
      List.singleton_append, List.find?_cons_of_pos]
    simp [ha]
  unfold findRoots
  rw [hl]
  cases hn : cs.length with
  | zero => omega
  | succ n =>
    simp only
    rw [if_pos]
    rw [List.length_reverse, List.length_take, List.length_append, List.length_singleton]
    omega

/-- **C64 (partial).** Up to that degree nothing is written outside the buffers. Missing: larger degrees, for
which it is false, see `C64_too_long_false`. -/
theorem C64_buffers_partial (m : RMath K) (fuel : ℕ) (coeffs : List K) (h : coeffs.length ≤ 101) :
    findRoots m fuel coeffs ≠ .ub := by
  rcases C61_memory_safe m fuel coeffs h with e | e | ⟨zs, e, _⟩ <;> rw [e] <;> simp

end

example : (findRoots ratMath 10 (List.replicate 101 1 ++ [2])).isUb = true := by decide +kernel

end Verif
