import Verif.Proofs.RpolyRoundedChain
import Verif.Props.RpolyRounded
import Verif.Proofs.RoundedTiming

/-
C125: the zeros listed by the root finder, with rounding after every operation.
-/
set_option linter.unusedSectionVars false

namespace Verif

open Spec Polynomial

section
variable {rnd : ℝ → ℝ} {u : ℝ}

/-- Trailing coefficients below the smallest positive normal double are ignored. -/
theorem findLast_fl (m : RMath (Fl rnd)) (hm : RoundedMath m) (cs tail : List (Fl rnd)) (a : Fl rnd)
    (ha : m.dblMin.val ≤ |a.val|) (ht : ∀ t ∈ tail, |t.val| < m.dblMin.val) :
    findLastNonZeroCoeff m (cs ++ [a] ++ tail) = some cs.length := by
  have le_iff : ∀ x : Fl rnd, m.dblMin ≤ m.fabs x ↔ m.dblMin.val ≤ |x.val| := fun x => by
    change m.dblMin.val ≤ (m.fabs x).val ↔ _
    rw [hm.fabs]
  unfold findLastNonZeroCoeff
  have hlen : (cs ++ [a] ++ tail).length = cs.length + 1 + tail.length := by simp; omega
  rw [hlen]
  have hcs : ((cs ++ [a] ++ tail)[cs.length]?).any (fun x => decide (m.dblMin ≤ m.fabs x)) = true := by
    rw [List.append_assoc, List.getElem?_append_right (Nat.le_refl _)]
    simp [le_iff, ha]
  have key : ∀ k, k ≤ tail.length → (List.range (cs.length + 1 + k)).reverse.find? (fun i =>
      ((cs ++ [a] ++ tail)[i]?).any fun x => decide (m.dblMin ≤ m.fabs x)) = some cs.length := by
    intro k
    induction k with
    | zero =>
      intro _
      rw [Nat.add_zero, List.range_succ, List.reverse_append, List.reverse_singleton, List.singleton_append,
        List.find?_cons_of_pos (p := fun i => ((cs ++ [a] ++ tail)[i]?).any fun x => decide (m.dblMin ≤ m.fabs x)) hcs]
    | succ k ih =>
      intro hk
      rw [← Nat.add_assoc, List.range_succ, List.reverse_append, List.reverse_singleton, List.singleton_append,
        List.find?_cons_of_neg, ih (by omega)]
      have h1 : (cs ++ [a] ++ tail)[cs.length + 1 + k]? = tail[k]? := by
        rw [List.getElem?_append_right (by simp)]
        simp
      rw [h1, List.getElem?_eq_getElem (by omega)]
      have := ht tail[k] (List.getElem_mem _)
      simp [le_iff, this]
  exact key _ (Nat.le_refl _)

/-- **C125.** When the root finder reports success, the zeros it lists have been split off one after the other, with the
errors stated in `DeflationFl`, although every operation is rounded. What is left is a polynomial with the remaining
degree. -/
theorem C125_deflation (h : Rounding rnd u) (hu : u ≤ 1 / 10 ^ 11) (hnat : ∀ n : ℕ, n < 2 ^ 53 → rnd n = n)
    (m : RMath (Fl rnd)) (hm : RoundedMath m) (hs : RoundedSqrt m) (fuel : ℕ) (cs tail : List (Fl rnd)) (a : Fl rnd)
    (ha : m.dblMin.val ≤ |a.val|) (ht : ∀ t ∈ tail, |t.val| < m.dblMin.val) (b : Bool) (zs : List (Fl rnd × Fl rnd))
    (hr : findRoots m fuel (cs ++ [a] ++ tail) = .ok (b, some zs)) :
    b = true ∧ ∃ o : List ℝ, 1 ≤ o.length ∧ zs.length + o.length = cs.length + 1 ∧
      DeflationFl m.eps.val u (vals (cs ++ [a])).reverse (zs.map fun z => (⟨z.1.val, z.2.val⟩ : ℂ)) o := by
  have hl := findLast_fl m hm cs tail a ha ht
  cases hn : cs.length with
  | zero =>
    rw [hn] at hl
    unfold findRoots at hr
    rw [hl] at hr
    simp only [Res.ok.injEq, Prod.mk.injEq, Option.some.injEq] at hr
    obtain ⟨rfl, rfl⟩ := hr
    have : cs = [] := List.length_eq_zero_iff.mp hn
    subst this
    exact ⟨rfl, [a.val], by simp, by simp, DeflationFl.done _⟩
  | succ n =>
    rw [hn] at hl
    have hlen : n + 1 < (cs ++ [a] ++ tail).length := by
      simp
      omega
    obtain ⟨h1, o, h2, h3, h4⟩ := findRoots_chain_of (flDeflates_chain h hu hnat m hm hs) fuel _ n hl hlen b zs hr
    have htk : (cs ++ [a] ++ tail).take (n + 2) = cs ++ [a] := by
      have : n + 2 = (cs ++ [a]).length := by simp; omega
      rw [this, List.take_left]
    rw [htk] at h4
    refine ⟨h1, vals o, by simpa [vals] using h2, by simpa [vals] using h3, ?_⟩
    have e : (vals (cs ++ [a])).reverse = vals (cs ++ [a]).reverse := by simp [vals]
    rw [e]
    exact h4

theorem Spec.DeflationFl.conj_mem {ε u : ℝ} {p : List ℝ} {zs : List ℂ} {o : List ℝ} (hd : DeflationFl ε u p zs o) :
    ∀ z ∈ zs, z.im ≠ 0 → (starRingEnd ℂ) z ∈ zs := by
  have pairs : ∀ (z w : ℂ) (l : List ℂ), (z.im = 0 ∧ w.im = 0 ∨ 0 < z.im ∧ w = (starRingEnd ℂ) z) →
      (∀ x ∈ l, x.im ≠ 0 → (starRingEnd ℂ) x ∈ l) → ∀ x ∈ z :: w :: l, x.im ≠ 0 → (starRingEnd ℂ) x ∈ z :: w :: l := by
    intro z w l hzw hl x hx hi
    rcases List.mem_cons.mp hx with rfl | hx
    · rcases hzw with ⟨h0, _⟩ | ⟨_, rfl⟩
      · exact absurd h0 hi
      · simp
    · rcases List.mem_cons.mp hx with rfl | hx
      · rcases hzw with ⟨_, h0⟩ | ⟨_, rfl⟩
        · exact absurd h0 hi
        · simp
      · exact List.mem_cons_of_mem _ (List.mem_cons_of_mem _ (hl x hx hi))
  induction hd with
  | done p => simp
  | origin _ ih =>
    intro x hx hi
    rcases List.mem_cons.mp hx with rfl | hx
    · simp at hi
    · exact List.mem_cons_of_mem _ (ih x hx hi)
  | linear a b z _ _ =>
    intro x hx hi
    rw [List.mem_singleton.mp hx] at hi
    simp at hi
  | quadratic a b c z w _ _ hzw => exact pairs z w [] hzw (by simp)
  | real c s _ _ _ _ ih =>
    intro x hx hi
    rcases List.mem_cons.mp hx with rfl | hx
    · simp at hi
    · exact List.mem_cons_of_mem _ (ih x hx hi)
  | pair c z w _ _ hzw _ _ ih => exact pairs z w _ hzw ih

/-- **C125.** With a zero that is not real the conjugate number is listed, exactly. -/
theorem C125_conjugate (h : Rounding rnd u) (hu : u ≤ 1 / 10 ^ 11) (hnat : ∀ n : ℕ, n < 2 ^ 53 → rnd n = n)
    (m : RMath (Fl rnd)) (hm : RoundedMath m) (hs : RoundedSqrt m) (fuel : ℕ) (cs tail : List (Fl rnd)) (a : Fl rnd)
    (ha : m.dblMin.val ≤ |a.val|) (ht : ∀ t ∈ tail, |t.val| < m.dblMin.val) (b : Bool) (zs : List (Fl rnd × Fl rnd))
    (hr : findRoots m fuel (cs ++ [a] ++ tail) = .ok (b, some zs)) (z : Fl rnd × Fl rnd) (hz : z ∈ zs) (hi : z.2.val ≠ 0) :
    (z.1, -z.2) ∈ zs := by
  obtain ⟨_, o, _, _, hd⟩ := C125_deflation h hu hnat m hm hs fuel cs tail a ha ht b zs hr
  have := hd.conj_mem _ (List.mem_map_of_mem hz) hi
  obtain ⟨w, hw, e⟩ := List.mem_map.mp this
  obtain ⟨⟨w1⟩, ⟨w2⟩⟩ := w
  have e1 := congrArg Complex.re e
  have e2 := congrArg Complex.im e
  simp only [Complex.conj_re, Complex.conj_im] at e1 e2
  subst e1 e2
  exact hw

theorem coeff_ne_zero (m : RMath (Fl rnd)) (hd : 0 < m.dblMin.val) (a : Fl rnd) (ha : m.dblMin.val ≤ |a.val|) : a.val ≠ 0 := by
  intro e
  rw [e, abs_zero] at ha
  linarith

/-- **C125.** For degree one the zero is found, with the relative error of one operation. -/
theorem C125_degree_one (h : Rounding rnd u) (m : RMath (Fl rnd)) (hm : RoundedMath m) (hd : 0 < m.dblMin.val) (fuel : ℕ)
    (c0 c1 : Fl rnd) (tail : List (Fl rnd)) (ha : m.dblMin.val ≤ |c1.val|) (ht : ∀ t ∈ tail, |t.val| < m.dblMin.val) :
    ∃ z : Fl rnd × Fl rnd, findRoots m fuel ([c0, c1] ++ tail) = .ok (true, some [z]) ∧
      z.2.val = 0 ∧ |z.1.val - -(c0.val / c1.val)| ≤ u * |c0.val / c1.val| := by
  have hl := findLast_fl m hm [c0] tail c1 ha ht
  simp only [List.cons_append, List.nil_append, List.length_cons, List.length_nil] at hl
  have hc1 := coeff_ne_zero m hd c1 ha
  have hz1 : m.isZero c1 = false := by
    by_contra hh
    exact hc1 ((hm.isZero c1).mp (by simpa using hh))
  have n0 : (num 0 : Fl rnd).val = 0 := by
    change rnd ((0 : ℕ) : ℝ) = 0
    simpa using rnd_zero h
  unfold findRoots
  rw [List.cons_append, List.cons_append, List.nil_append, hl]
  simp only [List.take_succ_cons, List.take_zero, List.reverse_cons,
    List.reverse_nil, List.nil_append, List.cons_append]
  rw [if_neg (by simp)]
  by_cases h0 : c0.val = 0
  · have hz0 : m.isZero c0 = true := (hm.isZero c0).mpr h0
    refine ⟨(num 0, num 0), ?_, n0, ?_⟩
    · simp [rpoly, removeZeros, mainLoop, Res.at', hz0, hz1, Slots.put, Res.get, List.range_succ]
    · simp [n0, h0]
  · have hz0 : m.isZero c0 = false := by
      by_contra hh
      exact h0 ((hm.isZero c0).mp (by simpa using hh))
    refine ⟨(-(c0 / c1), num 0), ?_, n0, ?_⟩
    · simp [rpoly, removeZeros, mainLoop, finalZeros, Res.at', hz0, hz1, Slots.put, Res.get, List.range_succ]
    · change |-(rnd (c0.val / c1.val)) - -(c0.val / c1.val)| ≤ _
      rw [← neg_sub', abs_neg]
      exact h.rel _

/-- **C125.** For degree two both zeros are found; they are the zeros of a polynomial close to the one given. -/
theorem C125_degree_two (h : Rounding rnd u) (hu : u ≤ 1 / 10 ^ 11) (hnat : ∀ n : ℕ, n < 2 ^ 53 → rnd n = n)
    (m : RMath (Fl rnd)) (hm : RoundedMath m) (hs : RoundedSqrt m) (hd : 0 < m.dblMin.val) (fuel : ℕ)
    (c0 c1 c2 : Fl rnd) (tail : List (Fl rnd)) (ha : m.dblMin.val ≤ |c2.val|) (ht : ∀ t ∈ tail, |t.val| < m.dblMin.val) :
    ∃ z w : Fl rnd × Fl rnd, findRoots m fuel ([c0, c1, c2] ++ tail) = .ok (true, some [z, w]) ∧
      QuadClose (40 * u) c2.val c1.val c0.val ⟨z.1.val, z.2.val⟩ ⟨w.1.val, w.2.val⟩ := by
  have hu0 := rounding_nonneg h
  have hl := findLast_fl m hm [c0, c1] tail c2 ha ht
  simp only [List.cons_append, List.nil_append, List.length_cons, List.length_nil] at hl
  have hc2 := coeff_ne_zero m hd c2 ha
  have hz2 : m.isZero c2 = false := by
    by_contra hh
    exact hc2 ((hm.isZero c2).mp (by simpa using hh))
  have n0 : (num 0 : Fl rnd).val = 0 := by
    change rnd ((0 : ℕ) : ℝ) = 0
    simpa using rnd_zero h
  have hre : ∀ s : ℝ, (⟨s, 0⟩ : ℂ) = (s : ℂ) := by
    intro s
    apply Complex.ext <;> simp
  unfold findRoots
  rw [List.cons_append, List.cons_append, List.cons_append, List.nil_append, hl]
  simp only [List.take_succ_cons, List.take_zero, List.reverse_cons,
    List.reverse_nil, List.nil_append, List.cons_append]
  rw [if_neg (by simp)]
  by_cases h0 : c0.val = 0
  · have hz0 : m.isZero c0 = true := (hm.isZero c0).mpr h0
    by_cases h1 : c1.val = 0
    · have hz1 : m.isZero c1 = true := (hm.isZero c1).mpr h1
      refine ⟨(num 0, num 0), (num 0, num 0), ?_, ?_⟩
      · simp [rpoly, removeZeros, mainLoop, Res.at', hz0, hz1, hz2, Slots.put, Res.get, List.range_succ]
      · simp [QuadClose, n0, h0, h1, hre]
    · have hz1 : m.isZero c1 = false := by
        by_contra hh
        exact h1 ((hm.isZero c1).mp (by simpa using hh))
      refine ⟨(num 0, num 0), (-(c1 / c2), num 0), ?_, ?_⟩
      · simp [rpoly, removeZeros, mainLoop, finalZeros, Res.at', hz0, hz1, hz2, Slots.put, Res.get,
          List.range_succ]
      · have hv : (-(c1 / c2)).val = -(rnd (c1.val / c2.val)) := rfl
        simp only [QuadClose, n0, h0, hre, hv, Complex.ofReal_zero, zero_add, zero_mul, mul_zero, norm_zero, sub_zero]
        have hmax : max 0 ‖((-(rnd (c1.val / c2.val)) : ℝ) : ℂ)‖ = |rnd (c1.val / c2.val)| := by
          rw [Complex.norm_real, Real.norm_eq_abs, abs_neg, max_eq_right (abs_nonneg _)]
        rw [hmax]
        refine ⟨?_, by simp⟩
        rw [← Complex.ofReal_mul, ← Complex.ofReal_add, Complex.norm_real, Real.norm_eq_abs]
        obtain ⟨δ, e, hδ⟩ := rnd_factor h (c1.val / c2.val)
        rw [pow_one, add_sub_cancel_left] at hδ
        have e2 : c2.val * -(c1.val / c2.val * (1 + δ)) + c1.val = -(c2.val * (c1.val / c2.val) * δ) := by
          field_simp
          ring
        rw [e, e2, abs_neg, abs_mul, abs_mul, abs_mul]
        have hlow : 1 / 2 ≤ |1 + δ| := by
          rw [abs_of_pos (by linarith [(abs_le.mp hδ).1, show (1 : ℝ) / 10 ^ 11 ≤ 1 / 2 by norm_num])]
          linarith [(abs_le.mp hδ).1, show (1 : ℝ) / 10 ^ 11 ≤ 1 / 2 by norm_num]
        have hq : 0 ≤ |c2.val| * |c1.val / c2.val| := by positivity
        have k1 := mul_le_mul_of_nonneg_left hδ hq
        have k2 := mul_le_mul_of_nonneg_left hlow (mul_nonneg hu0 hq)
        have k3 := mul_nonneg hu0 hq
        linarith
  · have hz0 : m.isZero c0 = false := by
      by_contra hh
      exact h0 ((hm.isZero c0).mp (by simpa using hh))
    refine ⟨((quad m c2 c1 c0).sr, (quad m c2 c1 c0).si), ((quad m c2 c1 c0).lr, (quad m c2 c1 c0).li), ?_,
      (quad_fl h hu hnat m hm hs c2 c1 c0 hc2).1.mono (by linarith)⟩
    simp [rpoly, removeZeros, mainLoop, finalZeros, Res.at', hz0, hz2, Slots.put, Res.get,
      List.range_succ]

end

theorem flMath_sqrt (rnd : ℝ → ℝ) : RoundedSqrt (flMath rnd) where
  sqrt _ := rfl
  eps := by
    change (0 : ℝ) ≤ 1 / 2 ^ 52
    positivity

theorem flMath_dblMin (rnd : ℝ → ℝ) : 0 < (flMath rnd).dblMin.val := by
  change (0 : ℝ) < 1 / 2 ^ 1022
  positivity

theorem flMath_normal (rnd : ℝ → ℝ) (x : Fl rnd) (hx : 1 ≤ |x.val|) : (flMath rnd).dblMin.val ≤ |x.val| := by
  refine le_trans ?_ hx
  change (1 : ℝ) / 2 ^ 1022 ≤ 1
  have h1 : (1 : ℝ) ≤ 2 ^ 1022 := one_le_pow₀ (by norm_num)
  generalize (2 : ℝ) ^ 1022 = y at h1
  rw [div_le_iff₀ (by linarith)]
  linarith

/-- Doubles: two zeros of `x² - 2 x + 5`, and a coefficient zero that is ignored. -/
example : ∃ z w : Fl round53 × Fl round53,
    findRoots (flMath round53) 10 ([⟨5⟩, ⟨-2⟩, ⟨1⟩] ++ [⟨0⟩]) = .ok (true, some [z, w]) ∧
    QuadClose (40 * (1 / 2 ^ 53)) 1 (-2) 5 ⟨z.1.val, z.2.val⟩ ⟨w.1.val, w.2.val⟩ :=
  C125_degree_two round53_rounding (by norm_num) (fun n hn => round53_nat n hn) _
    (flMath_rounded round53_rounding (by norm_num)) (flMath_sqrt _) (flMath_dblMin _) 10 ⟨5⟩ ⟨-2⟩ ⟨1⟩ [⟨0⟩]
    (flMath_normal _ _ (by simp)) (by
      intro t ht
      rw [List.mem_singleton.mp ht, abs_zero]
      exact flMath_dblMin _)

/-- Doubles: three zeros of a polynomial of degree three, or failure. -/
example : ∃ F, ∀ fuel, F ≤ fuel → findRoots (flMath round53) fuel ([⟨-6⟩, ⟨11⟩, ⟨-6⟩] ++ [⟨1⟩] ++ []) = .ok (false, none) ∨
    ∃ zs o, findRoots (flMath round53) fuel ([⟨-6⟩, ⟨11⟩, ⟨-6⟩] ++ [⟨1⟩] ++ []) = .ok (true, some zs) ∧
      DeflationFl (1 / 2 ^ 52) (1 / 2 ^ 53) [1, -6, 11, -6] (zs.map fun z => (⟨z.1.val, z.2.val⟩ : ℂ)) o := by
  obtain ⟨F, hF⟩ := C123_reports round53_rounding (by norm_num) (flMath round53) (flMath_rounded round53_rounding (by norm_num))
    ([⟨-6⟩, ⟨11⟩, ⟨-6⟩] ++ [⟨1⟩] ++ []) (by simp)
  refine ⟨F, fun fuel hf => ?_⟩
  rcases hF fuel hf with e | ⟨zs, e, _⟩
  · exact Or.inl e
  · obtain ⟨_, o, _, _, hd⟩ := C125_deflation round53_rounding (by norm_num) (fun n hn => round53_nat n hn) (flMath round53)
      (flMath_rounded round53_rounding (by norm_num)) (flMath_sqrt _) fuel [⟨-6⟩, ⟨11⟩, ⟨-6⟩] [] ⟨1⟩
      (flMath_normal _ _ (by simp)) (by simp) true zs e
    exact Or.inr ⟨zs, o, e, hd⟩

end Verif
