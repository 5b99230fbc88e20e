import Verif.Proofs.RpolyRoundedPair

/-
The steps of the root finder with rounding after every operation.
-/
set_option linter.unusedSectionVars false

namespace Verif

open Spec Polynomial

variable {rnd : ℝ → ℝ} {u : ℝ}

theorem take_getD' {α : Type} (l : List α) (n k : ℕ) (d : α) (h : k < n) : (l.take n).getD k d = l.getD k d := by
  rw [List.getD_eq_getElem?_getD, List.getD_eq_getElem?_getD, List.getElem?_take_of_lt h]

theorem horner_entries (s : Fl rnd) (p : List (Fl rnd)) (r : List (Fl rnd) × Fl rnd) (hr : horner s p = .ok r) :
    r.1.getD 0 0 = p.getD 0 0 ∧ ∀ k, k + 1 < p.length → r.1.getD (k + 1) 0 = r.1.getD k 0 * s + p.getD (k + 1) 0 := by
  have loop : ∀ (xs : List (Fl rnd)) (pv : Fl rnd) (k : ℕ), k < xs.length →
      (pv :: (hornerLoop s pv xs).1).getD (k + 1) 0 = (pv :: (hornerLoop s pv xs).1).getD k 0 * s + xs.getD k 0 := by
    intro xs
    induction xs with
    | nil => intro pv k hk; simp at hk
    | cons x xs ih =>
      intro pv k hk
      cases k with
      | zero => simp [hornerLoop]
      | succ k =>
        have := ih (pv * s + x) k (by simpa using hk)
        simpa [hornerLoop] using this
  match p, hr with
  | p0 :: ps, hr =>
    cases hr
    refine ⟨rfl, fun k hk => ?_⟩
    exact loop ps p0 k (by simpa using hk)

theorem quadSD_entries (U V : Fl rnd) (p : List (Fl rnd)) (r : List (Fl rnd) × Fl rnd × Fl rnd) (hr : quadSD U V p = .ok r) :
    r.1.getD 0 0 = p.getD 0 0 ∧ r.1.getD 1 0 = -(r.1.getD 0 0 * U) + p.getD 1 0 ∧
    ∀ k, k + 2 < p.length → r.1.getD (k + 2) 0 = -(r.1.getD (k + 1) 0 * U + r.1.getD k 0 * V) + p.getD (k + 2) 0 := by
  have loop : ∀ (xs : List (Fl rnd)) (a b : Fl rnd) (k : ℕ), k < xs.length →
      (b :: a :: (quadSDLoop U V xs a b).1).getD (k + 2) 0 =
        -((b :: a :: (quadSDLoop U V xs a b).1).getD (k + 1) 0 * U +
          (b :: a :: (quadSDLoop U V xs a b).1).getD k 0 * V) + xs.getD k 0 := by
    intro xs
    induction xs with
    | nil => intro a b k hk; simp at hk
    | cons x xs ih =>
      intro a b k hk
      cases k with
      | zero => simp [quadSDLoop]
      | succ k =>
        have := ih (-(a * U + b * V) + x) a k (by simpa using hk)
        simpa [quadSDLoop] using this
  match p, hr with
  | p0 :: p1 :: ps, hr =>
    cases hr
    refine ⟨rfl, rfl, fun k hk => ?_⟩
    exact loop ps _ p0 k (by simpa using hk)

theorem mulMap_getD' (c : ℝ) (p : List ℝ) (k : ℕ) : (p.map fun x => c * x).getD k 0 = c * p.getD k 0 := by
  rw [List.getD_eq_getElem?_getD, List.getD_eq_getElem?_getD, List.getElem?_map]
  cases p[k]? <;> simp

/-- The quotient of a real step. -/
theorem dividedReal_fl (h : Rounding rnd u) (hu : u ≤ 1 / 10 ^ 11) (s : Fl rnd) (p p' : List (Fl rnd)) (c : ℝ)
    (hs : Scaled u c (vals p) (vals p')) (hp : 1 ≤ p.length) (r : List (Fl rnd) × Fl rnd) (hr : horner s p' = .ok r) :
    DividedReal (3 * u) s.val ((vals p).map fun x => c * x) (vals (r.1.take (p.length - 1))) := by
  have hu0 := rounding_nonneg h
  have hl : p'.length = p.length := by simpa [vals] using hs.1
  have hrl := horner_length_of s p' r hr
  have hql : (r.1.take (p.length - 1)).length = p.length - 1 := by
    rw [List.length_take]
    omega
  obtain ⟨e0, e1⟩ := horner_entries s p' r hr
  have s2 := pow_small hu0 2 (by push_cast; linarith [hu, show 102 * (2 * ((1 : ℝ) / 10 ^ 11)) ≤ 1 by norm_num])
  push_cast at s2
  refine ⟨?_, fun k hk => ?_⟩
  · simp only [vals, List.length_map, hql]
    omega
  · have hk' : k < p.length - 1 := by
      have := hk
      rw [vals, List.length_map, hql] at this
      exact this
    rw [vals_getD, mulMap_getD', take_getD' _ _ _ _ hk']
    obtain ⟨θ, hθ, eθ⟩ := hs.2 k
    rw [vals_getD p'] at eθ
    cases k with
    | zero =>
      refine ⟨0, θ, by rw [abs_zero]; positivity, by linarith, ?_⟩
      rw [if_pos rfl, e0, eθ]
      ring
    | succ k =>
      simp only [if_neg (Nat.succ_ne_zero k), Nat.add_sub_cancel]
      rw [vals_getD, take_getD' _ _ _ _ (by omega), e1 k (by omega)]
      change ∃ x y, |x| ≤ 3 * u ∧ |y| ≤ 3 * u ∧ rnd (rnd ((r.1.getD k 0).val * s.val) + (p'.getD (k + 1) 0).val) = _
      obtain ⟨α, eα, hα⟩ := rnd_factor h ((r.1.getD k 0).val * s.val)
      obtain ⟨β, eβ, hβ⟩ := rnd_factor h (rnd ((r.1.getD k 0).val * s.val) + (p'.getD (k + 1) 0).val)
      obtain ⟨x, ex, hx⟩ := factor_mul hu0 hα hβ
      obtain ⟨y, ey, hy⟩ := factor_mul hu0 (show |θ| ≤ (1 + u) ^ 1 - 1 by rw [pow_one]; linarith) hβ
      refine ⟨x, y, ?_, ?_, ?_⟩
      · simp only [Nat.reduceAdd] at hx
        linarith
      · simp only [Nat.reduceAdd] at hy
        linarith
      · rw [eβ, eα, eθ, ← ex, ← ey]
        ring

/-- The quotient of a step that splits off a pair. -/
theorem dividedPair_fl (h : Rounding rnd u) (hu : u ≤ 1 / 10 ^ 11) (U V : Fl rnd) (z w : ℂ)
    (hU : ‖z + w + U.val‖ ≤ 40 * u * max ‖z‖ ‖w‖) (hV : ‖z * w - V.val‖ ≤ 40 * u * max ‖z‖ ‖w‖ ^ 2) (p p' : List (Fl rnd)) (c : ℝ)
    (hs : Scaled u c (vals p) (vals p')) (hp : 2 ≤ p.length) (r : List (Fl rnd) × Fl rnd × Fl rnd)
    (hr : quadSD U V p' = .ok r) :
    DividedPair (60 * u) z w ((vals p).map fun x => c * x) (vals (r.1.take (p.length - 2))) := by
  have hu0 := rounding_nonneg h
  have hl : p'.length = p.length := by simpa [vals] using hs.1
  have hrl := quadSD_length_of U V p' r hr
  have hql : (r.1.take (p.length - 2)).length = p.length - 2 := by
    rw [List.length_take]
    omega
  have hρ : 0 ≤ max ‖z‖ ‖w‖ := (norm_nonneg z).trans (le_max_left _ _)
  obtain ⟨e0, e1, e2⟩ := quadSD_entries U V p' r hr
  -- one coefficient
  have key : ∀ (k : ℕ) (a b : Fl rnd) (q : ℝ), Near u 3 q (-(a.val * U.val + b.val * V.val) + (p'.getD k 0).val)
      (|a.val| * |U.val| + |b.val| * |V.val| + |(p'.getD k 0).val|) →
      ‖(q : ℂ) - ((z + w) * a.val - z * w * b.val + ((c * (vals p).getD k 0 : ℝ) : ℂ))‖ ≤
        60 * u * (max ‖z‖ ‖w‖ * |a.val| + max ‖z‖ ‖w‖ ^ 2 * |b.val| + |c * (vals p).getD k 0|) := by
    intro k a b q hq
    have g := quadStep_fl h hu U V z w _ (le_max_left _ _) (le_max_right _ _) hU hV a b (p'.getD k 0) q hq
    obtain ⟨θ, hθ, eθ⟩ := hs.2 k
    rw [vals_getD p'] at eθ
    rw [eθ] at g
    generalize c * (vals p).getD k 0 = x at g ⊢
    generalize max ‖z‖ ‖w‖ = ρ at g hρ ⊢
    have e : (q : ℂ) - ((z + w) * a.val - z * w * b.val + (x : ℂ)) =
        ((q : ℂ) - ((z + w) * a.val - z * w * b.val + ((x * (1 + θ) : ℝ) : ℂ))) + ((x * θ : ℝ) : ℂ) := by
      push_cast
      ring
    rw [e]
    refine (norm_add_le _ _).trans ?_
    rw [Complex.norm_real, Real.norm_eq_abs, abs_mul]
    rw [abs_mul] at g
    have k1 : |1 + θ| ≤ 11 / 10 := by
      refine (abs_add_le _ _).trans ?_
      rw [abs_one]
      linarith [hu, show (1 : ℝ) / 10 ^ 11 ≤ 1 / 10 by norm_num]
    have k2 := mul_le_mul_of_nonneg_left (mul_le_mul_of_nonneg_left k1 (abs_nonneg x)) hu0
    have k3 := mul_le_mul_of_nonneg_left hθ (abs_nonneg x)
    have k4 : 0 ≤ u * (ρ * |a.val|) := by positivity
    have k5 : 0 ≤ u * (ρ ^ 2 * |b.val|) := by positivity
    have k6 : 0 ≤ u * |x| := by positivity
    linarith
  have z0 : (0 : Fl rnd).val = 0 := rfl
  refine ⟨?_, fun k hk => ?_⟩
  · simp only [vals, List.length_map, hql]
    omega
  · have hk' : k < p.length - 2 := by
      have := hk
      rw [vals, List.length_map, hql] at this
      exact this
    rw [vals_getD (r.1.take _) k, mulMap_getD', take_getD' _ _ _ _ hk']
    match k, hk' with
    | 0, hk' =>
      have := key 0 0 0 (r.1.getD 0 0).val (by
        rw [z0, e0, zero_mul, zero_mul, add_zero, neg_zero, zero_add, abs_zero, zero_mul, zero_mul, add_zero, zero_add]
        exact (Near.self _).mono hu0 (by norm_num))
      simpa [z0] using this
    | 1, hk' =>
      have := key 1 (r.1.getD 0 0) 0 (r.1.getD 1 0).val (by
        rw [e1]
        exact quadFirst_near h U V _ _)
      have t0 : (vals (r.1.take (p.length - 2))).getD 0 0 = (r.1.getD 0 0).val := by
        rw [vals_getD, take_getD' _ _ _ _ (by omega)]
      rw [if_neg (by omega), if_pos (by omega), show 1 - 1 = 0 from rfl, t0]
      simpa [z0] using this
    | k + 2, hk' =>
      have := key (k + 2) (r.1.getD (k + 1) 0) (r.1.getD k 0) (r.1.getD (k + 2) 0).val (by
        rw [e2 k (by omega)]
        exact quadStep_near h U V _ _ _)
      have t0 : (vals (r.1.take (p.length - 2))).getD k 0 = (r.1.getD k 0).val := by
        rw [vals_getD, take_getD' _ _ _ _ (by omega)]
      have t1 : (vals (r.1.take (p.length - 2))).getD (k + 1) 0 = (r.1.getD (k + 1) 0).val := by
        rw [vals_getD, take_getD' _ _ _ _ (by omega)]
      rw [if_neg (by omega), if_neg (by omega), show k + 2 - 1 = k + 1 from rfl, show k + 2 - 2 = k from rfl, t0, t1]
      exact this

/-- The relation kept by every step. -/
def flDeflates (m : RMath (Fl rnd)) (u : ℝ) (p : List (Fl rnd)) (zs : List (Fl rnd × Fl rnd)) (o : List (Fl rnd)) : Prop :=
  DeflationFl m.eps.val u (vals p) (zs.map flComplex) (vals o)

theorem flDeflates_chain (h : Rounding rnd u) (hu : u ≤ 1 / 10 ^ 11) (hnat : ∀ n : ℕ, n < 2 ^ 53 → rnd n = n)
    (m : RMath (Fl rnd)) (hm : RoundedMath m) (hs : RoundedSqrt m) :
    ChainRel m (fun x => x.val ≠ 0) (flDeflates m u) := by
  have hu0 := rounding_nonneg h
  have n0 : (num 0 : Fl rnd).val = 0 := by
    change rnd ((0 : ℕ) : ℝ) = 0
    simpa using rnd_zero h
  have n1 : (num 1 : Fl rnd).val = 1 := by
    change rnd ((1 : ℕ) : ℝ) = 1
    simpa using hnat 1 (by norm_num)
  have roots : ∀ a b c : Fl rnd, a.val ≠ 0 →
      ((flComplex ((quad m a b c).sr, (quad m a b c).si)).im = 0 ∧ (flComplex ((quad m a b c).lr, (quad m a b c).li)).im = 0 ∨
        0 < (flComplex ((quad m a b c).sr, (quad m a b c).si)).im ∧ flComplex ((quad m a b c).lr, (quad m a b c).li) =
          (starRingEnd ℂ) (flComplex ((quad m a b c).sr, (quad m a b c).si))) := by
    intro a b c ha
    rcases (quad_fl h hu hnat m hm hs a b c ha).2 with ⟨g1, g2⟩ | ⟨g1, g2, g3⟩
    · exact Or.inl ⟨g1, g2⟩
    · refine Or.inr ⟨g1, ?_⟩
      apply Complex.ext
      · simp [flComplex, g2]
      · simp [flComplex, g3]
  constructor
  · intro c hc hc'
    rw [(hm.isZero c).mpr hc'] at hc
    exact absurd hc (by simp)
  · intro x y hx
    change rnd (x.val * (m.pow2 y).val) ≠ 0
    obtain ⟨δ, e, hδ⟩ := rnd_factor h (x.val * (m.pow2 y).val)
    rw [e]
    refine mul_ne_zero (mul_ne_zero hx (hm.pow2 y)) ?_
    have := (abs_le.mp hδ).1
    rw [pow_one] at this
    have : 0 < 1 + δ := by linarith [hu, show (1 : ℝ) / 10 ^ 11 < 1 by norm_num]
    exact this.ne'
  · exact fun p => DeflationFl.done _
  · intro p zs o c hc hd
    have hc0 : c.val = 0 := (hm.isZero c).mp hc
    have e1 : vals (p ++ [c]) = vals p ++ [0] := by simp [vals, hc0]
    have e2 : flComplex ((num 0, num 0) : Fl rnd × Fl rnd) = 0 := by
      rw [flComplex_real _ _ n0, n0]
      simp
    unfold flDeflates
    rw [e1, List.map_cons, e2]
    exact DeflationFl.origin hd
  · intro a b ha
    have e : flComplex ((-(b / a), num 0) : Fl rnd × Fl rnd) = (((-(b / a)).val : ℝ) : ℂ) := flComplex_real _ _ n0
    unfold flDeflates
    rw [List.map_singleton, e]
    refine DeflationFl.linear a.val b.val _ ha ?_
    change |-(rnd (b.val / a.val)) - -(b.val / a.val)| ≤ _
    rw [← neg_sub', abs_neg]
    exact h.rel _
  · intro a b c ha
    exact DeflationFl.quadratic a.val b.val c.val _ _ ha ((quad_fl h hu hnat m hm hs a b c ha).1.mono (by linarith)) (roots a b c ha)
  · intro p f zs o h4 h101 hhead hf _ hd
    obtain ⟨c, hc, hsc⟩ := scaleCoeffs_fl h m hm p
    have hl : (scaleCoeffs m p).length = p.length := scaleCoeffs_length m p
    have hcp : 0 < |c| := abs_pos.mpr hc
    have heps := hs.eps
    have hn : (1 : ℝ) ≤ p.length := by
      have : 1 ≤ p.length := by omega
      exact_mod_cast this
    have hvl : ((vals p).length : ℝ) = p.length := by simp [vals]
    rcases hf with ⟨htwo, U, V, r, e, hz, hq, hqp, he, ht⟩ | ⟨htwo, r, hsi, hq, hqp, ht⟩
    · rw [if_pos htwo] at hd ⊢
      have ha1 : (num 1 : Fl rnd).val ≠ 0 := by rw [n1]; exact one_ne_zero
      have hqc := (quad_fl h hu hnat m hm hs (num 1) U V ha1).1
      have hcase := roots (num 1) U V ha1
      rw [← hz] at hqc hcase
      rw [n1] at hqc
      have hV := hqc.product hu0 hu
      have hU := (hqc.mono (by linarith : 39 * u ≤ 40 * u)).1
      rw [Complex.ofReal_one, one_mul, abs_one, mul_one] at hU
      have hdiv := dividedPair_fl h hu U V _ _ hU hV p _ c hsc (by omega) r hq
      rw [← hqp] at hdiv
      have hb := pair_bound_fl h hu hnat m hm hs U V f.roots _ (le_max_left _ _) (le_max_right _ _) hU hV _ (by omega) r hq e he ht
      rw [hl] at hb
      refine DeflationFl.pair c _ _ hc hdiv hcase ?_ hd
      generalize flComplex (f.roots.sr, f.roots.si) = z at hb
      generalize flComplex (f.roots.lr, f.roots.li) = w at hb
      obtain ⟨g1, g2⟩ := hsc.values (ρ := max ‖z‖ ‖w‖) ((norm_nonneg z).trans (le_max_left _ _)) w (le_max_right _ _)
      have hA := absValue_nonneg (vals p) ((norm_nonneg z).trans (le_max_left ‖z‖ ‖w‖))
      rw [hvl]
      change ‖cEval (vals p) w‖ ≤ _
      change ‖cEval (vals (scaleCoeffs m p)) w - c * cEval (vals p) w‖ ≤ _ at g1
      generalize absValue (vals p) (max ‖z‖ ‖w‖) = A at g1 g2 hA ⊢
      generalize absValue (vals (scaleCoeffs m p)) (max ‖z‖ ‖w‖) = A' at g2 hb
      refine le_of_mul_le_mul_left ?_ hcp
      have e1 : |c| * ‖cEval (vals p) w‖ = ‖(c : ℂ) * cEval (vals p) w‖ := by
        rw [norm_mul, Complex.norm_real, Real.norm_eq_abs]
      rw [e1]
      have e2 := norm_sub_le (cEval (vals (scaleCoeffs m p)) w) (cEval (vals (scaleCoeffs m p)) w - c * cEval (vals p) w)
      rw [sub_sub_cancel] at e2
      have hcA := mul_nonneg hcp.le hA
      have hus : 1 + u ≤ 1001 / 1000 := by linarith [hu, show (1 : ℝ) / 10 ^ 11 ≤ 1 / 1000 by norm_num]
      have k1 : A' ≤ 1001 / 1000 * (|c| * A) := g2.trans (mul_le_mul_of_nonneg_right hus hcA)
      have hnn : (1 : ℝ) ≤ p.length * (p.length + 1) := by nlinarith
      have k2 := mul_le_mul_of_nonneg_left k1 (by positivity : 0 ≤ (395 * m.eps.val + 102 * u) * ((p.length : ℝ) * (p.length + 1)))
      have k3 := mul_le_mul_of_nonneg_left hnn (mul_nonneg hu0 hcA)
      have k4 : 0 ≤ m.eps.val * ((p.length : ℝ) * (p.length + 1)) * (|c| * A) := by positivity
      have k5 : 0 ≤ u * ((p.length : ℝ) * (p.length + 1)) * (|c| * A) := by positivity
      generalize (p.length : ℝ) * (p.length + 1) = N at *
      linarith
    · rw [if_neg (by rw [htwo]; simp)] at hd
      rw [htwo]
      have e0 : flComplex (f.roots.sr, f.roots.si) = ((f.roots.sr.val : ℝ) : ℂ) := flComplex_real _ _ (by rw [hsi, n0])
      unfold flDeflates
      rw [List.map_cons, e0]
      have hdiv := dividedReal_fl h hu f.roots.sr p _ c hsc (by omega) r hq
      rw [← hqp] at hdiv
      have hb := real_bound_fl h hu hnat m hm hs f.roots.sr _ (by omega) r hq ht
      rw [hl] at hb
      refine DeflationFl.real c _ hc hdiv ?_ hd
      generalize f.roots.sr.val = s at hb
      obtain ⟨g1, g2⟩ := hsc.values (ρ := |s|) (abs_nonneg s) (s : ℂ) (by rw [Complex.norm_real, Real.norm_eq_abs])
      have hA := absValue_nonneg (vals p) (abs_nonneg s)
      rw [hvl]
      have ev : ∀ l : List ℝ, ((decPoly l).map (algebraMap ℝ ℂ)).eval (s : ℂ) = (((decPoly l).eval s : ℝ) : ℂ) := fun l => by
        rw [← Complex.coe_algebraMap, Polynomial.eval_map_algebraMap, Polynomial.aeval_algebraMap_apply_eq_algebraMap_eval]
      rw [ev, ev, ← Complex.ofReal_mul, ← Complex.ofReal_sub, Complex.norm_real, Real.norm_eq_abs] at g1
      generalize absValue (vals p) |s| = A at g1 g2 hA ⊢
      generalize absValue (vals (scaleCoeffs m p)) |s| = A' at g2 hb
      refine le_of_mul_le_mul_left ?_ hcp
      rw [← abs_mul]
      have e2 := abs_sub ((decPoly (vals (scaleCoeffs m p))).eval s) ((decPoly (vals (scaleCoeffs m p))).eval s - c * (decPoly (vals p)).eval s)
      rw [sub_sub_cancel] at e2
      have hcA := mul_nonneg hcp.le hA
      have hus : 1 + u ≤ 1001 / 1000 := by linarith [hu, show (1 : ℝ) / 10 ^ 11 ≤ 1 / 1000 by norm_num]
      have k1 : A' ≤ 1001 / 1000 * (|c| * A) := g2.trans (mul_le_mul_of_nonneg_right hus hcA)
      have hlen0 : (0 : ℝ) ≤ p.length := by linarith
      have k2 := mul_le_mul_of_nonneg_left k1 (by positivity : 0 ≤ (81 / 2 * m.eps.val + 203 / 100 * u) * (p.length : ℝ))
      have k3 := mul_le_mul_of_nonneg_left hn (mul_nonneg hu0 hcA)
      have k4 : 0 ≤ m.eps.val * (p.length : ℝ) * (|c| * A) := by positivity
      have k5 : 0 ≤ u * (p.length : ℝ) * (|c| * A) := by positivity
      generalize (p.length : ℝ) = N at *
      linarith

end Verif
