import Verif.Model.ExtremaRoots
import Verif.Props.RpolyDeflation
import Verif.Props.RoundedExtrema

/-
Proofs for the search for extrema with the root finder of the code.
-/
set_option linter.unusedSectionVars false

namespace Verif

open Polynomial Spec Set

variable {rnd : ℝ → ℝ} {u : ℝ}

/-- With what the root finder returned, the search is that of `computeMinMaxFl`. -/
theorem computeMinMaxJFl_eq (m : RMath (Fl rnd)) (fuel : ℕ) (p : Poly (Fl rnd)) (a b : Fl rnd) (d : ℤ) (c : List (Fl rnd))
    (hc : p.getCoefficients (d + 1) = .ok c) (r : Bool × Option (List (Fl rnd × Fl rnd))) (hr : findRoots m fuel c = .ok r) :
    p.computeMinMaxJFl m fuel a b d = p.computeMinMaxFl (fun _ => (r.1, r.2.getD [])) a b d := by
  unfold Poly.computeMinMaxJFl Poly.computeMinMaxFl Poly.computeMinMaxM Poly.computeMinMaxG Poly.computeMinMaxCandidatesM
    Poly.computeMinMaxCandidatesG codeRoots
  split
  · rfl
  · rw [hc, Res.ok_bind, Res.ok_bind, hr, Res.ok_bind]
    rfl

/-- What `computeMinMax` returns, in terms of its candidates. -/
theorem minMaxFl_core (h : Rounding rnd u) (rf : RootFinder (Fl rnd)) (p : Poly (Fl rnd))
    (hN : p.N ≤ 22) (k : ℕ) (hk : k < p.N) {a b : Fl rnd} (hab : a.val ≤ b.val)
    (T : ℝ) (ha : |a.val| ≤ T) (hb : |b.val| ≤ T) (E : ℝ)
    (hE : ((1 + u) ^ (2 * p.N) - 1) * derivAt ((vals p.coeffs).map abs) k T ≤ E)
    (hfin : derivAt ((vals p.coeffs).map abs) k T + E < dblMax)
    (c : List (Fl rnd)) (hc : p.getCoefficients ((k : ℤ) + 1) = .ok c) :
    ∃ m M : Fl rnd × Fl rnd, p.computeMinMaxFl rf a b k = .ok (some (m, M)) ∧
      m.1.val ∈ Icc a.val b.val ∧ M.1.val ∈ Icc a.val b.val ∧
      |m.2.val - derivAt (vals p.coeffs) k m.1.val| ≤ E ∧
      |M.2.val - derivAt (vals p.coeffs) k M.1.val| ≤ E ∧
      ∀ s : Fl rnd, s.val ∈ Icc a.val b.val → (s = a ∨ s = b ∨ ∃ im : Fl rnd, (s, im) ∈ (rf c).2 ∧ |im.val| ≤ dblEpsilon) →
        m.2.val - E ≤ derivAt (vals p.coeffs) k s.val ∧ derivAt (vals p.coeffs) k s.val ≤ M.2.val + E := by
  have hu := rounding_nonneg h
  have hγ : 0 ≤ (1 + u) ^ (2 * p.N) - 1 := by
    have := one_le_pow₀ (n := 2 * p.N) (by linarith : (1 : ℝ) ≤ 1 + u)
    linarith
  have hT : ∀ t ∈ Icc a.val b.val, |t| ≤ T := by
    intro t ht
    rw [abs_le] at ha hb ⊢
    exact ⟨by linarith [ha.1, ht.1], by linarith [hb.2, ht.2]⟩
  have hev : ∀ t : Fl rnd, t.val ∈ Icc a.val b.val → ∃ v, p.evaluate t k = .ok v ∧
      |v.val - derivAt (vals p.coeffs) k t.val| ≤ E := by
    intro t ht
    obtain ⟨v, h1, h2⟩ := C99_error h p hN t k
    rw [iteratedDeriv_curve, iteratedDeriv_curve] at h2
    refine ⟨v, h1, h2.trans (le_trans ?_ hE)⟩
    exact mul_le_mul_of_nonneg_left (abs_derivAt_le (vals p.coeffs) k (hT _ ht)).2.1 hγ
  choose! val hval1 hval2 using hev
  obtain ⟨cand, hcand, hmem⟩ := candidatesG_some hab (rf c).2
  have hin : ∀ x ∈ a :: b :: cand, x.val ∈ Icc a.val b.val := by
    intro x hx
    rcases List.mem_cons.mp hx with rfl | hx
    · exact ⟨le_rfl, hab⟩
    · rcases List.mem_cons.mp hx with rfl | hx
      · exact ⟨hab, le_rfl⟩
      · exact ⟨((hmem x).mp hx).1, ((hmem x).mp hx).2.1⟩
  have hmap : ((a :: b :: cand).mapM fun t => do
      let v ← p.evaluate t k
      pure (t, v)) = Res.ok ((a :: b :: cand).map fun t => (t, val t)) := by
    apply Res.mapM_ok
    intro t ht
    rw [hval1 t (hin t ht), Res.ok_bind, Res.pure_eq]
  set tvs := (a :: b :: cand).map fun t => (t, val t) with htvs
  have hres : p.computeMinMaxFl rf a b k =
      .ok (some (tvs.foldl minMaxStepG ((a, ⟨dblMax⟩), (a, -⟨dblMax⟩)))) := by
    unfold Poly.computeMinMaxFl Poly.computeMinMaxG Poly.computeMinMaxCandidatesG
    rw [if_neg (by omega), hc, Res.ok_bind, hcand]
    dsimp only
    rw [Res.pure_eq, Res.ok_bind, if_pos rfl]
    unfold Poly.selectMinMaxFromCandidatesG
    dsimp only
    rw [hmap, Res.ok_bind]
    rfl
  obtain ⟨⟨h1, h2, h3⟩, ⟨h4, h5, h6⟩⟩ := foldl_minMaxStepG tvs (a, ⟨dblMax⟩) (a, -⟨dblMax⟩)
  set r := tvs.foldl minMaxStepG ((a, ⟨dblMax⟩), (a, -⟨dblMax⟩)) with hr
  have hmema : (a, val a) ∈ tvs := by simp [htvs]
  have ha0 : |(val a).val| < dblMax := by
    have q1 := hval2 a ⟨le_rfl, hab⟩
    have q2 := (abs_derivAt_le (vals p.coeffs) k (hT a.val ⟨le_rfl, hab⟩)).1
    have q3 : |(val a).val| ≤ |(val a).val - derivAt (vals p.coeffs) k a.val| + |derivAt (vals p.coeffs) k a.val| := by
      have := abs_add_le ((val a).val - derivAt (vals p.coeffs) k a.val) (derivAt (vals p.coeffs) k a.val)
      rwa [sub_add_cancel] at this
    linarith
  have ha1 := abs_lt.mp ha0
  have m3 : r.1 ∈ tvs := by
    rcases h3 with h3 | h3
    · have := h2 _ hmema
      rw [h3] at this
      exact absurd this (not_le.mpr ha1.2)
    · exact h3
  have m6 : r.2 ∈ tvs := by
    rcases h6 with h6 | h6
    · have := h5 _ hmema
      rw [h6] at this
      exact absurd this (not_le.mpr ha1.1)
    · exact h6
  obtain ⟨x, hx, hx'⟩ := List.mem_map.mp m3
  obtain ⟨y, hy, hy'⟩ := List.mem_map.mp m6
  refine ⟨r.1, r.2, hres, ?_, ?_, ?_, ?_, ?_⟩
  · rw [← hx']; exact hin x hx
  · rw [← hy']; exact hin y hy
  · rw [← hx']; exact hval2 x (hin x hx)
  · rw [← hy']; exact hval2 y (hin y hy)
  · intro s hs hcase
    have hsm : s ∈ a :: b :: cand := by
      rcases hcase with rfl | rfl | hq
      · simp
      · simp
      · right; right
        exact (hmem s).mpr ⟨hs.1, hs.2, hq⟩
    have v1 := h5 _ (List.mem_map.mpr ⟨s, hsm, rfl⟩)
    have v2 := h2 _ (List.mem_map.mpr ⟨s, hsm, rfl⟩)
    have n1 := abs_le.mp (hval2 s hs)
    change (val s).val ≤ r.2.2.val at v1
    change r.1.2.val ≤ (val s).val at v2
    constructor <;> linarith [n1.1, n1.2]

/-- Extrema of `f` from those of a polynomial whose derivative `q'` is close to that of a polynomial close to `f`. -/
theorem extremes_from {f : ℝ → ℝ} {a b E D : ℝ} (hab : a ≤ b) (P P' : ℝ[X]) (hP : ∀ t ∈ Icc a b, |P.eval t - f t| ≤ E)
    (hD : ∀ t ∈ Icc a b, |(derivative P').eval t - (derivative P).eval t| * (b - a) ≤ D) (R S : List ℝ) (haS : a ∈ S)
    (hbS : b ∈ S) (hR : CoversOn 0 a b R (derivative P')) (hRS : ∀ z ∈ R, z ∈ Icc a b → z ∈ S) (t : ℝ) (ht : t ∈ Icc a b) :
    ∃ s ∈ S, ∃ s' ∈ S, s ∈ Icc a b ∧ s' ∈ Icc a b ∧ f t ≤ f s + (2 * E + 2 * D) ∧ f s' - (2 * E + 2 * D) ≤ f t := by
  -- both polynomials differ by a constant and at most `D`
  have hdiff : ∀ s ∈ Icc a b, |(P' - P).eval s - (P' - P).eval a| ≤ D := by
    intro s hs
    rcases eq_or_lt_of_le hs.1 with rfl | has
    · rw [sub_self, abs_zero]
      refine le_trans ?_ (hD _ ht)
      exact mul_nonneg (abs_nonneg _) (by linarith)
    · obtain ⟨x, hx, e⟩ := exists_deriv_eq_slope (fun y => (P' - P).eval y) has (P' - P).continuous.continuousOn
        (P' - P).differentiable.differentiableOn
      rw [Polynomial.deriv, eq_div_iff (by linarith)] at e
      rw [← e, abs_mul, derivative_sub, eval_sub, abs_of_pos (by linarith : 0 < s - a)]
      have hx' : x ∈ Icc a b := ⟨hx.1.le, hx.2.le.trans hs.2⟩
      refine le_trans ?_ (hD x hx')
      exact mul_le_mul_of_nonneg_left (by linarith [hs.2]) (abs_nonneg _)
  obtain ⟨x1, hx1, e1, s1, hs1, g1, d1, -⟩ := near_max_on P' hab le_rfl R S haS hbS hR hRS
  obtain ⟨x2, hx2, e2, s2, hs2, g2, d2, -⟩ := near_min_on P' hab le_rfl R S haS hbS hR hRS
  have q1 : s1 = x1 := by
    have := abs_nonpos_iff.mp d1
    linarith
  have q2 : s2 = x2 := by
    have := abs_nonpos_iff.mp d2
    linarith
  subst q1 q2
  refine ⟨s1, hs1, s2, hs2, g1, g2, ?_, ?_⟩
  · have k1 := abs_le.mp (hdiff t ht)
    have k2 := abs_le.mp (hdiff s1 g1)
    have k3 := abs_le.mp (hP t ht)
    have k4 := abs_le.mp (hP s1 g1)
    have k5 := e1 t ht
    rw [eval_sub, eval_sub] at k1 k2
    linarith [k1.1, k2.2, k3.1, k4.2]
  · have k1 := abs_le.mp (hdiff t ht)
    have k2 := abs_le.mp (hdiff s2 g2)
    have k3 := abs_le.mp (hP t ht)
    have k4 := abs_le.mp (hP s2 g2)
    have k5 := e2 t ht
    rw [eval_sub, eval_sub] at k1 k2
    linarith [k1.2, k2.1, k3.2, k4.1]

/-- A list of numbers up to its last one that is not zero. -/
theorem split_last (l : List (Fl rnd)) : (∀ x ∈ l, x.val = 0) ∨
    ∃ cs a tail, l = cs ++ [a] ++ tail ∧ a.val ≠ 0 ∧ ∀ t ∈ tail, t.val = 0 := by
  induction l using List.reverseRecOn with
  | nil => simp
  | append_singleton l x ih =>
    by_cases hx : x.val = 0
    · rcases ih with h | ⟨cs, a, tail, e, ha, ht⟩
      · left
        intro y hy
        rcases List.mem_append.mp hy with hy | hy
        · exact h y hy
        · rw [List.mem_singleton.mp hy]; exact hx
      · right
        refine ⟨cs, a, tail ++ [x], by rw [e]; simp, ha, ?_⟩
        intro y hy
        rcases List.mem_append.mp hy with hy | hy
        · exact ht y hy
        · rw [List.mem_singleton.mp hy]; exact hx
    · exact Or.inr ⟨l, x, [], by simp, hx, by simp⟩

/-- The value of a polynomial of degree at most two. -/
theorem eval_low (c : List ℝ) (h : ∀ j, 3 ≤ j → c.getD j 0 = 0) (x : ℝ) :
    (ofCoeffs c).eval x = c.getD 2 0 * x ^ 2 + c.getD 1 0 * x + c.getD 0 0 := by
  have e : ofCoeffs c = C (c.getD 2 0) * X ^ 2 + C (c.getD 1 0) * X + C (c.getD 0 0) := by
    ext j
    rw [coeff_ofCoeffs]
    match j with
    | 0 => simp
    | 1 => simp [coeff_C]
    | 2 => simp
    | j + 3 =>
      rw [h (j + 3) (by omega)]
      simp
  rw [e]
  simp

/-- The root finder with a polynomial of degree at most two: a polynomial with close values has its changes of sign at the
zeros returned. -/
theorem findRoots_low (h : Rounding rnd u) (hu : u ≤ 1 / 10 ^ 11) (hnat : ∀ n : ℕ, n < 2 ^ 53 → rnd n = n)
    (m : RMath (Fl rnd)) (hm : RoundedMath m) (hs : RoundedSqrt m) (hd : 0 < m.dblMin.val) (fuel : ℕ) (c : List (Fl rnd))
    (hlow : ∀ j, 3 ≤ j → (vals c).getD j 0 = 0) (hnorm : ∀ x ∈ c, x.val = 0 ∨ m.dblMin.val ≤ |x.val|) :
    ∃ zs, findRoots m fuel c = .ok (true, some zs) ∧ ∃ b2 b1 b0 : ℝ,
      (∀ x, |b2 * x ^ 2 + b1 * x + b0 - (ofCoeffs (vals c)).eval x| ≤
        120 * u * (|(vals c).getD 2 0| * |x| ^ 2 + |(vals c).getD 1 0| * |x| + |(vals c).getD 0 0|)) ∧
      ∀ x y, x < y → (b2 * x ^ 2 + b1 * x + b0) * (b2 * y ^ 2 + b1 * y + b0) < 0 →
        ∃ z ∈ zs, z.2.val = 0 ∧ x ≤ z.1.val ∧ z.1.val ≤ y := by
  have hu0 := rounding_nonneg h
  have habs : ∀ x : ℝ, 0 ≤ |(vals c).getD 2 0| * |x| ^ 2 + |(vals c).getD 1 0| * |x| + |(vals c).getD 0 0| := fun x => by
    positivity
  rcases split_last c with hz | ⟨cs, a, tail, e, ha, ht⟩
  · have hlast : findLastNonZeroCoeff m c = none := by
      unfold findLastNonZeroCoeff
      rw [List.find?_eq_none]
      intro i hi
      have hi' : i < c.length := by simpa using hi
      rw [List.getElem?_eq_getElem hi']
      have h0 := hz c[i] (List.getElem_mem hi')
      have : ¬ m.dblMin ≤ m.fabs c[i] := by
        change ¬ m.dblMin.val ≤ (m.fabs c[i]).val
        rw [hm.fabs, h0, abs_zero]
        linarith
      simp [this]
    refine ⟨[], ?_, 0, 0, 0, ?_, ?_⟩
    · unfold findRoots
      rw [hlast]
    · intro x
      have hv : ∀ j, (vals c).getD j 0 = 0 := by
        intro j
        rw [vals_getD, List.getD_eq_getElem?_getD]
        by_cases hj : j < c.length
        · rw [List.getElem?_eq_getElem hj]
          exact hz _ (List.getElem_mem hj)
        · rw [List.getElem?_eq_none (by omega)]
          rfl
      rw [eval_low _ hlow, hv, hv, hv]
      simp
    · intro x y _ hxy
      simp at hxy
  · have hamin : m.dblMin.val ≤ |a.val| := by
      rcases hnorm a (by rw [e]; simp) with h0 | h0
      · exact absurd h0 ha
      · exact h0
    have htail : ∀ t ∈ tail, |t.val| < m.dblMin.val := by
      intro t htt
      rw [ht t htt, abs_zero]
      exact hd
    have hcs : cs.length ≤ 2 := by
      by_contra hh
      have := hlow cs.length (by omega)
      rw [vals_getD, e, List.append_assoc, List.getD_append_right _ _ _ _ (Nat.le_refl _), Nat.sub_self] at this
      exact ha this
    match cs, hcs with
    | [], _ =>
      have hlast := findLast_fl m hm [] tail a hamin htail
      rw [← e] at hlast
      have hv : ∀ j, 1 ≤ j → (vals c).getD j 0 = 0 := by
        intro j hj
        rw [vals_getD, e, List.nil_append, List.getD_append_right _ _ _ _ (by simpa using hj), List.getD_eq_getElem?_getD]
        by_cases hj : j - [a].length < tail.length
        · rw [List.getElem?_eq_getElem hj]
          exact ht _ (List.getElem_mem hj)
        · rw [List.getElem?_eq_none (by omega)]
          rfl
      refine ⟨[], ?_, 0, 0, (vals c).getD 0 0, ?_, ?_⟩
      · unfold findRoots
        rw [hlast]
        rfl
      · intro x
        rw [eval_low _ hlow, hv 2 (by norm_num), hv 1 (by norm_num)]
        simp
        positivity
      · intro x y _ hxy
        simp only [zero_mul, zero_add] at hxy
        nlinarith
    | [c0], _ =>
      have g0 : (vals c).getD 0 0 = c0.val := by rw [vals_getD, e]; rfl
      have g1 : (vals c).getD 1 0 = a.val := by rw [vals_getD, e]; rfl
      have g2 : (vals c).getD 2 0 = 0 := by
        rw [vals_getD, e, List.getD_append_right _ _ _ _ (by simp), List.getD_eq_getElem?_getD]
        cases tail with
        | nil => rfl
        | cons t ts => exact ht t (by simp)
      obtain ⟨z, hz, hzi, hzr⟩ := C125_degree_one h m hm hd fuel c0 a tail hamin htail
      have e' : c = [c0, a] ++ tail := by rw [e]; rfl
      rw [← e'] at hz
      refine ⟨[z], hz, 0, a.val, -(a.val * z.1.val), ?_, ?_⟩
      · intro x
        refine le_trans ?_ (le_trans (b := u * |c0.val|) ?_ ?_) (b := u * |c0.val|)
        · rw [eval_low _ hlow, g0, g1, g2]
          have e2 : 0 * x ^ 2 + a.val * x + -(a.val * z.1.val) - (0 * x ^ 2 + a.val * x + c0.val) =
              -(a.val * (z.1.val - -(c0.val / a.val))) := by
            field_simp
            ring
          rw [e2, abs_neg, abs_mul]
          have := mul_le_mul_of_nonneg_left hzr (abs_nonneg a.val)
          rw [abs_div] at this
          have e3 : |a.val| * (u * (|c0.val| / |a.val|)) = u * |c0.val| := by
            have := abs_ne_zero.mpr ha
            field_simp
          rwa [e3] at this
        · exact le_rfl
        · rw [g0, g1, g2, abs_zero, zero_mul, zero_add]
          have k1 : 0 ≤ u * (|a.val| * |x|) := by positivity
          have k2 : 0 ≤ u * |c0.val| := by positivity
          linarith
      · intro x y hxy hneg
        refine ⟨z, by simp, hzi, ?_⟩
        have e2 : (0 * x ^ 2 + a.val * x + -(a.val * z.1.val)) * (0 * y ^ 2 + a.val * y + -(a.val * z.1.val)) =
            a.val ^ 2 * ((x - z.1.val) * (y - z.1.val)) := by ring
        rw [e2] at hneg
        have h3 : (x - z.1.val) * (y - z.1.val) < 0 := by
          by_contra hh
          have := mul_nonneg (sq_nonneg a.val) (not_lt.mp hh)
          linarith
        rcases mul_neg_iff.mp h3 with ⟨p1, p2⟩ | ⟨p1, p2⟩
        · linarith
        · exact ⟨by linarith, by linarith⟩
    | [c0, c1], _ =>
      have g0 : (vals c).getD 0 0 = c0.val := by rw [vals_getD, e]; rfl
      have g1 : (vals c).getD 1 0 = c1.val := by rw [vals_getD, e]; rfl
      have g2 : (vals c).getD 2 0 = a.val := by rw [vals_getD, e]; rfl
      have e' : c = [c0, c1, a] ++ tail := by rw [e]; rfl
      obtain ⟨z, w, hz, hq⟩ := C125_degree_two h hu hnat m hm hs hd fuel c0 c1 a tail hamin htail
      obtain ⟨z', w', hz', hcase⟩ : ∃ z' w', findRoots m fuel c = .ok (true, some [z', w']) ∧
          (z'.2.val = 0 ∧ w'.2.val = 0 ∨ (⟨w'.1.val, w'.2.val⟩ : ℂ) = (starRingEnd ℂ) ⟨z'.1.val, z'.2.val⟩) := by
        refine ⟨z, w, by rw [e']; exact hz, ?_⟩
        have hr : findRoots m fuel ([c0, c1] ++ [a] ++ tail) = .ok (true, some [z, w]) := hz
        by_cases hzi : z.2.val = 0
        · by_cases hwi : w.2.val = 0
          · exact Or.inl ⟨hzi, hwi⟩
          · have hc1 := C125_conjugate h hu hnat m hm hs fuel [c0, c1] tail a hamin htail true [z, w] hr w (by simp) hwi
            rcases List.mem_cons.mp hc1 with q | q
            · exfalso
              have : (-w.2).val = 0 := by rw [← hzi, ← q]
              have h3 : (-w.2).val = -w.2.val := rfl
              exact hwi (by linarith)
            · exfalso
              have q := List.mem_singleton.mp q
              have : (-w.2).val = w.2.val := by
                conv_rhs => rw [← q]
              have h3 : (-w.2).val = -w.2.val := rfl
              exact hwi (by linarith)
        · have hc1 := C125_conjugate h hu hnat m hm hs fuel [c0, c1] tail a hamin htail true [z, w] hr z (by simp) hzi
          rcases List.mem_cons.mp hc1 with q | q
          · exfalso
            have : (-z.2).val = z.2.val := by
              conv_rhs => rw [← q]
            have h3 : (-z.2).val = -z.2.val := rfl
            exact hzi (by linarith)
          · right
            have q := List.mem_singleton.mp q
            rw [← q]
            apply Complex.ext
            · simp
            · simp only [Complex.conj_im]
              rfl
      have hsame : z' = z ∧ w' = w := by
        rw [e'] at hz'
        have := hz'.symm.trans hz
        simpa using this
      obtain ⟨rfl, rfl⟩ := hsame
      have hval := hq.value (by positivity) (by linarith [hu, show 40 * ((1 : ℝ) / 10 ^ 11) ≤ 1 / 100 by norm_num])
      refine ⟨[z', w'], hz', a.val, -(a.val * (z'.1.val + w'.1.val)), a.val * (z'.1.val * w'.1.val - z'.2.val * w'.2.val), ?_, ?_⟩
      · intro x
        have := hval x
        rw [eval_low _ hlow, g0, g1, g2]
        have e2 : (a.val : ℂ) * ((x - ⟨z'.1.val, z'.2.val⟩) * (x - ⟨w'.1.val, w'.2.val⟩)) -
            ((a.val * x ^ 2 + c1.val * x + c0.val : ℝ) : ℂ) =
            ((a.val * x ^ 2 + -(a.val * (z'.1.val + w'.1.val)) * x + a.val * (z'.1.val * w'.1.val - z'.2.val * w'.2.val) -
              (a.val * x ^ 2 + c1.val * x + c0.val) : ℝ) : ℂ) := by
          apply Complex.ext
          · simp [sq]
            ring
          · rcases hcase with ⟨q1, q2⟩ | q
            · simp [sq, q1, q2]
            · have q1 := congrArg Complex.re q
              have q2 := congrArg Complex.im q
              simp at q1 q2
              simp [sq, q1, q2]
              right
              ring
        rw [e2, Complex.norm_real, Real.norm_eq_abs] at this
        refine this.trans (le_of_eq ?_)
        ring
      · intro x y hxy hneg
        rcases hcase with ⟨q1, q2⟩ | q
        · rw [q1, q2] at hneg
          have e2 : (a.val * x ^ 2 + -(a.val * (z'.1.val + w'.1.val)) * x + a.val * (z'.1.val * w'.1.val - 0 * 0)) *
              (a.val * y ^ 2 + -(a.val * (z'.1.val + w'.1.val)) * y + a.val * (z'.1.val * w'.1.val - 0 * 0)) =
              a.val ^ 2 * (((x - z'.1.val) * (y - z'.1.val)) * ((x - w'.1.val) * (y - w'.1.val))) := by ring
          rw [e2] at hneg
          have h3 : ((x - z'.1.val) * (y - z'.1.val)) * ((x - w'.1.val) * (y - w'.1.val)) < 0 := by
            by_contra hh
            have := mul_nonneg (sq_nonneg a.val) (not_lt.mp hh)
            linarith
          have one : ∀ r : ℝ, (x - r) * (y - r) < 0 → x ≤ r ∧ r ≤ y := by
            intro r hr
            rcases mul_neg_iff.mp hr with ⟨p1, p2⟩ | ⟨p1, p2⟩
            · linarith
            · exact ⟨by linarith, by linarith⟩
          rcases mul_neg_iff.mp h3 with ⟨_, p⟩ | ⟨p, _⟩
          · exact ⟨w', by simp, q2, one _ p⟩
          · exact ⟨z', by simp, q1, one _ p⟩
        · exfalso
          have q1 := congrArg Complex.re q
          have q2 := congrArg Complex.im q
          simp at q1 q2
          rw [q1, q2] at hneg
          have e2 : ∀ t, a.val * t ^ 2 + -(a.val * (z'.1.val + z'.1.val)) * t + a.val * (z'.1.val * z'.1.val - z'.2.val * -z'.2.val) =
              a.val * ((t - z'.1.val) ^ 2 + z'.2.val ^ 2) := fun t => by ring
          rw [e2, e2] at hneg
          have : 0 ≤ a.val ^ 2 * (((x - z'.1.val) ^ 2 + z'.2.val ^ 2) * ((y - z'.1.val) ^ 2 + z'.2.val ^ 2)) := by positivity
          linarith

/-- The coefficients of the derivative that are handed to the root finder. -/
theorem getCoefficients_entries (h : Rounding rnd u) (hu : u ≤ 1 / 10 ^ 11) (p : Poly (Fl rnd)) (k : ℕ) (hk : k < p.N)
    (hN : p.N ≤ 22) (hk2 : k + 1 < 22) :
    ∃ c c', p.getCoefficients ((k : ℤ) + 1) = .ok c ∧ List.Forall₂ (Close u (2 * p.N)) c' (vals p.coeffs) ∧
      ofCoeffs (vals c) = derivative^[k + 1] (ofCoeffs c') ∧ c.length ≤ 22 ∧
      ∀ j, |(vals c).getD j 0| ≤ (1 + u) ^ (2 * p.N) * (((k + 1 + j).descFactorial (k + 1) : ℝ) * |(vals p.coeffs).getD (k + 1 + j) 0|) ∧
        |(vals p.coeffs).getD (k + 1 + j) 0| ≤ 2 * |(vals c).getD j 0| := by
  have hu0 := rounding_nonneg h
  obtain ⟨c, c', hc, hclose, hof⟩ := getCoefficients_rounded h p k hk hN hk2
  have hlen : c.length ≤ 22 := by
    have hc2 := hc
    unfold Poly.getCoefficients at hc2
    rw [Res.check_of (by omega), Res.ok_bind, if_neg (by omega), if_neg (by unfold kMaxConvolutionSize; omega)] at hc2
    have := Res.ok.inj hc2
    rw [← this, List.length_append, List.length_map, List.length_range, List.length_replicate]
    omega
  refine ⟨c, c', hc, hclose, hof, hlen, fun j => ?_⟩
  have hcl : Close u (2 * p.N) (c'.getD (k + 1 + j) 0) ((vals p.coeffs).getD (k + 1 + j) 0) := by
    by_cases hj : k + 1 + j < (vals p.coeffs).length
    · have hj' : k + 1 + j < c'.length := by rw [hclose.length_eq]; exact hj
      have := (List.forall₂_iff_get.mp hclose).2 (k + 1 + j) hj' hj
      simpa [List.getD_eq_getElem?_getD, hj, hj'] using this
    · have hj' : ¬ k + 1 + j < c'.length := by rw [hclose.length_eq]; exact hj
      rw [List.getD_eq_getElem?_getD, List.getD_eq_getElem?_getD, List.getElem?_eq_none (by omega),
        List.getElem?_eq_none (by omega)]
      unfold Close
      simp
  have hcoef : (vals c).getD j 0 = ((k + 1 + j).descFactorial (k + 1) : ℝ) * c'.getD (k + 1 + j) 0 := by
    have := congrArg (fun q => q.coeff j) hof
    rw [coeff_ofCoeffs, coeff_iterate_derivative, coeff_ofCoeffs, nsmul_eq_mul, add_comm j (k + 1)] at this
    exact this
  have hdf : (1 : ℝ) ≤ ((k + 1 + j).descFactorial (k + 1) : ℝ) := by
    have : 0 < (k + 1 + j).descFactorial (k + 1) := Nat.descFactorial_pos.mpr (by omega)
    exact_mod_cast this
  have hsmall : (1 + u) ^ (2 * p.N) - 1 ≤ 1 / 2 := by
    have hn : ((2 * p.N : ℕ) : ℝ) ≤ 44 := by
      have : 2 * p.N ≤ 44 := by omega
      exact_mod_cast this
    have hnu : ((2 * p.N : ℕ) : ℝ) * u ≤ 44 * u := mul_le_mul_of_nonneg_right hn hu0
    have := pow_small hu0 (2 * p.N) (by linarith [hu, show (102 : ℝ) * (44 * (1 / 10 ^ 11)) ≤ 1 by norm_num])
    linarith [show (101 / 100 : ℝ) * (44 * (1 / 10 ^ 11)) ≤ 1 / 2 by norm_num]
  unfold Close at hcl
  set y := (vals p.coeffs).getD (k + 1 + j) 0
  set x := c'.getD (k + 1 + j) 0
  have h1 : |x| ≤ |x - y| + |y| := by
    have := abs_add_le (x - y) y
    rwa [sub_add_cancel] at this
  have h2 : |y| ≤ |x - y| + |x| := by
    have := abs_add_le (y - x) x
    rwa [sub_add_cancel, abs_sub_comm] at this
  rw [hcoef, abs_mul, Nat.abs_cast]
  constructor
  · have h3 : |x| ≤ (1 + u) ^ (2 * p.N) * |y| := by linarith
    have := mul_le_mul_of_nonneg_left h3 (by linarith : (0 : ℝ) ≤ ((k + 1 + j).descFactorial (k + 1) : ℝ))
    linarith
  · have h3 := mul_le_mul_of_nonneg_right hsmall (abs_nonneg y)
    have h4 := mul_le_mul_of_nonneg_right hdf (abs_nonneg x)
    linarith

/-- Three terms of a derivative with positive terms. -/
theorem three_le_derivAt (c : List ℝ) (k : ℕ) {T : ℝ} (hT : 0 ≤ T) :
    ∑ i ∈ Finset.range 3, ((k + i).descFactorial k : ℝ) * |c.getD (k + i) 0| * T ^ i ≤ derivAt (c.map abs) k T := by
  have hc : ∀ i, (c.map abs).getD i 0 = |c.getD i 0| := by
    intro i
    rw [List.getD_eq_getElem?_getD, List.getD_eq_getElem?_getD, List.getElem?_map]
    cases c[i]? <;> simp
  rw [derivAt_eq_sum, List.length_map]
  simp only [hc]
  set f : ℕ → ℝ := fun i => ((k + i).descFactorial k : ℝ) * |c.getD (k + i) 0| * T ^ i with hf
  have hpos : ∀ i, 0 ≤ f i := fun i => by
    simp only [hf]
    positivity
  have hz : ∀ i, c.length - k ≤ i → f i = 0 := by
    intro i hi
    simp only [hf]
    rw [List.getD_eq_getElem?_getD, List.getElem?_eq_none (by omega)]
    simp
  by_cases h3 : 3 ≤ c.length - k
  · exact Finset.sum_le_sum_of_subset_of_nonneg (Finset.range_mono h3) fun i _ _ => hpos i
  · refine le_of_eq (Finset.sum_subset (Finset.range_mono (by omega)) fun i _ hi => hz i ?_).symm
    simpa using hi

end Verif
