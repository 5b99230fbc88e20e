import Verif.Model.RoundedHalfPlane
import Verif.Spec.RoundedHalfPlane
import Verif.Proofs.RoundedMapping
import Verif.Proofs.RoundedMagnitude
import Verif.Props.RoundedExtrema

/- Helper lemmas for half planes with rounded numbers. -/
set_option linter.unusedSectionVars false

namespace Verif

open Polynomial Spec Set

theorem CoeffNear.deriv {α : ℝ} {X' X A : ℝ[X]} (h : CoeffNear α X' X A) :
    CoeffNear α (derivative X') (derivative X) (derivative A) := by
  intro i
  obtain ⟨h1, h2⟩ := h (i + 1)
  have hi : (0 : ℝ) ≤ (i : ℝ) + 1 := by positivity
  simp only [coeff_derivative]
  rw [← sub_mul, abs_mul, abs_mul, abs_of_nonneg hi, ← mul_assoc]
  exact ⟨mul_le_mul_of_nonneg_right h1 hi, mul_le_mul_of_nonneg_right h2 hi⟩

theorem CoeffNear.abs_eval {α : ℝ} (hα : 1 ≤ α) {X' X A : ℝ[X]} (h : CoeffNear α X' X A) {t T : ℝ} (ht : |t| ≤ T) :
    |X'.eval t| ≤ α * A.eval T := by
  have hz : CoeffNear (α + 1) X' 0 A := by
    intro i
    rw [coeff_zero, sub_zero, abs_zero, add_sub_cancel_right]
    exact ⟨h.le i, (abs_nonneg _).trans (h i).2⟩
  have := hz.eval (by linarith) ht
  rwa [eval_zero, sub_zero, add_sub_cancel_right] at this

variable {rnd : ℝ → ℝ} {u : ℝ}

theorem Near.rounded (h : Rounding rnd u) {m : ℕ} {x y a : ℝ} (hx : Near u m x y a) : Near u (m + 1) (rnd x) y a := by
  have hu := rounding_nonneg h
  refine ⟨hx.1, ?_⟩
  have h1 := h.rel x
  have h2 := hx.abs_le
  have h3 := hx.2
  have e : |rnd x - y| ≤ |rnd x - x| + |x - y| := by simpa using abs_add_le (rnd x - x) (x - y)
  have h4 := mul_le_mul_of_nonneg_left h2 hu
  rw [pow_succ]
  nlinarith

theorem Near.add {m : ℕ} {x X a y Y b : ℝ} (h1 : Near u m x X a) (h2 : Near u m y Y b) :
    Near u m (x + y) (X + Y) (a + b) := by
  refine ⟨(abs_add_le _ _).trans (add_le_add h1.1 h2.1), ?_⟩
  rw [show x + y - (X + Y) = (x - X) + (y - Y) by ring, mul_add]
  exact (abs_add_le _ _).trans (add_le_add h1.2 h2.2)

theorem Near.sub {m : ℕ} {x X a y Y b : ℝ} (h1 : Near u m x X a) (h2 : Near u m y Y b) :
    Near u m (x - y) (X - Y) (a + b) := by
  refine ⟨(abs_sub _ _).trans (add_le_add h1.1 h2.1), ?_⟩
  rw [show x - y - (X - Y) = (x - X) - (y - Y) by ring, mul_add]
  exact (abs_sub _ _).trans (add_le_add h1.2 h2.2)

/-- The polynomial of the first three dimensions along a normal. -/
noncomputable def projPoly (n : Fin 3 → ℝ) (c : Fin 3 → List ℝ) : ℝ[X] := ∑ i, C (n i) * ofCoeffs (c i)

theorem projPoly_coeff (n : Fin 3 → ℝ) (c : Fin 3 → List ℝ) (j : ℕ) :
    (projPoly n c).coeff j = ∑ i, n i * (c i).getD j 0 := by
  unfold projPoly
  rw [finsetSum_coeff]
  refine Finset.sum_congr rfl fun i _ => ?_
  rw [coeff_C_mul, coeff_ofCoeffs]

theorem projPoly_deriv (n : Fin 3 → ℝ) (c : Fin 3 → List ℝ) (k : ℕ) (t : ℝ) :
    (derivative^[k] (projPoly n c)).eval t = ∑ i, n i * derivAt (c i) k t := by
  unfold projPoly derivAt
  rw [iterate_derivative_sum, eval_finsetSum]
  refine Finset.sum_congr rfl fun i _ => ?_
  rw [iterate_derivative_C_mul, eval_mul, eval_C]

theorem zipAdd_getD (a b : List (Fl rnd)) (hl : a.length = b.length) (j : ℕ) (hj : j < a.length) :
    (List.zipWith (· + ·) a b).getD j 0 = a.getD j 0 + b.getD j 0 := by
  simp [List.getD_eq_getElem?_getD, List.getElem?_zipWith, List.getElem?_eq_getElem hj,
    List.getElem?_eq_getElem (hl ▸ hj : j < b.length)]

theorem mulMap_getD (a : List (Fl rnd)) (x : Fl rnd) (j : ℕ) (hj : j < a.length) :
    (a.map (· * x)).getD j 0 = a.getD j 0 * x := by
  simp [List.getD_eq_getElem?_getD, List.getElem?_eq_getElem hj]

/-- The projection with rounding. -/
theorem projection_near (h : Rounding rnd u) (s : Segment (Fl rnd)) (hs : s.WF) (n : Fin 3 → Fl rnd)
    (p0 p1 p2 : Poly (Fl rnd)) (ps : List (Poly (Fl rnd))) (he : s.polys = p0 :: p1 :: p2 :: ps) :
    ∃ q, projectionG s n = .ok q ∧ q.N = s.N ∧
      CoeffNear ((1 + u) ^ 4) (ofCoeffs (vals q.coeffs))
        (projPoly (fun i => (n i).val) (fun i => vals (![p0, p1, p2] i).coeffs))
        (projPoly (fun i => |(n i).val|) (fun i => (vals (![p0, p1, p2] i).coeffs).map abs)) := by
  have hu := rounding_nonneg h
  have l0 : p0.coeffs.length = s.N := hs.polysN p0 (by simp [he])
  have l1 : p1.coeffs.length = s.N := hs.polysN p1 (by simp [he])
  have l2 : p2.coeffs.length = s.N := hs.polysN p2 (by simp [he])
  have g0 : s.get ((0 : Fin 3) : ℕ) = .ok p0 := by simp [Segment.get, Segment.D, he, Res.check, Res.at']
  have g1 : s.get ((1 : Fin 3) : ℕ) = .ok p1 := by simp [Segment.get, Segment.D, he, Res.check, Res.at']
  have g2 : s.get ((2 : Fin 3) : ℕ) = .ok p2 := by simp [Segment.get, Segment.D, he, Res.check, Res.at']
  set z0 := List.zipWith (· + ·) (List.replicate s.N (0 : Fl rnd)) (p0.coeffs.map (· * n 0)) with hz0
  set z1 := List.zipWith (· + ·) z0 (p1.coeffs.map (· * n 1)) with hz1
  set z2 := List.zipWith (· + ·) z1 (p2.coeffs.map (· * n 2)) with hz2
  have m0 : z0.length = s.N := by simp [hz0, l0]
  have m1 : z1.length = s.N := by simp [hz1, m0, l1]
  have m2 : z2.length = s.N := by simp [hz2, m1, l2]
  refine ⟨⟨z2⟩, ?_, m2, fun j => ?_⟩
  · unfold projectionG
    simp only [List.foldlM_cons, List.foldlM_nil, g0, g1, g2, Res.ok_bind, Poly.add, Poly.zero, Poly.smul, Poly.N,
      List.length_replicate, List.length_map, l0, l1, l2, if_true, ← hz0, m0, ← hz1, m1, ← hz2]
    rfl
  · rw [projPoly_coeff, projPoly_coeff, coeff_ofCoeffs, vals_getD]
    simp only [abs_getD, vals_getD]
    by_cases hj : j < s.N
    · have r0 : (z0.getD j 0).val = rnd (0 + rnd ((p0.coeffs.getD j 0).val * (n 0).val)) := by
        rw [hz0, zipAdd_getD _ _ (by simp [l0]) _ (by simpa using hj), mulMap_getD _ _ _ (by omega)]
        change rnd (((List.replicate s.N (0 : Fl rnd)).getD j 0).val + _) = _
        rw [List.getD_eq_getElem?_getD, List.getElem?_replicate, if_pos hj]
        rfl
      have r1 : (z1.getD j 0).val = rnd ((z0.getD j 0).val + rnd ((p1.coeffs.getD j 0).val * (n 1).val)) := by
        rw [hz1, zipAdd_getD _ _ (by simp [l1, m0]) _ (by omega), mulMap_getD _ _ _ (by omega)]
        rfl
      have r2 : (z2.getD j 0).val = rnd ((z1.getD j 0).val + rnd ((p2.coeffs.getD j 0).val * (n 2).val)) := by
        rw [hz2, zipAdd_getD _ _ (by simp [l2, m1]) _ (by omega), mulMap_getD _ _ _ (by omega)]
        rfl
      have pr : ∀ (a b : ℝ), Near u 1 (rnd (a * b)) (a * b) |a * b| := fun a b =>
        Near.rounded h (Near.self (a * b))
      have n0 : Near u 2 (z0.getD j 0).val ((p0.coeffs.getD j 0).val * (n 0).val)
          |(p0.coeffs.getD j 0).val * (n 0).val| := by
        rw [r0, zero_add]
        exact (pr _ _).rounded h
      have n1 := r1 ▸ (n0.add ((pr (p1.coeffs.getD j 0).val (n 1).val).mono hu (by omega))).rounded h
      have n2 := r2 ▸ (n1.add ((pr (p2.coeffs.getD j 0).val (n 2).val).mono hu (by omega))).rounded h
      simp only [abs_mul] at n2
      have e1 : ∑ i, (n i).val * ((![p0, p1, p2] i).coeffs.getD j 0).val =
          (p0.coeffs.getD j 0).val * (n 0).val + (p1.coeffs.getD j 0).val * (n 1).val +
            (p2.coeffs.getD j 0).val * (n 2).val := by
        rw [Fin.sum_univ_three]
        simp only [Matrix.cons_val_zero, Matrix.cons_val_one, Matrix.cons_val]
        ring
      have e2 : ∑ i, |(n i).val| * |((![p0, p1, p2] i).coeffs.getD j 0).val| =
          |(p0.coeffs.getD j 0).val| * |(n 0).val| + |(p1.coeffs.getD j 0).val| * |(n 1).val| +
            |(p2.coeffs.getD j 0).val| * |(n 2).val| := by
        rw [Fin.sum_univ_three]
        simp only [Matrix.cons_val_zero, Matrix.cons_val_one, Matrix.cons_val]
        ring
      rw [e1, e2]
      exact ⟨n2.2, n2.1⟩
    · have ez : ∀ l : List (Fl rnd), l.length = s.N → (l.getD j 0).val = 0 := by
        intro l hl
        rw [List.getD_eq_getElem?_getD, List.getElem?_eq_none (by omega)]
        rfl
      simp only [Fin.sum_univ_three, Matrix.cons_val_zero, Matrix.cons_val_one, Matrix.cons_val, ez _ l0, ez _ l1,
        ez _ l2, ez _ m2]
      simp

/-- The polynomial whose derivative is searched for roots. -/
theorem projection_candidates (h : Rounding rnd u) (s : Segment (Fl rnd)) (hs : s.WF) (hN : 1 ≤ s.N) (n : Fin 3 → Fl rnd)
    (p0 p1 p2 : Poly (Fl rnd)) (ps : List (Poly (Fl rnd))) (he : s.polys = p0 :: p1 :: p2 :: ps) (rf : RootFinder (Fl rnd))
    (hT : 0 ≤ s.time.val) :
    ∃ q c P cand, projectionG s n = .ok q ∧ ofCoeffs (vals c) = derivative P ∧
      CoeffNear ((1 + u) ^ (2 * s.N + 4)) P
        (projPoly (fun i => (n i).val) (fun i => vals (![p0, p1, p2] i).coeffs))
        (projPoly (fun i => |(n i).val|) (fun i => (vals (![p0, p1, p2] i).coeffs).map abs)) ∧
      q.computeMinMaxCandidatesG Fl.abs ⟨dblEpsilon⟩ rf 0 s.time 0 = .ok (true, 0 :: s.time :: cand) ∧
      ∀ x, x ∈ cand ↔ 0 ≤ x.val ∧ x.val ≤ s.time.val ∧ ∃ im : Fl rnd, (x, im) ∈ (rf c).2 ∧ |im.val| ≤ dblEpsilon := by
  have hu := rounding_nonneg h
  obtain ⟨q, hq, hqN, hnear⟩ := projection_near h s hs n p0 p1 p2 ps he
  obtain ⟨c, c', hc, hclose, hder⟩ := getCoefficients_rounded h q 0 (by omega) (by rw [hqN]; exact hs.small) (by omega)
  obtain ⟨cand, hcand, hmem⟩ := candidatesG_some (a := (0 : Fl rnd)) (b := s.time) hT (rf c).2
  refine ⟨q, c, ofCoeffs c', cand, hq, hder, ?_, ?_, hmem⟩
  · intro j
    have h1 := hnear j
    refine ⟨?_, h1.2⟩
    have h2 : |(ofCoeffs c').coeff j - (ofCoeffs (vals q.coeffs)).coeff j| ≤
        ((1 + u) ^ (2 * s.N) - 1) * |(ofCoeffs (vals q.coeffs)).coeff j| := by
      rw [coeff_ofCoeffs, coeff_ofCoeffs]
      by_cases hj : j < (vals q.coeffs).length
      · have hj' : j < c'.length := by rw [hclose.length_eq]; exact hj
        have := (List.forall₂_iff_get.mp hclose).2 j hj' hj
        rw [hqN] at this
        simpa [Close, List.getD_eq_getElem?_getD, hj, hj'] using this
      · have hj' : c'.length ≤ j := by rw [hclose.length_eq]; omega
        rw [List.getD_eq_getElem?_getD, List.getD_eq_getElem?_getD, List.getElem?_eq_none hj',
          List.getElem?_eq_none (by omega)]
        simp
    have h3 := hnear.le j
    have g := one_le_pow_u h (2 * s.N)
    have g4 := one_le_pow_u h 4
    have hA := (abs_nonneg _).trans h1.2
    have h4 := mul_le_mul_of_nonneg_left h3 (by linarith : 0 ≤ (1 + u) ^ (2 * s.N) - 1)
    have e := abs_add_le ((ofCoeffs c').coeff j - (ofCoeffs (vals q.coeffs)).coeff j)
      ((ofCoeffs (vals q.coeffs)).coeff j - (projPoly (fun i => (n i).val)
        (fun i => vals (![p0, p1, p2] i).coeffs)).coeff j)
    rw [sub_add_sub_cancel] at e
    have h5 := h1.1
    rw [pow_add]
    nlinarith
  · unfold Poly.computeMinMaxCandidatesG
    rw [if_neg (by omega), show (0 : ℤ) + 1 = ((0 : ℕ) : ℤ) + 1 by rfl, hc, Res.ok_bind, hcand]
    rfl

theorem vec3_cons (p0 p1 p2 : Poly ℝ) (ps : List (Poly ℝ)) (k : ℕ) (t : ℝ) (i : Fin 3) :
    vec3 (p0 :: p1 :: p2 :: ps) k t i = derivAt (![p0, p1, p2] i).coeffs k t := by
  unfold vec3 valuesAt
  fin_cases i <;> simp [iteratedDeriv_curve]

/-- One candidate with rounding. -/
theorem candidate_near (h : Rounding rnd u) {dot : Dot (Fl rnd)} (hd : DotOk u dot) (s : Segment (Fl rnd)) (hs : s.WF)
    (hp : HalfPlane (Fl rnd)) (hD : 3 ≤ s.D) {T : ℝ} (t : Fl rnd) (ht : |t.val| ≤ T) :
    ∃ v x, s.evaluate t 0 = .ok v ∧ vecHead3 v = .ok x ∧
      |(dot 3 (fun i => x i - hp.point i) hp.normal).val - distanceAt s hp t.val| ≤
        ((1 + u) ^ (2 * s.N + 4) - 1) * (normalSize s hp 0 T + pointSize hp) := by
  have hu := rounding_nonneg h
  obtain ⟨p0, p1, p2, ps, he⟩ : ∃ p0 p1 p2 ps, s.polys = p0 :: p1 :: p2 :: ps := by
    unfold Segment.D at hD
    match e : s.polys, hD with
    | p0 :: p1 :: p2 :: ps, _ => exact ⟨p0, p1, p2, ps, rfl⟩
  have hsm : ∀ p ∈ s.polys, p.N ≤ 22 := fun p hp => by rw [hs.polysN p hp]; exact hs.small
  obtain ⟨v, hv, hf⟩ := C99_segment h s hsm t 0
  have hval : ∀ (p : Poly (Fl rnd)) (y : Fl rnd), p ∈ s.polys → (∃ c, List.Forall₂ (Close u (2 * p.N)) c (vals p.coeffs) ∧
      y.val = iteratedDeriv 0 (curve c) t.val) →
      Near u (2 * s.N) y.val (derivAt (vals p.coeffs) 0 t.val) (derivAt ((vals p.coeffs).map abs) 0 T) := by
    rintro p y hp ⟨c, hc, hy⟩
    obtain ⟨q1, q2, q3⟩ := abs_derivAt_le (vals p.coeffs) 0 ht
    refine ⟨q1, ?_⟩
    rw [hy, iteratedDeriv_curve]
    have q := derivAt_close (d := 0) hc t.val
    rw [hs.polysN p hp] at q
    exact q.trans (mul_le_mul_of_nonneg_left q2 (by linarith [one_le_pow_u h (2 * s.N)]))
  rw [he] at hf
  match v, hf with
  | y0 :: y1 :: y2 :: ys, .cons f0 (.cons f1 (.cons f2 _)) =>
    refine ⟨_, ![y0, y1, y2], hv, rfl, ?_⟩
    have n0 := hval p0 y0 (by simp [he]) f0
    have n1 := hval p1 y1 (by simp [he]) f1
    have n2 := hval p2 y2 (by simp [he]) f2
    have hx : ∀ i : Fin 3, Near u (2 * s.N) (![y0, y1, y2] i).val (vec3 (realPolys s) 0 t.val i)
        (vec3 (s.polys.map fun p => ⟨(vals p.coeffs).map abs⟩) 0 T i) := by
      intro i
      unfold realPolys
      rw [he]
      simp only [List.map_cons]
      rw [vec3_cons, vec3_cons]
      fin_cases i
      · exact n0
      · exact n1
      · exact n2
    have hsub : ∀ i : Fin 3, Near u (2 * s.N + 1) (![y0, y1, y2] i - hp.point i).val
        (vec3 (realPolys s) 0 t.val i - (hp.point i).val)
        (vec3 (s.polys.map fun p => ⟨(vals p.coeffs).map abs⟩) 0 T i + |(hp.point i).val|) := fun i =>
      ((hx i).sub ((Near.self (u := u) (hp.point i).val).mono hu (Nat.zero_le _))).rounded h
    have hdot := near_dot hu hd hsub (fun i => Near.self (u := u) (hp.normal i).val)
    have e := hdot.2
    unfold distanceAt normalSize pointSize
    refine e.trans (le_of_eq ?_)
    rw [← Finset.sum_add_distrib]
    congr 1
    refine Finset.sum_congr rfl fun i _ => ?_
    ring

/-- The loop over the candidates. -/
theorem candidatesInsideG_ok (h : Rounding rnd u) {dot : Dot (Fl rnd)} (hd : DotOk u dot) (s : Segment (Fl rnd)) (hs : s.WF)
    (hp : HalfPlane (Fl rnd)) (hD : 3 ≤ s.D) {T E : ℝ}
    (hE : ((1 + u) ^ (2 * s.N + 4) - 1) * (normalSize s hp 0 T + pointSize hp) ≤ E) (l : List (Fl rnd))
    (hl : ∀ t ∈ l, |t.val| ≤ T) :
    ∃ b, candidatesInsideG dot s hp l = .ok b ∧ (b = true → ∀ t ∈ l, -E < distanceAt s hp t.val) ∧
      (b = false → ∃ t ∈ l, distanceAt s hp t.val ≤ E) := by
  induction l with
  | nil => exact ⟨true, rfl, by simp, by simp⟩
  | cons t l ih =>
    obtain ⟨b, hb, h1, h2⟩ := ih fun t ht => hl t (by simp [ht])
    obtain ⟨v, x, e1, e2, e3⟩ := candidate_near h hd s hs hp hD t (hl t (by simp))
    have e3 := abs_le.mp (e3.trans hE)
    unfold candidatesInsideG
    rw [e1, Res.ok_bind, e2, Res.ok_bind]
    by_cases hc : dot 3 (fun i => x i - hp.point i) hp.normal ≤ 0
    · rw [if_pos hc]
      have hc' : (dot 3 (fun i => x i - hp.point i) hp.normal).val ≤ 0 := hc
      exact ⟨false, rfl, by simp, fun _ => ⟨t, by simp, by linarith [e3.1]⟩⟩
    · rw [if_neg hc]
      have hc' : 0 < (dot 3 (fun i => x i - hp.point i) hp.normal).val := not_le.mp hc
      refine ⟨b, hb, fun hbt => ?_, fun hbf => ?_⟩
      · intro t' ht'
        rcases List.mem_cons.mp ht' with rfl | ht'
        · linarith [e3.2]
        · exact h1 hbt t' ht'
      · obtain ⟨t', ht', q⟩ := h2 hbf
        exact ⟨t', by simp [ht'], q⟩

/-- The loop over the half planes. -/
theorem halfPlaneLoopG_ok (h : Rounding rnd u) {dot : Dot (Fl rnd)} (hd : DotOk u dot) {ε : ℝ} (hε : 0 ≤ ε)
    (s : Segment (Fl rnd)) (hs : s.WF) (hD : 3 ≤ s.D) (hN : 1 ≤ s.N) (hT : 0 ≤ s.time.val) (rf : RootFinder (Fl rnd))
    (hrf : ApproxOn ε 0 s.time.val rf) {E B : ℝ} (hps : List (HalfPlane (Fl rnd)))
    (hE : ∀ hp ∈ hps, ((1 + u) ^ (2 * s.N + 4) - 1) * (normalSize s hp 0 s.time.val + pointSize hp) ≤ E)
    (hB : ∀ hp ∈ hps, (1 + u) ^ (2 * s.N + 4) * normalSize s hp 2 s.time.val ≤ B) :
    ∃ b, halfPlaneLoopG Fl.abs ⟨dblEpsilon⟩ dot rf s hps = .ok b ∧
      (b = true → ∀ hp ∈ hps, ∀ t ∈ Icc 0 s.time.val, -(3 * E + B * ε ^ 2) < distanceAt s hp t) ∧
      (b = false → ∃ hp ∈ hps, ∃ t ∈ Icc 0 s.time.val, distanceAt s hp t ≤ E) := by
  induction hps with
  | nil => exact ⟨true, rfl, by simp, by simp⟩
  | cons hp hps ih =>
    obtain ⟨b, hb, h1, h2⟩ := ih (fun hp hm => hE hp (by simp [hm])) (fun hp hm => hB hp (by simp [hm]))
    have hE := hE hp (by simp)
    have hB := hB hp (by simp)
    obtain ⟨p0, p1, p2, ps, he⟩ : ∃ p0 p1 p2 ps, s.polys = p0 :: p1 :: p2 :: ps := by
      unfold Segment.D at hD
      match e : s.polys, hD with
      | p0 :: p1 :: p2 :: ps, _ => exact ⟨p0, p1, p2, ps, rfl⟩
    obtain ⟨q, c, P, cand, hq, hder, hnear, hcand, hmem⟩ := projection_candidates h s hs hN hp.normal p0 p1 p2 ps he rf hT
    have hin : ∀ x ∈ (0 : Fl rnd) :: s.time :: cand, x.val ∈ Icc 0 s.time.val := by
      intro x hx
      rcases List.mem_cons.mp hx with rfl | hx
      · exact ⟨le_rfl, hT⟩
      · rcases List.mem_cons.mp hx with rfl | hx
        · exact ⟨hT, le_rfl⟩
        · exact ⟨((hmem x).mp hx).1, ((hmem x).mp hx).2.1⟩
    have habs : ∀ x ∈ Icc 0 s.time.val, |x| ≤ s.time.val := fun x hx => by rw [abs_of_nonneg hx.1]; exact hx.2
    obtain ⟨b1, hb1, i1, i2⟩ := candidatesInsideG_ok h hd s hs hp hD hE ((0 : Fl rnd) :: s.time :: cand)
      fun t ht => habs _ (hin t ht)
    unfold halfPlaneLoopG
    rw [hq, Res.ok_bind, hcand, Res.ok_bind]
    dsimp only
    rw [hb1, Res.ok_bind]
    cases b1 with
    | false =>
      refine ⟨false, rfl, by simp, fun _ => ?_⟩
      obtain ⟨t, ht, q⟩ := i2 rfl
      exact ⟨hp, by simp, t.val, hin t ht, q⟩
    | true =>
      refine ⟨b, hb, fun hbt => ?_, fun hbf => ?_⟩
      · intro hp' hm
        rcases List.mem_cons.mp hm with rfl | hm
        swap
        · exact h1 hbt hp' hm
        intro t ht
        set R := ((rf c).2.filter fun z => decide (|z.2.val| ≤ 1 / 2 ^ 52)).map fun z => z.1.val with hR
        set S := ((0 : Fl rnd) :: s.time :: cand).map Fl.val with hS
        have hcov : CoversOn ε 0 s.time.val R (derivative P) := by
          intro x y hx hxy hy hs
          rw [← hder] at hs
          obtain ⟨z, hz, z1, z2, z3⟩ := hrf c x y hx hxy hy hs
          exact ⟨z.1.val, List.mem_map.mpr ⟨z, List.mem_filter.mpr ⟨hz, by simpa using z1⟩, rfl⟩, z2, z3⟩
        have hRS : ∀ z ∈ R, z ∈ Icc 0 s.time.val → z ∈ S := by
          intro z hz hzI
          obtain ⟨w, hw, rfl⟩ := List.mem_map.mp hz
          obtain ⟨hw1, hw2⟩ := List.mem_filter.mp hw
          refine List.mem_map.mpr ⟨w.1, ?_, rfl⟩
          right; right
          exact (hmem w.1).mpr ⟨hzI.1, hzI.2, w.2, hw1, by simpa [dblEpsilon] using hw2⟩
        have h0S : (0 : ℝ) ∈ S := List.mem_map.mpr ⟨0, by simp, rfl⟩
        have hTS : s.time.val ∈ S := by simp [hS]
        set Q := projPoly (fun i => (hp'.normal i).val) (fun i => vals (![p0, p1, p2] i).coeffs) with hQ
        set A := projPoly (fun i => |(hp'.normal i).val|) (fun i => (vals (![p0, p1, p2] i).coeffs).map abs) with hA
        have hrp : realPolys s = ⟨vals p0.coeffs⟩ :: ⟨vals p1.coeffs⟩ :: ⟨vals p2.coeffs⟩ ::
            ps.map fun p => ⟨vals p.coeffs⟩ := by unfold realPolys; rw [he]; rfl
        have hQd : ∀ x, Q.eval x = distanceAt s hp' x + ∑ i, (hp'.point i).val * (hp'.normal i).val := by
          intro x
          unfold distanceAt
          rw [← Finset.sum_add_distrib]
          have := projPoly_deriv (fun i => (hp'.normal i).val) (fun i => vals (![p0, p1, p2] i).coeffs) 0 x
          rw [Function.iterate_zero_apply] at this
          rw [hQ, this, hrp]
          refine Finset.sum_congr rfl fun i _ => ?_
          rw [vec3_cons]
          fin_cases i <;> simp <;> ring
        have hAk : ∀ k, (derivative^[k] A).eval s.time.val = normalSize s hp' k s.time.val := by
          intro k
          rw [hA, projPoly_deriv]
          unfold normalSize
          rw [he]
          refine Finset.sum_congr rfl fun i _ => ?_
          simp only [List.map_cons]
          rw [vec3_cons]
          fin_cases i <;> rfl
        have hγ := one_le_pow_u h (2 * s.N + 4)
        have hps0 : 0 ≤ pointSize hp' := Finset.sum_nonneg fun i _ => by positivity
        have hPQ : ∀ x ∈ Icc 0 s.time.val, |P.eval x - Q.eval x| ≤ E := by
          intro x hx
          have q := hnear.eval hγ (habs x hx)
          have a0 := hAk 0
          rw [Function.iterate_zero_apply] at a0
          rw [a0] at q
          refine q.trans (le_trans (mul_le_mul_of_nonneg_left (by linarith) (by linarith)) hE)
        have hB' : ∀ x ∈ Icc 0 s.time.val, |(derivative (derivative P)).eval x| ≤ B := by
          intro x hx
          have q := hnear.deriv.deriv.abs_eval hγ (habs x hx)
          have a2 : (derivative (derivative A)).eval s.time.val = _ := hAk 2
          rw [a2] at q
          exact q.trans hB
        obtain ⟨x2, hx2, e2, s2, hs2, g2, d2, f2⟩ := near_min_on P hT hε R S h0S hTS hcov hRS
        have o2 := abs_le.mp (second_order P hx2 g2 d2 f2 hB')
        obtain ⟨w2, hw2, rfl⟩ := List.mem_map.mp hs2
        have v2 := i1 rfl w2 hw2
        have j1 := abs_le.mp (hPQ _ g2)
        have j2 := abs_le.mp (hPQ t ht)
        have k1 := hQd w2.val
        have k2 := hQd t
        have e2 := e2 t ht
        linarith [j1.1, j1.2, j2.1, j2.2, o2.2]
      · obtain ⟨hp', hm, q⟩ := h2 hbf
        exact ⟨hp', by simp [hm], q⟩

end Verif
