import Verif.Proofs.PolynomialExtrema
import Verif.Proofs.TrajectoryOps
import Verif.Model.Magnitude
import Verif.Spec.Magnitude

/- Helper lemmas: magnitudes over segments and trajectories. -/
set_option linter.unusedSectionVars false

namespace Verif

open Polynomial Spec Set

/-- The dimension list as the code sees it. -/
def asInts (ds : List ℕ) : List ℤ := ds.map fun (d : ℕ) => (d : ℤ)

/-- The sum of the squares of the selected derivatives, as a polynomial. -/
noncomputable def sqPoly (s : Segment ℝ) (ds : List ℕ) (k : ℕ) : ℝ[X] :=
  (ds.map fun d => (derivative^[k] (ofCoeffs (s.polys.getD d ⟨[]⟩).coeffs)) ^ 2).sum

theorem eval_list_sum (l : List ℝ[X]) (t : ℝ) : l.sum.eval t = (l.map fun p => p.eval t).sum := by
  induction l with
  | nil => simp
  | cons p ps ih => simp [ih]

theorem sqPoly_eval (s : Segment ℝ) (ds : List ℕ) (hds : ∀ d ∈ ds, d < s.D) (k : ℕ) (t : ℝ) :
    (sqPoly s ds k).eval t = (ds.map fun d => ((valuesAt s.polys k t).getD d 0) ^ 2).sum := by
  unfold sqPoly
  rw [eval_list_sum, List.map_map]
  congr 1
  apply List.map_congr_left
  intro d hd
  have hd' : d < s.polys.length := hds d hd
  simp only [Function.comp_apply, eval_pow]
  congr 1
  rw [← segValue_eq_valuesAt]
  simp [segValue, List.getD_eq_getElem?_getD, hd', derivAt]

theorem sqPoly_nonneg (s : Segment ℝ) (ds : List ℕ) (k : ℕ) (t : ℝ) :
    0 ≤ (sqPoly s ds k).eval t := by
  unfold sqPoly
  rw [eval_list_sum]
  apply List.sum_nonneg
  intro x hx
  simp only [List.map_map, List.mem_map, Function.comp_apply] at hx
  obtain ⟨d, _, rfl⟩ := hx
  rw [eval_pow]; positivity

theorem magnitude_eq (s : Segment ℝ) (ds : List ℕ) (hds : ∀ d ∈ ds, d < s.D) (k : ℕ) (t : ℝ) :
    magnitude s.polys ds k t = Real.sqrt ((sqPoly s ds k).eval t) := by
  unfold magnitude; rw [sqPoly_eval s ds hds]

theorem magnitude_nonneg (ps : List (Poly ℝ)) (ds : List ℕ) (k : ℕ) (t : ℝ) :
    0 ≤ magnitude ps ds k t := Real.sqrt_nonneg _

/-! #### the squares loop -/

theorem squares_ok (s : Segment ℝ) (h : s.WF) (ds : List ℕ) (hds : ∀ d ∈ ds, d < s.D) (k : ℕ)
    (t acc : ℝ) :
    s.squares k t (asInts ds) acc = .ok (acc + (sqPoly s ds k).eval t) := by
  induction ds generalizing acc with
  | nil => simp [asInts, Segment.squares, sqPoly]
  | cons d ds ih =>
    have hd : d < s.polys.length := hds d (by simp)
    simp only [asInts, List.map_cons, Segment.squares]
    rw [if_neg (by omega), Int.toNat_natCast, Res.at'_of_lt hd, Res.ok_bind,
      evaluate_ok _ _ _ (h.poly_small (List.getElem_mem hd)), Res.ok_bind]
    have := ih (fun x hx => hds x (by simp [hx])) (acc + derivAt s.polys[d].coeffs k t ^ 2)
    rw [asInts] at this
    rw [this]
    simp only [sqPoly, List.map_cons, List.sum_cons, eval_add, eval_pow, Res.ok.injEq]
    simp [List.getD_eq_getElem?_getD, hd, derivAt, add_assoc]

/-! #### candidate times -/

theorem ofCoeffs_take {c : List ℝ} {n : ℕ} (h : ∀ m, n ≤ m → (ofCoeffs c).coeff m = 0) :
    ofCoeffs (c.take n) = ofCoeffs c := by
  ext m
  by_cases hm : m < n
  · rw [coeff_ofCoeffs, coeff_ofCoeffs]
    simp [List.getD_eq_getElem?_getD, List.getElem?_take, hm]
  · rw [h m (by omega), coeff_ofCoeffs]
    simp [List.getD_eq_getElem?_getD, List.getElem?_take, hm]

theorem coeff_iterate_zero (c : List ℝ) (k m : ℕ) (h : c.length ≤ m + k) :
    (derivative^[k] (ofCoeffs c)).coeff m = 0 := by
  rw [coeff_iterate_derivative, coeff_ofCoeffs, getD_of_ge _ _ _ (by omega)]
  simp

theorem convolvedLoop_ok (s : Segment ℝ) (h : s.WF) (k : ℕ) (hk : k < s.N) (hk2 : k + 1 < 22)
    (ds : List ℕ) (hds : ∀ d ∈ ds, d < s.D) (acc : List ℝ)
    (hacc : acc.length = (s.N - k) + (s.N - k - 1) - 1) :
    ∃ c, convolvedLoop s k (s.N - k) (s.N - k - 1) (asInts ds) acc = .ok (some c) ∧
      c.length = acc.length ∧
      ofCoeffs c = ofCoeffs acc + (ds.map fun d =>
        derivative^[k] (ofCoeffs (s.polys.getD d ⟨[]⟩).coeffs) *
        derivative^[k + 1] (ofCoeffs (s.polys.getD d ⟨[]⟩).coeffs)).sum := by
  induction ds generalizing acc with
  | nil => exact ⟨acc, rfl, rfl, by simp⟩
  | cons d ds ih =>
    have hd : d < s.polys.length := hds d (by simp)
    have hmem := List.getElem_mem hd
    have hpN : s.polys[d].N = s.N := h.polysN _ hmem
    have hsmall := h.poly_small hmem
    have hkk : k + 1 < kMaxConvolutionSize := by simpa [kMaxConvolutionSize] using hk2
    obtain ⟨c1, h1, l1, e1⟩ := getCoefficients_ok s.polys[d] k (by omega) hsmall (by omega)
    obtain ⟨c2, h2, l2, e2⟩ := getCoefficients_ok s.polys[d] (k + 1) (by omega) hsmall hkk
    have t1 : ofCoeffs (c1.take (s.N - k)) = derivative^[k] (ofCoeffs s.polys[d].coeffs) := by
      rw [ofCoeffs_take, e1]
      intro m hm
      rw [e1]
      apply coeff_iterate_zero
      change s.polys[d].N ≤ _
      omega
    have t2 : ofCoeffs (c2.take (s.N - k - 1)) =
        derivative^[k + 1] (ofCoeffs s.polys[d].coeffs) := by
      rw [ofCoeffs_take, e2]
      intro m hm
      rw [e2]
      apply coeff_iterate_zero
      change s.polys[d].N ≤ _
      omega
    obtain ⟨cv, hcv, lcv, ecv⟩ := convolve_ok (c1.take (s.N - k)) (c2.take (s.N - k - 1)) (by
      simp only [List.length_take, l1, l2, hpN]; omega)
    have lcv' : cv.length = acc.length := by
      rw [lcv, hacc]
      simp only [List.length_take, l1, l2, hpN]
      omega
    obtain ⟨c, hc, lc, ec⟩ := ih (fun x hx => hds x (by simp [hx]))
      (List.zipWith (· + ·) acc cv) (by simp [lcv', hacc])
    refine ⟨c, ?_, by rw [lc]; simp [lcv'], ?_⟩
    · simp only [asInts, List.map_cons, convolvedLoop]
      rw [if_neg (by unfold Segment.D; omega), Int.toNat_natCast, Res.at'_of_lt hd, Res.ok_bind, h1,
        Res.ok_bind]
      unfold headN
      rw [if_pos (by omega), Res.ok_bind]
      have : ((k : ℤ) + 1) = ((k + 1 : ℕ) : ℤ) := by push_cast; rfl
      rw [this, h2, Res.ok_bind, if_pos (by omega), Res.ok_bind, hcv, Res.ok_bind, if_pos lcv']
      rw [asInts] at hc
      exact hc
    · rw [ec, ofCoeffs_zipWith_add _ _ lcv'.symm, ecv, t1, t2]
      simp only [List.map_cons, List.sum_cons]
      rw [show s.polys.getD d ⟨[]⟩ = s.polys[d] by simp [List.getD_eq_getElem?_getD, hd]]
      ring

theorem derivative_sqPoly (s : Segment ℝ) (ds : List ℕ) (k : ℕ) :
    derivative (sqPoly s ds k) = 2 * (ds.map fun d =>
        derivative^[k] (ofCoeffs (s.polys.getD d ⟨[]⟩).coeffs) *
        derivative^[k + 1] (ofCoeffs (s.polys.getD d ⟨[]⟩).coeffs)).sum := by
  unfold sqPoly
  induction ds with
  | nil => simp
  | cons d ds ih =>
    simp only [List.map_cons, List.sum_cons, derivative_add, ih, mul_add]
    congr 1
    rw [derivative_sq, Function.iterate_succ_apply']
    simp only [map_ofNat]
    ring

theorem ofCoeffs_replicate_zero (n : ℕ) : ofCoeffs (List.replicate n (0 : ℝ)) = 0 := by
  have := ofCoeffs_append_zeros ([] : List ℝ) n
  simpa [ofCoeffs_nil] using this

/-- What the candidate search delivers. -/
structure CandSpec (rf : RootFinder ℝ) (s : Segment ℝ) (ds : List ℕ) (k : ℕ) (a b : ℝ)
    (times : List ℝ) : Prop where
  first : ∃ rest, times = a :: b :: rest
  inside : ∀ t ∈ times, t ∈ Icc a b
  upper : ∀ x ∈ Icc a b, ∃ t ∈ times, (sqPoly s ds k).eval x ≤ (sqPoly s ds k).eval t
  lower : 2 ≤ ds.length → ∀ x ∈ Icc a b, ∃ t ∈ times, (sqPoly s ds k).eval t ≤ (sqPoly s ds k).eval x
  only : 2 ≤ ds.length → Exact rf → ∀ t ∈ times, t = a ∨ t = b ∨ (derivative (sqPoly s ds k)).eval t = 0

theorem cand_inside {a b : ℝ} (hab : a ≤ b) {cand : List ℝ} (h : ∀ x ∈ cand, x ∈ Icc a b) :
    ∀ x ∈ a :: b :: cand, x ∈ Icc a b := by
  intro x hx
  rcases List.mem_cons.mp hx with rfl | hx
  · exact left_mem_Icc.mpr hab
  rcases List.mem_cons.mp hx with rfl | hx
  · exact right_mem_Icc.mpr hab
  · exact h x hx

theorem candidateTimes_ok (rf : RootFinder ℝ) (hrf : Complete rf) (s : Segment ℝ) (h : s.WF) (k : ℕ)
    (hk : k < s.N) (hk2 : k + 1 < 22) (ds : List ℕ) (hne : ds ≠ []) (hds : ∀ d ∈ ds, d < s.D)
    {a b : ℝ} (hab : a ≤ b) :
    ∃ times, s.candidateTimes rf k a b (asInts ds) = .ok (true, times) ∧
      CandSpec rf s ds k a b times := by
  match ds, hne with
  | [d], _ =>
    have hd : d < s.polys.length := hds d (by simp)
    have hmem := List.getElem_mem hd
    have hkk : k + 1 < kMaxConvolutionSize := by simpa [kMaxConvolutionSize] using hk2
    obtain ⟨c, cand, _, hdc, hcand, hmemc⟩ := computeMinMaxCandidates_ok rf s.polys[d]
      (h.poly_small hmem) k (by rw [h.polysN _ hmem]; exact hk) hkk hab
    refine ⟨a :: b :: cand, ?_, ⟨cand, rfl⟩, ?_, ?_, by simp, by simp⟩
    · simp only [asInts, List.map_cons, List.map_nil, Segment.candidateTimes]
      rw [if_neg (by omega), Int.toNat_natCast, Res.at'_of_lt hd, Res.ok_bind, hcand]
    · apply cand_inside hab
      intro x hx
      exact ⟨((hmemc x).mp hx).1, ((hmemc x).mp hx).2.1⟩
    · intro x hx
      have hex := poly_extrema (derivative^[k] (ofCoeffs s.polys[d].coeffs)) hab (a :: b :: cand)
        (by simp) (by simp) (by
          rw [← Function.iterate_succ_apply' derivative k, ← hdc]
          intro hne x hx hx0
          have := hrf c hne x hx0
          right; right
          exact (hmemc x).mpr ⟨hx.1, hx.2, 0, this, by simpa using dblEpsilon_pos.le⟩) x hx
      obtain ⟨⟨s1, hs1, hs1'⟩, ⟨s2, hs2, hs2'⟩⟩ := hex
      have hsq : ∀ t, (sqPoly s [d] k).eval t =
          ((derivative^[k] (ofCoeffs s.polys[d].coeffs)).eval t) ^ 2 := by
        intro t
        simp [sqPoly, List.getD_eq_getElem?_getD, hd]
      set P := derivative^[k] (ofCoeffs s.polys[d].coeffs) with hP
      by_cases hsign : 0 ≤ P.eval x
      · exact ⟨s2, hs2, by rw [hsq, hsq]; exact pow_le_pow_left₀ hsign hs2' 2⟩
      · refine ⟨s1, hs1, ?_⟩
        rw [hsq, hsq]
        push Not at hsign
        nlinarith
  | d1 :: d2 :: ds, _ =>
    obtain ⟨c, hc, lc, ec⟩ := convolvedLoop_ok s h k hk hk2 (d1 :: d2 :: ds) hds
      (List.replicate ((s.N - k) + (s.N - k - 1) - 1) 0) (by simp)
    rw [ofCoeffs_replicate_zero, zero_add] at ec
    obtain ⟨cand, hcand, hmemc⟩ := candidates_some hab (rf c).2
    have hcov : ∀ x ∈ Icc a b, (derivative (sqPoly s (d1 :: d2 :: ds) k)) ≠ 0 →
        (derivative (sqPoly s (d1 :: d2 :: ds) k)).eval x = 0 → x ∈ a :: b :: cand := by
      intro x hx hne0 hx0
      rw [derivative_sqPoly, ← ec] at hne0 hx0
      have hc0 : ofCoeffs c ≠ 0 := by
        intro h0; apply hne0; rw [h0, mul_zero]
      have hx0' : (ofCoeffs c).eval x = 0 := by
        rw [eval_mul] at hx0
        rcases mul_eq_zero.mp hx0 with h0 | h0
        · exfalso
          have : (2 : ℝ[X]).eval x = 2 := by simp
          rw [this] at h0
          norm_num at h0
        · exact h0
      have := hrf c hc0 x hx0'
      right; right
      exact (hmemc x).mpr ⟨hx.1, hx.2, 0, this, by simpa using dblEpsilon_pos.le⟩
    have hex := poly_extrema (sqPoly s (d1 :: d2 :: ds) k) hab (a :: b :: cand) (by simp) (by simp)
      (fun hne0 x hx hx0 => hcov x hx hne0 hx0)
    refine ⟨a :: b :: cand, ?_, ⟨cand, rfl⟩, ?_, fun x hx => (hex x hx).2, fun _ x hx => (hex x hx).1, ?_⟩
    · simp only [asInts, List.map_cons, Segment.candidateTimes]
      rw [if_neg (by omega)]
      have e1 : ((s.N : ℤ) - k).toNat = s.N - k := by omega
      have e2 : ((s.N : ℤ) - k - 1).toNat = s.N - k - 1 := by omega
      have e3 : ((s.N : ℤ) - k + ((s.N : ℤ) - k - 1) - 1).toNat =
          (s.N - k) + (s.N - k - 1) - 1 := by omega
      rw [e1, e2, e3]
      simp only [asInts, List.map_cons] at hc
      rw [hc, Res.ok_bind]
      simp only [Poly.computeMinMaxCandidates, Poly.getRoots, Poly.getCoefficients]
      rw [if_neg (by simp [Poly.N])]
      simp [hcand]
    · apply cand_inside hab
      intro x hx
      exact ⟨((hmemc x).mp hx).1, ((hmemc x).mp hx).2.1⟩
    · intro _ hex t ht
      rcases List.mem_cons.mp ht with rfl | ht
      · exact Or.inl rfl
      rcases List.mem_cons.mp ht with rfl | ht
      · exact Or.inr (Or.inl rfl)
      obtain ⟨_, _, im, him, him'⟩ := (hmemc t).mp ht
      right; right
      have h0 := hex c (t, im) him (by simpa [dblEpsilon] using him')
      rw [derivative_sqPoly, ← ec, eval_mul]
      simp only at h0
      rw [h0, mul_zero]

theorem magnitudeCandidates_ok (rf : RootFinder ℝ) (hrf : Complete rf) (s : Segment ℝ) (h : s.WF)
    (k : ℕ) (hk : k < s.N) (hk2 : k + 1 < 22) (ds : List ℕ) (hne : ds ≠ [])
    (hds : ∀ d ∈ ds, d < s.D) {a b : ℝ} (hab : a ≤ b) :
    ∃ times, s.magnitudeCandidates rf Real.sqrt k a b (asInts ds) =
        .ok (true, times.map fun t => ⟨t, magnitude s.polys ds k t, 0⟩) ∧
      CandSpec rf s ds k a b times := by
  obtain ⟨times, h1, h2⟩ := candidateTimes_ok rf hrf s h k hk hk2 ds hne hds hab
  refine ⟨times, ?_, h2⟩
  unfold Segment.magnitudeCandidates
  rw [h1, Res.ok_bind]
  rw [Res.mapM_ok (g := fun t => (⟨t, magnitude s.polys ds k t, 0⟩ : Extremum ℝ))]
  · rfl
  · intro t _
    rw [squares_ok s h ds hds, Res.ok_bind, zero_add, magnitude_eq s ds hds]
    rfl

/-! #### selection -/

theorem selectFold (val : ℝ → ℝ) (a b : ℝ) (times : List ℝ) (hin : ∀ t ∈ times, t ∈ Icc a b)
    (mn mx : Extremum ℝ) :
    let r := (times.map fun t => (⟨t, val t, 0⟩ : Extremum ℝ)).foldl
      (fun (s : Extremum ℝ × Extremum ℝ) c =>
        if c.time < a ∨ c.time > b then s else (s.1.stdMin c, s.2.stdMax c)) (mn, mx)
    (r.1.value ≤ mn.value ∧ (∀ t ∈ times, r.1.value ≤ val t) ∧
      (r.1 = mn ∨ ∃ t ∈ times, r.1 = ⟨t, val t, 0⟩)) ∧
    (mx.value ≤ r.2.value ∧ (∀ t ∈ times, val t ≤ r.2.value) ∧
      (r.2 = mx ∨ ∃ t ∈ times, r.2 = ⟨t, val t, 0⟩)) := by
  induction times generalizing mn mx with
  | nil => simp
  | cons t ts ih =>
    have ht := hin t (by simp)
    simp only [List.map_cons, List.foldl_cons]
    rw [if_neg (by push Not; exact ht)]
    obtain ⟨⟨h1, h2, h3⟩, ⟨h4, h5, h6⟩⟩ := ih (fun x hx => hin x (by simp [hx]))
      (mn.stdMin ⟨t, val t, 0⟩) (mx.stdMax ⟨t, val t, 0⟩)
    set r := (ts.map fun t => (⟨t, val t, 0⟩ : Extremum ℝ)).foldl
      (fun (s : Extremum ℝ × Extremum ℝ) c =>
        if c.time < a ∨ c.time > b then s else (s.1.stdMin c, s.2.stdMax c))
      (mn.stdMin ⟨t, val t, 0⟩, mx.stdMax ⟨t, val t, 0⟩) with hr
    have a1 : (mn.stdMin ⟨t, val t, 0⟩).value ≤ mn.value := by
      unfold Extremum.stdMin; split
      · exact le_of_lt (by assumption)
      · exact le_rfl
    have a2 : (mn.stdMin ⟨t, val t, 0⟩).value ≤ val t := by
      unfold Extremum.stdMin; split
      · exact le_rfl
      · exact not_lt.mp (by assumption)
    have b1 : mx.value ≤ (mx.stdMax ⟨t, val t, 0⟩).value := by
      unfold Extremum.stdMax; split
      · exact le_of_lt (by assumption)
      · exact le_rfl
    have b2 : val t ≤ (mx.stdMax ⟨t, val t, 0⟩).value := by
      unfold Extremum.stdMax; split
      · exact le_rfl
      · exact not_lt.mp (by assumption)
    refine ⟨⟨le_trans h1 a1, ?_, ?_⟩, ⟨le_trans b1 h4, ?_, ?_⟩⟩
    · intro x hx
      rcases List.mem_cons.mp hx with rfl | hx
      · exact le_trans h1 a2
      · exact h2 x hx
    · rcases h3 with h3 | ⟨x, hx, h3⟩
      · unfold Extremum.stdMin at h3
        split at h3
        · exact Or.inr ⟨t, by simp, h3⟩
        · exact Or.inl h3
      · exact Or.inr ⟨x, by simp [hx], h3⟩
    · intro x hx
      rcases List.mem_cons.mp hx with rfl | hx
      · exact le_trans b2 h4
      · exact h5 x hx
    · rcases h6 with h6 | ⟨x, hx, h6⟩
      · unfold Extremum.stdMax at h6
        split at h6
        · exact Or.inr ⟨t, by simp, h6⟩
        · exact Or.inl h6
      · exact Or.inr ⟨x, by simp [hx], h6⟩

theorem selectMinMaxMagnitude_ok (val : ℝ → ℝ) {a b : ℝ} (hab : a ≤ b) (times : List ℝ)
    (hin : ∀ t ∈ times, t ∈ Icc a b) (t0 : ℝ) (ht0 : t0 ∈ times)
    (hfin : -dblMax < val t0 ∧ val t0 < dblMax) (mn0 mx0 : Extremum ℝ) :
    ∃ tm ∈ times, ∃ tM ∈ times,
      selectMinMaxMagnitude a b (times.map fun t => (⟨t, val t, 0⟩ : Extremum ℝ)) mn0 mx0 =
        (true, ⟨tm, val tm, 0⟩, ⟨tM, val tM, 0⟩) ∧
      ∀ t ∈ times, val tm ≤ val t ∧ val t ≤ val tM := by
  obtain ⟨⟨h1, h2, h3⟩, ⟨h4, h5, h6⟩⟩ := selectFold val a b times hin
    { mn0 with value := dblMax } { mx0 with value := -dblMax }
  unfold selectMinMaxMagnitude
  rw [if_neg (not_lt.mpr hab)]
  set r := (times.map fun t => (⟨t, val t, 0⟩ : Extremum ℝ)).foldl
      (fun (s : Extremum ℝ × Extremum ℝ) c =>
        if c.time < a ∨ c.time > b then s else (s.1.stdMin c, s.2.stdMax c))
      ({ mn0 with value := dblMax }, { mx0 with value := -dblMax }) with hr
  have h3' : ∃ t ∈ times, r.1 = ⟨t, val t, 0⟩ := by
    rcases h3 with h3 | h3
    · have := h2 t0 ht0
      rw [h3] at this
      exact absurd this (not_le.mpr hfin.2)
    · exact h3
  have h6' : ∃ t ∈ times, r.2 = ⟨t, val t, 0⟩ := by
    rcases h6 with h6 | h6
    · have := h5 t0 ht0
      rw [h6] at this
      exact absurd this (not_le.mpr hfin.1)
    · exact h6
  obtain ⟨tm, htm, em⟩ := h3'
  obtain ⟨tM, htM, eM⟩ := h6'
  refine ⟨tm, htm, tM, htM, ?_, ?_⟩
  · simp only [em, eM]
  · intro t ht
    have a1 := h2 t ht
    have a2 := h5 t ht
    rw [em] at a1
    rw [eM] at a2
    exact ⟨a1, a2⟩

/-! #### the loop over the segments -/

theorem minMaxMagnitudeLoop_ok (rf : RootFinder ℝ) (hrf : Complete rf) (k : ℕ) (hk2 : k + 1 < 22)
    (ds : List ℕ) (hne : ds ≠ []) (segs : List (Segment ℝ))
    (hw : ∀ s ∈ segs, s.WF ∧ k < s.N ∧ (∀ d ∈ ds, d < s.D) ∧ 0 ≤ s.time)
    (hfin : ∀ s ∈ segs, ∀ t ∈ Icc 0 s.time, magnitude s.polys ds k t < dblMax)
    (i : ℕ) (mn0 mx0 : Extremum ℝ) :
    ∃ mn mx, minMaxMagnitudeLoop rf Real.sqrt k (asInts ds) segs i mn0 mx0 = .ok (true, mn, mx) ∧
      mx0.value ≤ mx.value ∧ mn.value ≤ mn0.value ∧
      (∀ s ∈ segs, ∀ t ∈ Icc 0 s.time, magnitude s.polys ds k t ≤ mx.value) ∧
      (2 ≤ ds.length → ∀ s ∈ segs, ∀ t ∈ Icc 0 s.time, mn.value ≤ magnitude s.polys ds k t) ∧
      (∀ s ∈ segs, mn.value ≤ magnitude s.polys ds k 0 ∧
        mn.value ≤ magnitude s.polys ds k s.time) ∧
      (mx = mx0 ∨ ∃ j, ∃ hj : j < segs.length, mx.segmentIdx = i + j ∧
        mx.time ∈ Icc 0 segs[j].time ∧ mx.value = magnitude segs[j].polys ds k mx.time) ∧
      (mn = mn0 ∨ ∃ j, ∃ hj : j < segs.length, mn.segmentIdx = i + j ∧
        mn.time ∈ Icc 0 segs[j].time ∧ mn.value = magnitude segs[j].polys ds k mn.time) := by
  induction segs generalizing i mn0 mx0 with
  | nil =>
    exact ⟨mn0, mx0, rfl, le_rfl, le_rfl, by simp, by simp, by simp, Or.inl rfl, Or.inl rfl⟩
  | cons s ss ih =>
    obtain ⟨ws, hks, hdss, hT⟩ := hw s (by simp)
    obtain ⟨times, hcand, hspec⟩ := magnitudeCandidates_ok rf hrf s ws k hks hk2 ds hne hdss hT
    obtain ⟨rest, hrest⟩ := hspec.first
    have h0mem : (0 : ℝ) ∈ times := by simp [hrest]
    have hTmem : s.time ∈ times := by simp [hrest]
    have hf : ∀ t ∈ Icc 0 s.time, -dblMax < magnitude s.polys ds k t ∧
        magnitude s.polys ds k t < dblMax := by
      intro t ht
      refine ⟨?_, hfin s (by simp) t ht⟩
      have h1 := magnitude_nonneg s.polys ds k t
      have h2 : (0 : ℝ) < dblMax := lt_trans (by norm_num) dblMax_gt
      linarith
    obtain ⟨tm, htm, tM, htM, hsel, hbound⟩ := selectMinMaxMagnitude_ok
      (fun t => magnitude s.polys ds k t) hT times hspec.inside 0 h0mem
      (hf 0 (hspec.inside 0 h0mem)) Extremum.zero Extremum.zero
    have hup : ∀ t ∈ Icc 0 s.time, magnitude s.polys ds k t ≤ magnitude s.polys ds k tM := by
      intro t ht
      obtain ⟨x, hx, hle⟩ := hspec.upper t ht
      refine le_trans ?_ (hbound x hx).2
      rw [magnitude_eq s ds hdss, magnitude_eq s ds hdss]
      exact Real.sqrt_le_sqrt hle
    have hlo : 2 ≤ ds.length → ∀ t ∈ Icc 0 s.time,
        magnitude s.polys ds k tm ≤ magnitude s.polys ds k t := by
      intro h2 t ht
      obtain ⟨x, hx, hle⟩ := hspec.lower h2 t ht
      refine le_trans (hbound x hx).1 ?_
      simp only [magnitude_eq s ds hdss]
      exact Real.sqrt_le_sqrt hle
    set mn1 : Extremum ℝ := if magnitude s.polys ds k tm < mn0.value then
      ⟨tm, magnitude s.polys ds k tm, i⟩ else mn0 with hmn1
    set mx1 : Extremum ℝ := if magnitude s.polys ds k tM > mx0.value then
      ⟨tM, magnitude s.polys ds k tM, i⟩ else mx0 with hmx1
    obtain ⟨mn, mx, hrun, g1, g2, g3, g4, g5, g6, g7⟩ := ih (fun x hx => hw x (by simp [hx]))
      (fun x hx => hfin x (by simp [hx])) (i + 1) mn1 mx1
    have c1 : mn1.value ≤ mn0.value := by
      rw [hmn1]; split
      · exact le_of_lt (by assumption)
      · exact le_rfl
    have c2 : mn1.value ≤ magnitude s.polys ds k tm := by
      rw [hmn1]; split
      · exact le_rfl
      · exact not_lt.mp (by assumption)
    have c3 : mx0.value ≤ mx1.value := by
      rw [hmx1]; split
      · exact le_of_lt (by assumption)
      · exact le_rfl
    have c4 : magnitude s.polys ds k tM ≤ mx1.value := by
      rw [hmx1]; split
      · exact le_rfl
      · exact not_lt.mp (by assumption)
    refine ⟨mn, mx, ?_, le_trans c3 g1, le_trans g2 c1, ?_, ?_, ?_, ?_, ?_⟩
    · simp only [minMaxMagnitudeLoop, hcand, Res.ok_bind, hsel, Bool.not_true]
      exact hrun
    · intro x hx t ht
      rcases List.mem_cons.mp hx with rfl | hx
      · exact le_trans (hup t ht) (le_trans c4 g1)
      · exact g3 x hx t ht
    · intro h2 x hx t ht
      rcases List.mem_cons.mp hx with rfl | hx
      · exact le_trans (le_trans g2 c2) (hlo h2 t ht)
      · exact g4 h2 x hx t ht
    · intro x hx
      rcases List.mem_cons.mp hx with rfl | hx
      · exact ⟨le_trans (le_trans g2 c2) (hbound 0 h0mem).1,
          le_trans (le_trans g2 c2) (hbound _ hTmem).1⟩
      · exact g5 x hx
    · rcases g6 with g6 | ⟨j, hj, e1, e2, e3⟩
      · rw [hmx1] at g6
        split at g6
        · right
          refine ⟨0, by simp, ?_, ?_, ?_⟩
          · rw [g6]; rfl
          · rw [g6]; exact hspec.inside tM htM
          · rw [g6]; rfl
        · left; exact g6
      · right
        refine ⟨j + 1, by simpa using hj, by rw [e1]; omega, by simpa using e2, by simpa using e3⟩
    · rcases g7 with g7 | ⟨j, hj, e1, e2, e3⟩
      · rw [hmn1] at g7
        split at g7
        · right
          refine ⟨0, by simp, ?_, ?_, ?_⟩
          · rw [g7]; rfl
          · rw [g7]; exact hspec.inside tm htm
          · rw [g7]; rfl
        · left; exact g7
      · right
        refine ⟨j + 1, by simpa using hj, by rw [e1]; omega, by simpa using e2, by simpa using e3⟩

end Verif
