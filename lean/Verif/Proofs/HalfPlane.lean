import Mathlib.Algebra.BigOperators.Field
import Verif.Proofs.PolynomialExtrema
import Verif.Proofs.Trajectory
import Verif.Spec.Feasibility

/- Helper lemmas for half planes. -/
set_option linter.unusedSectionVars false

namespace Verif

open Polynomial Spec Set

theorem vecHead3_ok {l : List ℝ} (h : 3 ≤ l.length) : vecHead3 l = .ok fun i : Fin 3 => l.getD i 0 := by
  match l, h with
  | x :: y :: z :: r, _ =>
    have : (![x, y, z] : Fin 3 → ℝ) = fun i : Fin 3 => (x :: y :: z :: r).getD i 0 := by
      funext i
      fin_cases i <;> rfl
    exact congrArg Res.ok this

theorem evaluate_head3 (s : Segment ℝ) (h : s.WF) (hD : 3 ≤ s.D) (k : ℕ) (t : ℝ) :
    (do let v ← s.evaluate t k; vecHead3 v) = .ok (vec3 s.polys k t) := by
  rw [segment_evaluate_ok s h, Res.ok_bind, segValue_eq_valuesAt, vecHead3_ok]
  · rfl
  · rw [← segValue_eq_valuesAt, segValue_length]; exact hD

theorem vec3_eq (s : Segment ℝ) (k : ℕ) (t : ℝ) (i : Fin 3) (h : (i : ℕ) < s.D) :
    vec3 s.polys k t i = derivAt (s.polys[(i : ℕ)]'h).coeffs k t := by
  unfold vec3 valuesAt
  have h' : (i : ℕ) < s.polys.length := h
  simp [List.getD_eq_getElem?_getD, h', iteratedDeriv_curve]
  rfl

theorem segment_get_ok {K : Type} (s : Segment K) (i : ℕ) (h : i < s.D) :
    s.get i = .ok (s.polys[i]'h) := by
  unfold Segment.get
  rw [Res.check_of h, Res.ok_bind, Res.at'_of_lt h]

theorem add_ok (p q : Poly ℝ) (h : p.N = q.N) :
    ∃ r, p.add q = .ok r ∧ r.N = p.N ∧ ofCoeffs r.coeffs = ofCoeffs p.coeffs + ofCoeffs q.coeffs := by
  refine ⟨_, if_pos h, ?_, ofCoeffs_zipWith_add _ _ h⟩
  unfold Poly.N at *
  simp [h]

theorem smul_N {K : Type} [Mul K] (p : Poly K) (a : K) : (p.smul a).N = p.N := by
  simp [Poly.smul, Poly.N]

/-- The projected polynomial. -/
theorem projection_ok (s : Segment ℝ) (h : s.WF) (hD : 3 ≤ s.D) (n : Fin 3 → ℝ) :
    ∃ q, projection s n = .ok q ∧ q.N = s.N ∧
      ∀ t, (ofCoeffs q.coeffs).eval t = ∑ i, vec3 s.polys 0 t i * n i := by
  have hN : ∀ i (hi : i < s.D), (s.polys[i]'hi).N = s.N := fun i hi => h.polysN _ (List.getElem_mem _)
  have h0 : 0 < s.D := by omega
  have h1 : 1 < s.D := by omega
  have h2 : 2 < s.D := by omega
  have z : (Poly.zero s.N : Poly ℝ).N = s.N := by simp [Poly.zero, Poly.N]
  obtain ⟨a, ha, haN, hac⟩ := add_ok (Poly.zero s.N) ((s.polys[0]'h0).smul (n 0))
    (by rw [z, smul_N, hN])
  obtain ⟨b, hb, hbN, hbc⟩ := add_ok a ((s.polys[1]'h1).smul (n 1)) (by rw [haN, z, smul_N, hN])
  obtain ⟨c, hc, hcN, hcc⟩ := add_ok b ((s.polys[2]'h2).smul (n 2)) (by rw [hbN, haN, z, smul_N, hN])
  refine ⟨c, ?_, by rw [hcN, hbN, haN, z], ?_⟩
  · unfold projection
    simp only [List.foldlM_cons, List.foldlM_nil]
    have g0 : s.get ((0 : Fin 3) : ℕ) = .ok (s.polys[0]'h0) := segment_get_ok s 0 h0
    have g1 : s.get ((1 : Fin 3) : ℕ) = .ok (s.polys[1]'h1) := segment_get_ok s 1 h1
    have g2 : s.get ((2 : Fin 3) : ℕ) = .ok (s.polys[2]'h2) := segment_get_ok s 2 h2
    rw [g0, Res.ok_bind, ha, Res.ok_bind, g1, Res.ok_bind, hb, Res.ok_bind, g2, Res.ok_bind, hc,
      Res.ok_bind]
    rfl
  · intro t
    rw [hcc, hbc, hac]
    have e : ∀ (p : Poly ℝ) (x : ℝ), ofCoeffs (p.smul x).coeffs = C x * ofCoeffs p.coeffs :=
      fun p x => ofCoeffs_map_mul _ _
    have z0 : ofCoeffs (Poly.zero s.N : Poly ℝ).coeffs = 0 := by
      have := ofCoeffs_append_zeros ([] : List ℝ) s.N
      simpa [ofCoeffs_nil, Poly.zero] using this
    have v0 : vec3 s.polys 0 t 0 = derivAt (s.polys[0]'h0).coeffs 0 t := vec3_eq s 0 t 0 h0
    have v1 : vec3 s.polys 0 t 1 = derivAt (s.polys[1]'h1).coeffs 0 t := vec3_eq s 0 t 1 h1
    have v2 : vec3 s.polys 0 t 2 = derivAt (s.polys[2]'h2).coeffs 0 t := vec3_eq s 0 t 2 h2
    rw [e, e, e, z0, Fin.sum_univ_three, v0, v1, v2]
    simp [derivAt]
    ring

theorem candidatesInside_cons {K : Type} [Field K] [LinearOrder K] (s : Segment K) (hp : HalfPlane K)
    (t : K) (ts : List K) :
    candidatesInside s hp (t :: ts) = (do
      let v ← s.evaluate t 0
      let x ← vecHead3 v
      if dot3 (fun i => x i - hp.point i) hp.normal ≤ 0 then pure false
      else candidatesInside s hp ts) := rfl

theorem inside_iff (hp : HalfPlane ℝ) (x : Fin 3 → ℝ) :
    Inside hp x ↔ ¬ dot3 (fun i => x i - hp.point i) hp.normal ≤ 0 := by
  unfold Inside dot3
  rw [Fin.sum_univ_three, not_le]

theorem candidatesInside_ok (s : Segment ℝ) (h : s.WF) (hD : 3 ≤ s.D) (hp : HalfPlane ℝ) (ts : List ℝ) :
    ∃ b, candidatesInside s hp ts = .ok b ∧ (b = true ↔ ∀ t ∈ ts, Inside hp (vec3 s.polys 0 t)) := by
  induction ts with
  | nil => exact ⟨true, rfl, by simp⟩
  | cons t ts ih =>
    obtain ⟨b, hb, hb2⟩ := ih
    have he := evaluate_head3 s h hD 0 t
    have : candidatesInside s hp (t :: ts) =
        (if dot3 (fun i => vec3 s.polys 0 t i - hp.point i) hp.normal ≤ 0 then .ok false
          else candidatesInside s hp ts) := by
      rw [candidatesInside_cons, ← bind_assoc]
      have he' : (do let v ← s.evaluate t 0; vecHead3 v) = Res.ok (vec3 s.polys 0 t) := he
      rw [he']
      rfl
    rw [this]
    split
    · next hle =>
      refine ⟨false, rfl, ?_⟩
      constructor
      · intro hf; simp at hf
      · intro hall
        exact absurd hle ((inside_iff hp _).mp (hall t (by simp)))
    · next hle =>
      refine ⟨b, hb, ?_⟩
      rw [hb2]
      constructor
      · intro hall t' ht'
        rcases List.mem_cons.mp ht' with rfl | ht'
        · exact (inside_iff hp _).mpr hle
        · exact hall t' ht'
      · intro hall t' ht'
        exact hall t' (by simp [ht'])

/-- One half plane. -/
theorem halfPlane_ok (rf : RootFinder ℝ) (hrf : Complete rf) (s : Segment ℝ) (h : s.WF) (hD : 3 ≤ s.D)
    (hN : 1 ≤ s.N) (hT : 0 ≤ s.time) (hp : HalfPlane ℝ) :
    ∃ q c b, projection s hp.normal = .ok q ∧ q.computeMinMaxCandidates rf 0 s.time 0 = .ok c ∧
      candidatesInside s hp c.2 = .ok b ∧
      (b = true ↔ ∀ t ∈ Icc 0 s.time, Inside hp (vec3 s.polys 0 t)) := by
  obtain ⟨q, hq, hqN, hqe⟩ := projection_ok s h hD hp.normal
  have hsm : q.N ≤ kMaxConvolutionSize := by rw [hqN]; exact h.small
  obtain ⟨c, cand, hl, hd, hcand, hmem⟩ := computeMinMaxCandidates_ok rf q hsm 0 (by omega)
    (by unfold kMaxConvolutionSize; omega) hT
  obtain ⟨b, hb, hb2⟩ := candidatesInside_ok s h hD hp (0 :: s.time :: cand)
  refine ⟨q, _, b, hq, hcand, hb, ?_⟩
  rw [hb2]
  have hval : ∀ t, Inside hp (vec3 s.polys 0 t) ↔
      ∑ i, hp.point i * hp.normal i < (ofCoeffs q.coeffs).eval t := by
    intro t
    rw [hqe]
    unfold Inside
    rw [Fin.sum_univ_three, Fin.sum_univ_three, Fin.sum_univ_three]
    constructor <;> intro hh <;> linarith
  constructor
  · intro hall t ht
    obtain ⟨⟨x, hx, hx'⟩, _⟩ := poly_extrema (ofCoeffs q.coeffs) hT (0 :: s.time :: cand)
      (by simp) (by simp) (by
        intro hne x hx hx0
        have hd' : ofCoeffs c = derivative (ofCoeffs q.coeffs) := by simpa using hd
        rw [← hd'] at hne hx0
        have := hrf c hne x hx0
        right; right
        exact (hmem x).mpr ⟨hx.1, hx.2, 0, this, by simpa using dblEpsilon_pos.le⟩) t ht
    have := (hval x).mp (hall x hx)
    exact (hval t).mpr (lt_of_lt_of_le this hx')
  · intro hall t ht
    apply hall
    rcases List.mem_cons.mp ht with rfl | ht
    · exact left_mem_Icc.mpr hT
    rcases List.mem_cons.mp ht with rfl | ht
    · exact right_mem_Icc.mpr hT
    · exact ⟨((hmem t).mp ht).1, ((hmem t).mp ht).2.1⟩

theorem halfPlaneLoop_cons {K : Type} [Field K] [LinearOrder K] (rf : RootFinder K) (s : Segment K)
    (hp : HalfPlane K) (hps : List (HalfPlane K)) :
    halfPlaneLoop rf s (hp :: hps) = (do
      let p ← projection s hp.normal
      let c ← p.computeMinMaxCandidates rf 0 s.time 0
      let b ← candidatesInside s hp c.2
      if b then halfPlaneLoop rf s hps else pure false) := rfl

theorem halfPlaneLoop_ok (rf : RootFinder ℝ) (hrf : Complete rf) (s : Segment ℝ) (h : s.WF)
    (hD : 3 ≤ s.D) (hN : 1 ≤ s.N) (hT : 0 ≤ s.time) (hps : List (HalfPlane ℝ)) :
    ∃ b, halfPlaneLoop rf s hps = .ok b ∧
      (b = true ↔ ∀ hp ∈ hps, ∀ t ∈ Icc 0 s.time, Inside hp (vec3 s.polys 0 t)) := by
  induction hps with
  | nil => exact ⟨true, rfl, by simp⟩
  | cons hp hps ih =>
    obtain ⟨b, hb, hb2⟩ := ih
    obtain ⟨q, c, b1, h1, h2, h3, h4⟩ := halfPlane_ok rf hrf s h hD hN hT hp
    rw [halfPlaneLoop_cons, h1, Res.ok_bind, h2, Res.ok_bind, h3, Res.ok_bind]
    cases b1 with
    | true =>
      refine ⟨b, hb, ?_⟩
      rw [hb2]
      simp only [List.forall_mem_cons]
      exact ⟨fun hh => ⟨h4.mp rfl, hh⟩, fun hh => hh.2⟩
    | false =>
      refine ⟨false, rfl, ?_⟩
      simp only [List.forall_mem_cons]
      exact ⟨fun hh => absurd hh (by simp), fun hh => h4.mpr hh.1⟩

/-! #### construction -/

theorem dot3_self (a : Fin 3 → ℝ) : dot3 a a = ∑ i, a i ^ 2 := by
  unfold dot3; rw [Fin.sum_univ_three]; ring

theorem dot3_self_nonneg (a : Fin 3 → ℝ) : 0 ≤ dot3 a a := by
  rw [dot3_self]; positivity

theorem dot3_self_pos {a : Fin 3 → ℝ} (h : a ≠ 0) : 0 < dot3 a a := by
  rcases lt_or_eq_of_le (dot3_self_nonneg a) with h1 | h1
  · exact h1
  · exfalso
    apply h
    rw [dot3_self] at h1
    funext i
    have := (Finset.sum_eq_zero_iff_of_nonneg (fun i _ => sq_nonneg (a i))).mp h1.symm i (by simp)
    simpa using this

theorem normalized3_unit {a : Fin 3 → ℝ} (h : a ≠ 0) :
    ∑ i, normalized3 Real.sqrt a i ^ 2 = 1 := by
  have hp := dot3_self_pos h
  unfold normalized3
  rw [if_pos hp]
  simp only [div_pow, Real.sq_sqrt hp.le]
  rw [← Finset.sum_div, ← dot3_self, div_self hp.ne']

theorem normalized3_of_ne {a : Fin 3 → ℝ} (h : a ≠ 0) :
    normalized3 Real.sqrt a = fun i => a i / Real.sqrt (dot3 a a) := by
  unfold normalized3
  rw [if_pos (dot3_self_pos h)]

theorem norm3_pos_iff (a : Fin 3 → ℝ) : 0 < norm3 Real.sqrt a ↔ a ≠ 0 := by
  unfold norm3
  rw [Real.sqrt_pos]
  constructor
  · rintro h rfl
    simp [dot3] at h
  · exact dot3_self_pos

theorem ofNormal_ok {n : Fin 3 → ℝ} (h : n ≠ 0) (p : Fin 3 → ℝ) :
    HalfPlane.ofNormal Real.sqrt p n = .ok ⟨p, normalized3 Real.sqrt n⟩ := by
  unfold HalfPlane.ofNormal
  rw [Res.check_of ((norm3_pos_iff n).mpr h)]
  rfl

/-- Normalising does not change the half space. -/
theorem inside_normalized {n : Fin 3 → ℝ} (h : n ≠ 0) (p x : Fin 3 → ℝ) :
    Inside ⟨p, normalized3 Real.sqrt n⟩ x ↔ 0 < ∑ i, (x i - p i) * n i := by
  unfold Inside
  rw [normalized3_of_ne h]
  have hp := Real.sqrt_pos.mpr (dot3_self_pos h)
  simp only [mul_div]
  rw [← Finset.sum_div]
  constructor
  · intro hh
    rcases div_pos_iff.mp hh with h' | h'
    · exact h'.1
    · linarith [h'.2]
  · intro hh
    exact div_pos hh hp

end Verif
