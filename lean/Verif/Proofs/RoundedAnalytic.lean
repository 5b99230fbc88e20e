import Verif.Model.RoundedAnalytic
import Verif.Spec.RoundedAnalytic
import Verif.Proofs.RoundedFeasibilityCheck
import Verif.Proofs.RoundedFeasibilityField
import Verif.Proofs.RoundedMagnitude
import Verif.Proofs.FeasibilityAnalytic
import Verif.Proofs.AnalysesRoots

/-
Lemmas for the analytic feasibility check with rounded numbers.
-/
set_option linter.unusedSectionVars false
namespace Verif
open Polynomial Set Verif.Spec

variable {rnd : ℝ → ℝ} {u : ℝ}

/-! #### candidates of a magnitude in several dimensions, for any call of the root finder -/

theorem candidateTimesM_near (h : Rounding rnd u) (s : Segment (Fl rnd)) (hs : s.WF) (k : ℕ) (hk : k < s.N) (hk2 : k + 1 < 22)
    (d1 d2 : ℕ) (ds : List ℕ) (hds : ∀ d ∈ d1 :: d2 :: ds, d < s.D) {a b : Fl rnd} (hab : a.val ≤ b.val) {T E : ℝ}
    (hT : ∀ t ∈ Icc a.val b.val, |t| ≤ T)
    (hE : ((1 + u) ^ (2 * s.N) - 1) * absSize s (d1 :: d2 :: ds) k T ≤ E) :
    ∃ c : List (Fl rnd), c.length ≤ 101 ∧ ∀ rc : RootCall (Fl rnd),
      (∀ r, s.candidateTimesM (flLib rnd) rc k a b (asInts (d1 :: d2 :: ds)) = .ok r → ∃ x, rc c = .ok x) ∧
      ∀ x, rc c = .ok x → ∃ rest, s.candidateTimesM (flLib rnd) rc k a b (asInts (d1 :: d2 :: ds)) = .ok (true, a :: b :: rest) ∧
        (∀ t ∈ a :: b :: rest, t.val ∈ Icc a.val b.val) ∧
        ∀ ε, 0 ≤ ε → ApproxCall ε a.val b.val rc → ∀ W, absSize s (d1 :: d2 :: ds) (k + 1) T * ε + 2 * E +
            Real.sqrt (2 * ((1 + u) ^ (5 * s.N + 1 + (d1 :: d2 :: ds).length) - 1) *
            (absSize s (d1 :: d2 :: ds) k T * absSize s (d1 :: d2 :: ds) (k + 1) T) * (b.val - a.val)) ≤ W →
          (∀ x ∈ Icc a.val b.val, ∃ t ∈ a :: b :: rest,
            magnitude (realPolys s) (d1 :: d2 :: ds) k x ≤ magnitude (realPolys s) (d1 :: d2 :: ds) k t.val + W) ∧
          (∀ x ∈ Icc a.val b.val, ∃ t ∈ a :: b :: rest,
            magnitude (realPolys s) (d1 :: d2 :: ds) k t.val ≤ magnitude (realPolys s) (d1 :: d2 :: ds) k x + W) := by
  have hT0 : 0 ≤ T := (abs_nonneg _).trans (hT _ ⟨le_rfl, hab⟩)
  have hA0 := absSize_nonneg s _ hds k hT0
  have hA1 := absSize_nonneg s _ hds (k + 1) hT0
  have hγ : ∀ n, 0 ≤ (1 + u) ^ n - 1 := fun n => sub_nonneg.mpr (one_le_pow_u h n)
  have hE0 : 0 ≤ E := (mul_nonneg (hγ _) hA0).trans hE
  have hdsR : ∀ d ∈ d1 :: d2 :: ds, d < (realSeg s).D := by rw [realSeg_D]; exact hds
  obtain ⟨c, hc, hnear⟩ := convolvedLoop_near h s hs k hk hk2 (d1 :: d2 :: ds) hds (5 * s.N + 1) le_rfl
    (List.replicate ((s.N - k) + (s.N - k - 1) - 1) 0) (by simp) (X := 0) (A := 0)
    (by
      intro i hi
      rw [List.getD_eq_getElem?_getD, List.getElem?_replicate]
      have hi : i < s.N - k + (s.N - k - 1) - 1 := by simpa using hi
      rw [if_pos hi, Option.getD_some, coeff_zero, mul_zero]
      change |(0 : ℝ) - 0| ≤ 0
      simp) (by simp) (by simp)
  rw [zero_add, zero_add] at hnear
  have hlen : c.length ≤ 101 := by
    have := convolvedLoop_length' s _ _ _ _ _ c hc
    rw [List.length_replicate] at this
    have := hs.small
    omega
  have hcall : ∀ rc : RootCall (Fl rnd), ∃ F, s.candidateTimesM (flLib rnd) rc k a b (asInts (d1 :: d2 :: ds)) = (rc c >>= F) ∧
      ∀ x cand, candidatesG (flLib rnd).abs (flLib rnd).eps a b x.2 = some cand → F x = .ok (true, cand) := by
    intro rc
    simp only [asInts, List.map_cons, Segment.candidateTimesM]
    rw [if_neg (by omega)]
    have e1 : ((s.N : ℤ) - k).toNat = s.N - k := by omega
    have e2 : ((s.N : ℤ) - k - 1).toNat = s.N - k - 1 := by omega
    have e3 : ((s.N : ℤ) - k + ((s.N : ℤ) - k - 1) - 1).toNat =
        (s.N - k) + (s.N - k - 1) - 1 := by omega
    rw [e1, e2, e3]
    simp only [asInts, List.map_cons] at hc
    rw [hc, Res.ok_bind]
    simp only [Poly.computeMinMaxCandidatesM, Poly.getCoefficients]
    rw [if_neg (by simp [Poly.N]), Res.check_of (by simp [Poly.N]), Res.ok_bind, if_pos (by rfl), Res.pure_eq,
      Res.ok_bind]
    exact ⟨_, rfl, fun x cand hx => by rw [hx]; rfl⟩
  refine ⟨c, hlen, fun rc => ⟨fun r hr => ?_, fun x hx => ?_⟩⟩
  · obtain ⟨F, hF, -⟩ := hcall rc
    rw [hF, Res.bind_eq_ok] at hr
    obtain ⟨x, e, -⟩ := hr
    exact ⟨x, e⟩
  obtain ⟨cand, hcand, hmem⟩ := candidatesG_some hab x.2
  refine ⟨cand, ?_, ?_, ?_⟩
  · obtain ⟨F, hF, hF2⟩ := hcall rc
    rw [hF, hx, Res.ok_bind]
    exact hF2 x _ hcand
  · intro t ht
    rcases List.mem_cons.mp ht with rfl | ht
    · exact ⟨le_rfl, hab⟩
    rcases List.mem_cons.mp ht with rfl | ht
    · exact ⟨hab, le_rfl⟩
    exact ⟨((hmem t).mp ht).1, ((hmem t).mp ht).2.1⟩
  intro ε hε hA W hW
  have hlip : ∀ x ∈ Icc a.val b.val, ∀ y ∈ Icc a.val b.val, |y - x| ≤ ε →
      |magnitude (realPolys s) (d1 :: d2 :: ds) k y - magnitude (realPolys s) (d1 :: d2 :: ds) k x| ≤
        absSize s (d1 :: d2 :: ds) (k + 1) T * ε := by
    intro x hx y hy hxy
    have := magnitude_lipschitz (realSeg s) _ hdsR k (L := absSize s (d1 :: d2 :: ds) (k + 1) T)
      (fun t ht => magnitude_le_absSize s _ hds (k + 1) (hT t ht)) hx hy
    exact this.trans (mul_le_mul_of_nonneg_left hxy hA1)
  have hcov := approxCall_covers hA le_rfl le_rfl hx
  have hRS := flReal_cand hmem
  set η := 2 * ((1 + u) ^ (5 * s.N + 1 + (d1 :: d2 :: ds).length) - 1) *
    (absSize s (d1 :: d2 :: ds) k T * absSize s (d1 :: d2 :: ds) (k + 1) T) with hη
  have hη0 : 0 ≤ η := by have := hγ (5 * s.N + 1 + (d1 :: d2 :: ds).length); positivity
  have hQ : ∀ t ∈ Icc a.val b.val,
      |(derivative (sqPoly (realSeg s) (d1 :: d2 :: ds) k)).eval t - 2 * (ofCoeffs (vals c)).eval t| ≤ η := by
    intro t ht
    rw [sqPoly_realSeg s _ hds, eval_mul]
    have e2 : (2 : ℝ[X]).eval t = 2 := by simp
    rw [e2, ← mul_sub, abs_mul, abs_two, abs_sub_comm, hη, mul_assoc]
    refine mul_le_mul_of_nonneg_left ?_ (by norm_num)
    refine (hnear.eval (one_le_pow_u h _) (hT t ht)).trans ?_
    exact mul_le_mul_of_nonneg_left (crossPoly_abs_le s _ hds k hT0) (hγ _)
  have hmag : ∀ t, magnitude (realPolys s) (d1 :: d2 :: ds) k t =
      Real.sqrt ((sqPoly (realSeg s) (d1 :: d2 :: ds) k).eval t) := fun t => magnitude_eq (realSeg s) _ hdsR k t
  have hba : 0 ≤ η * (b.val - a.val) := mul_nonneg hη0 (by linarith)
  refine ⟨fun x hx => ?_, fun x hx => ?_⟩
  · obtain ⟨M, hM, e1, w, hw, g1, dd1⟩ := max_perturbed (sqPoly (realSeg s) (d1 :: d2 :: ds) k) (ofCoeffs (vals c)) hab hε
      hQ _ _ (by simp) (by simp) hcov hRS
    obtain ⟨t, ht, rfl⟩ := List.mem_map.mp hw
    refine ⟨t, ht, ?_⟩
    have l1 := abs_le.mp (hlip M hM _ g1 dd1)
    have l2 := sqrt_le_sqrt_add (sqPoly_nonneg _ _ _ _) hba (e1 x hx)
    rw [← hmag, ← hmag] at l2
    linarith [l1.1]
  · obtain ⟨M, hM, e1, w, hw, g1, dd1⟩ := min_perturbed (sqPoly (realSeg s) (d1 :: d2 :: ds) k) (ofCoeffs (vals c)) hab hε
      hQ _ _ (by simp) (by simp) hcov hRS
    obtain ⟨t, ht, rfl⟩ := List.mem_map.mp hw
    refine ⟨t, ht, ?_⟩
    have l1 := abs_le.mp (hlip M hM _ g1 dd1)
    have l2 := sqrt_le_sqrt_add (sqPoly_nonneg _ _ _ _) hba (e1 x hx)
    rw [← hmag, ← hmag] at l2
    linarith [l1.2]

/-- The candidates of a magnitude in three dimensions on the whole segment: `A` bounds the `k`-th and `k + 1`-th derivatives. -/
theorem magnitudeCandidatesM_near (h : Rounding rnd u) (s : Segment (Fl rnd)) (hs : s.WF) (hD : 3 ≤ s.D) (k : ℕ) (hk : k < s.N)
    (hk2 : k + 1 < 22) (hT : 0 ≤ s.time.val) {E V : ℝ}
    (hE : ((1 + u) ^ (2 * s.N) - 1) * absSize s [0, 1, 2] k s.time.val ≤ E)
    (hV : E + ((1 + u) ^ 5 - 1) * (absSize s [0, 1, 2] k s.time.val + E) ≤ V) :
    ∃ c : List (Fl rnd), c.length ≤ 101 ∧ ∀ rc : RootCall (Fl rnd),
      (∀ r, s.magnitudeCandidatesM (flLib rnd) rc k 0 s.time kPosDim = .ok r → ∃ x, rc c = .ok x) ∧
      ∀ x, rc c = .ok x → ∃ (times : List (Fl rnd)) (val : Fl rnd → Fl rnd),
        s.magnitudeCandidatesM (flLib rnd) rc k 0 s.time kPosDim = .ok (true, times.map fun t => ⟨t, val t, 0⟩) ∧ times ≠ [] ∧
        (∀ t ∈ times, t.val ∈ Icc 0 s.time.val ∧ |(val t).val - magnitude (realPolys s) [0, 1, 2] k t.val| ≤ V) ∧
        ∀ ε, 0 ≤ ε → ApproxCall ε 0 s.time.val rc → ∀ W, absSize s [0, 1, 2] (k + 1) s.time.val * ε + 2 * E +
            Real.sqrt (2 * ((1 + u) ^ (5 * s.N + 4) - 1) *
            (absSize s [0, 1, 2] k s.time.val * absSize s [0, 1, 2] (k + 1) s.time.val) * s.time.val) ≤ W →
          (∀ x ∈ Icc 0 s.time.val, ∃ t ∈ times,
            magnitude (realPolys s) [0, 1, 2] k x ≤ magnitude (realPolys s) [0, 1, 2] k t.val + W) ∧
          (∀ x ∈ Icc 0 s.time.val, ∃ t ∈ times,
            magnitude (realPolys s) [0, 1, 2] k t.val ≤ magnitude (realPolys s) [0, 1, 2] k x + W) := by
  have hds : ∀ d ∈ [0, 1, 2], d < s.D := by
    intro d hd
    simp only [List.mem_cons, List.not_mem_nil, or_false] at hd
    omega
  have hTT : ∀ t ∈ Icc (0 : Fl rnd).val s.time.val, |t| ≤ s.time.val := fun t ht => by
    rw [abs_of_nonneg ht.1]
    exact ht.2
  obtain ⟨c, hlen, hc⟩ := candidateTimesM_near h s hs k hk hk2 0 1 [2] hds (a := 0) (b := s.time) hT hTT hE
  have hv : ∀ t : Fl rnd, ∃ S, t.val ∈ Icc 0 s.time.val → s.squaresG (flLib rnd) k t (asInts [0, 1, 2]) 0 = .ok S ∧
      |((flLib rnd).sqrt S).val - magnitude (realPolys s) [0, 1, 2] k t.val| ≤ V := by
    intro t
    by_cases ht : t.val ∈ Icc 0 s.time.val
    · obtain ⟨S, e1, e2⟩ := magnitude_value h s hs k [0, 1, 2] hds t (hTT _ ht) hE hV
      exact ⟨S, fun _ => ⟨e1, e2⟩⟩
    · exact ⟨0, fun h => absurd h ht⟩
  choose S hS using hv
  refine ⟨c, hlen, fun rc => ⟨fun r hr => ?_, fun x hx => ?_⟩⟩
  · unfold Segment.magnitudeCandidatesM at hr
    rw [Res.bind_eq_ok] at hr
    obtain ⟨ct, e, -⟩ := hr
    exact (hc rc).1 ct e
  · obtain ⟨rest, h1, h2, h3⟩ := (hc rc).2 x hx
    refine ⟨0 :: s.time :: rest, fun t => (flLib rnd).sqrt (S t), ?_, by simp,
      fun t ht => ⟨h2 t ht, (hS t (h2 t ht)).2⟩, fun ε hε hA W hW => h3 ε hε hA W ?_⟩
    · unfold Segment.magnitudeCandidatesM
      rw [kPosDim_eq, h1, Res.ok_bind]
      rw [Res.mapM_ok (g := fun t => (⟨t, (flLib rnd).sqrt (S t), 0⟩ : Extremum (Fl rnd)))]
      · rfl
      · intro t ht
        rw [(hS t (h2 t ht)).1, Res.ok_bind, Res.pure_eq]
    · rw [show (0 : Fl rnd).val = 0 from rfl, sub_zero]
      exact hW

/-! #### the thrust segment -/

theorem eval_le_of_coeff_le {P Q : ℝ[X]} (hPQ : ∀ i, P.coeff i ≤ Q.coeff i) {T : ℝ} (hT : 0 ≤ T) (k : ℕ) :
    (derivative^[k] P).eval T ≤ (derivative^[k] Q).eval T := by
  set n := max (derivative^[k] P).natDegree (derivative^[k] Q).natDegree + 1 with hn
  rw [eval_eq_sum_range' (n := n) (by omega), eval_eq_sum_range' (n := n) (by omega) T]
  refine Finset.sum_le_sum fun i _ => mul_le_mul_of_nonneg_right ?_ (by positivity)
  rw [coeff_iterate_derivative, coeff_iterate_derivative, nsmul_eq_mul, nsmul_eq_mul]
  exact mul_le_mul_of_nonneg_left (hPQ _) (Nat.cast_nonneg _)

theorem thrustPolyG_near (h : Rounding rnd u) (g : Fin 3 → Fl rnd) (s : Segment (Fl rnd)) (hs : s.WF) (hD : 3 ≤ s.D)
    (hN : 3 ≤ s.N) (i : Fin 3) :
    ∃ p, thrustPolyG g s i = .ok p ∧ p.N = s.N - 2 ∧
      CoeffNear ((1 + u) ^ (2 * s.N + 1)) (ofCoeffs (vals p.coeffs))
        (derivative^[2] (ofCoeffs (vals (s.polys[(i : ℕ)]'(by have := i.2; unfold Segment.D at hD; omega)).coeffs)) + C (g i).val)
        (derivative^[2] (ofCoeffs ((vals (s.polys[(i : ℕ)]'(by have := i.2; unfold Segment.D at hD; omega)).coeffs).map abs)) +
          C |(g i).val|) := by
  have hu := rounding_nonneg h
  have hi : (i : ℕ) < s.polys.length := by have := i.2; unfold Segment.D at hD; omega
  have hpN : (s.polys[(i : ℕ)]'hi).N = s.N := hs.polysN _ (List.getElem_mem _)
  obtain ⟨c, e1, hl, hnear, hz⟩ := getCoefficients_near h (s.polys[(i : ℕ)]'hi) 2 (by omega) (by rw [hpN]; exact hs.small) (by omega)
  rw [hpN] at hl hnear hz
  have e2 : headN c (s.N - 2) = .ok (c.take (s.N - 2)) := by
    unfold headN; rw [if_pos (by omega)]
  have htake := ofCoeffs_vals_take hz
  have e0 : s.get i = .ok (s.polys[(i : ℕ)]'hi) := segment_get_ok s i hi
  match hc : c.take (s.N - 2) with
  | [] =>
    have := congrArg List.length hc
    rw [List.length_take, List.length_nil] at this
    omega
  | a :: as =>
    rw [hc] at htake e2
    refine ⟨⟨(a + g i) :: as⟩, ?_, ?_, ?_⟩
    · unfold thrustPolyG
      have e1' : (s.polys[(i : ℕ)]'hi).getCoefficients 2 = .ok c := e1
      rw [e0, Res.ok_bind, e1', Res.ok_bind, e2, Res.ok_bind]
      rfl
    · have := congrArg List.length hc
      rw [List.length_take] at this
      simp only [Poly.N, List.length_cons] at this ⊢
      omega
    · rw [← htake] at hnear
      set X := derivative^[2] (ofCoeffs (vals (s.polys[(i : ℕ)]'hi).coeffs)) with hX
      set A := derivative^[2] (ofCoeffs ((vals (s.polys[(i : ℕ)]'hi).coeffs).map abs)) with hA
      have hp : (1 : ℝ) ≤ (1 + u) ^ (2 * s.N) := one_le_pow_u h _
      have hmul : (1 + u) ^ (2 * s.N + 1) = (1 + u) ^ (2 * s.N) * (1 + u) := pow_succ _ _
      generalize (1 + u) ^ (2 * s.N) = α at hnear hp hmul
      rw [hmul]
      have hα0 : 0 ≤ u * α := mul_nonneg hu (by linarith)
      intro j
      cases j with
      | zero =>
        obtain ⟨n1, n2⟩ := hnear 0
        have n3 := hnear.le 0
        rw [coeff_ofCoeffs] at n1 n3
        have ev : (vals (a :: as)).getD 0 0 = a.val := rfl
        rw [ev] at n1 n3
        rw [coeff_add, coeff_add, coeff_C_zero, coeff_C_zero, coeff_ofCoeffs]
        have ew : (vals ((a + g i) :: as)).getD 0 0 = rnd (a.val + (g i).val) := rfl
        rw [ew]
        generalize X.coeff 0 = x at *
        generalize A.coeff 0 = y at *
        refine ⟨?_, (abs_add_le _ _).trans (by linarith)⟩
        have hr := h.rel (a.val + (g i).val)
        have ha := abs_add_le a.val (g i).val
        have hg := abs_nonneg (g i).val
        have q1 : u * |a.val + (g i).val| ≤ u * (α * y + |(g i).val|) := mul_le_mul_of_nonneg_left (by linarith) hu
        have q2 := abs_add_le (rnd (a.val + (g i).val) - (a.val + (g i).val)) (a.val - x)
        have q3 : rnd (a.val + (g i).val) - (a.val + (g i).val) + (a.val - x) = rnd (a.val + (g i).val) - (x + (g i).val) := by ring
        rw [q3] at q2
        have q4 : u * |(g i).val| ≤ (α * (1 + u) - 1) * |(g i).val| := by
          refine mul_le_mul_of_nonneg_right ?_ hg
          have : 1 * (1 + u) ≤ α * (1 + u) := mul_le_mul_of_nonneg_right hp (by linarith)
          linarith
        calc _ ≤ _ := q2
          _ ≤ u * (α * y + |(g i).val|) + (α - 1) * y := by linarith
          _ = (α * (1 + u) - 1) * y + u * |(g i).val| := by ring
          _ ≤ (α * (1 + u) - 1) * y + (α * (1 + u) - 1) * |(g i).val| := by linarith
          _ = _ := by ring
      | succ j =>
        obtain ⟨n1, n2⟩ := hnear (j + 1)
        rw [coeff_ofCoeffs] at n1
        have ev : (vals (a :: as)).getD (j + 1) 0 = (vals as).getD j 0 := rfl
        rw [ev] at n1
        rw [coeff_add, coeff_add, coeff_C_succ, coeff_C_succ, add_zero, add_zero, coeff_ofCoeffs]
        have ew : (vals ((a + g i) :: as)).getD (j + 1) 0 = (vals as).getD j 0 := rfl
        rw [ew]
        refine ⟨n1.trans (mul_le_mul_of_nonneg_right ?_ ((abs_nonneg _).trans n2)), n2⟩
        have : α * 1 ≤ α * (1 + u) := mul_le_mul_of_nonneg_left (by linarith) (by linarith)
        linarith

/-- The thrust segment: its components are those of acceleration plus gravity up to `E` in all, and its terms are bounded. -/
theorem thrustSegmentG_near (h : Rounding rnd u) (g : Fin 3 → Fl rnd) (s : Segment (Fl rnd)) (hs : s.WF) (hD : 3 ≤ s.D)
    (hN : 4 ≤ s.N) (hT : 0 ≤ s.time.val) {A E V : ℝ} (he : AnalyticErrors u s g A E V) :
    ∃ ts, thrustSegmentG g s = .ok ts ∧ ts.WF ∧ ts.D = 3 ∧ ts.N = s.N - 2 ∧ ts.time = s.time ∧
      (∀ k ≤ 1, absSize ts [0, 1, 2] k s.time.val ≤ A) ∧
      ∀ t ∈ Icc 0 s.time.val, |magnitude (realPolys ts) [0, 1, 2] 0 t - thrust (fun i => (g i).val) (realPolys s) t| ≤ E := by
  have hp1 := one_le_pow_u h (2 * s.N + 1)
  have hDl : 3 ≤ s.polys.length := hD
  obtain ⟨p0, e0, n0, v0⟩ := thrustPolyG_near h g s hs hD (by omega) 0
  obtain ⟨p1, e1, n1, v1⟩ := thrustPolyG_near h g s hs hD (by omega) 1
  obtain ⟨p2, e2, n2, v2⟩ := thrustPolyG_near h g s hs hD (by omega) 2
  have h3 : ∀ d ∈ [0, 1, 2], d < s.D := by
    intro d hd
    simp only [List.mem_cons, List.not_mem_nil, or_false] at hd
    omega
  have h3t : ∀ d ∈ [0, 1, 2], d < (⟨[p0, p1, p2], s.time, s.N - 2⟩ : Segment (Fl rnd)).D := by
    intro d hd
    simp only [List.mem_cons, List.not_mem_nil, or_false] at hd
    show d < 3
    omega
  have hsz : ∀ k, absSize s [0, 1, 2] k s.time.val =
      derivAt ((vals (s.polys[0]'(by omega)).coeffs).map abs) k s.time.val +
      (derivAt ((vals (s.polys[1]'(by omega)).coeffs).map abs) k s.time.val +
        derivAt ((vals (s.polys[2]'(by omega)).coeffs).map abs) k s.time.val) := by
    intro k
    rw [absSize_eq s _ h3]
    simp only [List.map_cons, List.map_nil, List.sum_cons, List.sum_nil, add_zero]
    rw [segVals_abs_getD s (by omega), segVals_abs_getD s (by omega), segVals_abs_getD s (by omega)]
  have hg : ∑ i, |(g i).val| = |(g 0).val| + (|(g 1).val| + |(g 2).val|) := by rw [Fin.sum_univ_three]; ring
  set α := (1 + u) ^ (2 * s.N + 1) with hα
  have hbound : ∀ (p : Poly (Fl rnd)) (q : Poly (Fl rnd)) (x : ℝ), CoeffNear α (ofCoeffs (vals p.coeffs))
      (derivative^[2] (ofCoeffs (vals q.coeffs)) + C x) (derivative^[2] (ofCoeffs ((vals q.coeffs).map abs)) + C |x|) →
      derivAt ((vals p.coeffs).map abs) 0 s.time.val ≤ α * (derivAt ((vals q.coeffs).map abs) 2 s.time.val + |x|) ∧
      derivAt ((vals p.coeffs).map abs) 1 s.time.val ≤ α * (derivAt ((vals q.coeffs).map abs) 3 s.time.val) ∧
      ∀ t ∈ Icc 0 s.time.val, |derivAt (vals p.coeffs) 0 t - (derivAt (vals q.coeffs) 2 t + x)| ≤
        (α - 1) * (derivAt ((vals q.coeffs).map abs) 2 s.time.val + |x|) := by
    intro p q x hn
    have hco : ∀ i, (ofCoeffs ((vals p.coeffs).map abs)).coeff i ≤
        (C α * (derivative^[2] (ofCoeffs ((vals q.coeffs).map abs)) + C |x|)).coeff i := by
      intro i
      rw [coeff_C_mul, coeff_ofCoeffs, abs_getD, ← coeff_ofCoeffs]
      exact hn.le i
    refine ⟨?_, ?_, fun t ht => ?_⟩
    · have := eval_le_of_coeff_le hco hT 0
      simpa only [derivAt, Function.iterate_zero, id_eq, eval_mul, eval_add, eval_C] using this
    · have := eval_le_of_coeff_le hco hT 1
      simp only [Function.iterate_one, derivative_C_mul, derivative_add, derivative_C, add_zero, eval_mul, eval_C] at this
      rw [← Function.iterate_succ_apply' (f := derivative)] at this
      exact this
    · have := hn.eval hp1 (t := t) (T := s.time.val) (by rw [abs_of_nonneg ht.1]; exact ht.2)
      simpa only [derivAt, Function.iterate_zero, id_eq, eval_add, eval_C] using this
  obtain ⟨b00, b01, c0⟩ := hbound p0 _ _ v0
  obtain ⟨b10, b11, c1⟩ := hbound p1 _ _ v1
  obtain ⟨b20, b21, c2⟩ := hbound p2 _ _ v2
  have s2 := he.size 2 (by norm_num) (by norm_num)
  have s3 := he.size 3 (by norm_num) (by norm_num)
  rw [hsz, hg, ← hα] at s2 s3
  have hev := he.eval
  rw [← hα] at hev
  have hseg : ∀ k, absSize (⟨[p0, p1, p2], s.time, s.N - 2⟩ : Segment (Fl rnd)) [0, 1, 2] k s.time.val =
      derivAt ((vals p0.coeffs).map abs) k s.time.val + (derivAt ((vals p1.coeffs).map abs) k s.time.val +
        derivAt ((vals p2.coeffs).map abs) k s.time.val) := by
    intro k
    rw [absSize_eq _ _ h3t]
    simp only [List.map_cons, List.map_nil, List.sum_cons, List.sum_nil, add_zero]
    rw [segVals_abs_getD _ (h3t 0 (by simp)), segVals_abs_getD _ (h3t 1 (by simp)), segVals_abs_getD _ (h3t 2 (by simp))]
    rfl
  have hα0 : 0 ≤ α := by linarith
  have hgn : ∀ i, 0 ≤ |(g i).val| := fun i => abs_nonneg _
  refine ⟨⟨[p0, p1, p2], s.time, s.N - 2⟩, ?_, ⟨?_, ?_⟩, rfl, rfl, rfl, ?_, ?_⟩
  · unfold thrustSegmentG
    simp only [List.mapM_cons, List.mapM_nil, e0, e1, e2, Res.ok_bind, Res.pure_eq]
  · intro p hp
    simp only [List.mem_cons, List.not_mem_nil, or_false] at hp
    rcases hp with rfl | rfl | rfl <;> assumption
  · have := hs.small
    show s.N - 2 ≤ 22
    omega
  · intro k hk
    rw [hseg]
    interval_cases k
    · refine le_trans ?_ s2
      calc _ ≤ _ := add_le_add b00 (add_le_add b10 b20)
        _ = _ := by simp only [Fin.val_zero, Fin.val_one, Fin.val_two]; ring
    · refine le_trans ?_ s3
      have hx : 0 ≤ α * (|(g 0).val| + (|(g 1).val| + |(g 2).val|)) :=
        mul_nonneg hα0 (add_nonneg (hgn 0) (add_nonneg (hgn 1) (hgn 2)))
      calc _ ≤ _ := add_le_add b01 (add_le_add b11 b21)
        _ ≤ _ := by
          simp only [Fin.val_zero, Fin.val_one, Fin.val_two]
          rw [mul_add, mul_add, mul_add]
          linarith
  · intro t ht
    rw [show realPolys s = (realSeg s).polys from rfl, thrust_eq]
    unfold magnitude
    have q : ∀ (i : Fin 3), axisVal (realSeg s) 2 i t = derivAt (vals (s.polys[(i : ℕ)]'(by omega)).coeffs) 2 t := by
      intro i
      have := realPolys_value s 2 t (d := i) (by omega)
      exact this
    have r0 := realPolys_value (⟨[p0, p1, p2], s.time, s.N - 2⟩ : Segment (Fl rnd)) 0 t (d := 0) (h3t 0 (by simp))
    have r1 := realPolys_value (⟨[p0, p1, p2], s.time, s.N - 2⟩ : Segment (Fl rnd)) 0 t (d := 1) (h3t 1 (by simp))
    have r2 := realPolys_value (⟨[p0, p1, p2], s.time, s.N - 2⟩ : Segment (Fl rnd)) 0 t (d := 2) (h3t 2 (by simp))
    have hn := norm_near (fun i : Fin 3 => derivAt (vals (![p0, p1, p2] i).coeffs) 0 t)
      (fun i : Fin 3 => axisVal (realSeg s) 2 i t + (g i).val) [0, 1, 2]
    simp only [List.map_cons, List.map_nil, List.sum_cons, List.sum_nil, add_zero, q] at hn ⊢
    rw [r0, r1, r2]
    refine hn.trans ?_
    refine le_trans ?_ hev
    refine le_trans (add_le_add (c0 t ht) (add_le_add (c1 t ht) (c2 t ht))) ?_
    simp only [Fin.val_zero, Fin.val_one, Fin.val_two]
    rw [← mul_add, ← mul_add]
    refine mul_le_mul_of_nonneg_left ?_ (by linarith)
    have hx : (0 : ℝ) ≤ derivAt ((vals (s.polys[0]'(by omega)).coeffs).map abs) 2 s.time.val + |(g 0).val| +
        (derivAt ((vals (s.polys[1]'(by omega)).coeffs).map abs) 2 s.time.val + |(g 1).val| +
        (derivAt ((vals (s.polys[2]'(by omega)).coeffs).map abs) 2 s.time.val + |(g 2).val|)) := by
      have l : ∀ c : List ℝ, 0 ≤ derivAt (c.map abs) 2 s.time.val := fun c =>
        (abs_derivAt_le c 2 (t := 0) (T := s.time.val) (by rw [abs_zero]; exact hT)).2.2
      have := l (vals (s.polys[0]'(by omega)).coeffs)
      have := l (vals (s.polys[1]'(by omega)).coeffs)
      have := l (vals (s.polys[2]'(by omega)).coeffs)
      linarith [hgn 0, hgn 1, hgn 2]
    have hy := mul_le_mul_of_nonneg_right hp1 hx
    linarith

/-! #### smallest and largest candidates -/

theorem minElementG_ok (es : List (Extremum (Fl rnd))) (hne : es ≠ []) :
    ∃ e ∈ es, minElementG es = .ok e ∧ ∀ x ∈ es, e.value.val ≤ x.value.val := by
  have key : ∀ (es : List (Extremum (Fl rnd))) (e : Extremum (Fl rnd)), (es.foldl Extremum.stdMin e = e ∨ es.foldl Extremum.stdMin e ∈ es) ∧
      (es.foldl Extremum.stdMin e).value.val ≤ e.value.val ∧ ∀ x ∈ es, (es.foldl Extremum.stdMin e).value.val ≤ x.value.val := by
    intro es
    induction es with
    | nil => simp
    | cons y es ih =>
      intro e
      obtain ⟨i1, i2, i3⟩ := ih (e.stdMin y)
      obtain ⟨a1, a2, a3⟩ := stdMin_le e y
      rw [List.foldl_cons]
      refine ⟨?_, i2.trans a1, ?_⟩
      · rcases i1 with i1 | i1
        · rw [i1]
          rcases a3 with a3 | a3
          · exact Or.inl a3
          · right; rw [a3]; simp
        · right; simp [i1]
      · intro x hx
        rcases List.mem_cons.mp hx with rfl | hx
        · exact i2.trans a2
        · exact i3 x hx
  cases es with
  | nil => exact absurd rfl hne
  | cons e es =>
    obtain ⟨k1, k2, k3⟩ := key es e
    refine ⟨es.foldl Extremum.stdMin e, ?_, rfl, ?_⟩
    · rcases k1 with k1 | k1
      · rw [k1]; simp
      · simp [k1]
    · intro x hx
      rcases List.mem_cons.mp hx with rfl | hx
      · exact k2
      · exact k3 x hx

theorem maxElementG_ok (es : List (Extremum (Fl rnd))) (hne : es ≠ []) :
    ∃ e ∈ es, maxElementG es = .ok e ∧ ∀ x ∈ es, x.value.val ≤ e.value.val := by
  have key : ∀ (es : List (Extremum (Fl rnd))) (e : Extremum (Fl rnd)), (es.foldl Extremum.stdMax e = e ∨ es.foldl Extremum.stdMax e ∈ es) ∧
      e.value.val ≤ (es.foldl Extremum.stdMax e).value.val ∧ ∀ x ∈ es, x.value.val ≤ (es.foldl Extremum.stdMax e).value.val := by
    intro es
    induction es with
    | nil => simp
    | cons y es ih =>
      intro e
      obtain ⟨i1, i2, i3⟩ := ih (e.stdMax y)
      obtain ⟨a1, a2, a3⟩ := le_stdMax e y
      rw [List.foldl_cons]
      refine ⟨?_, a1.trans i2, ?_⟩
      · rcases i1 with i1 | i1
        · rw [i1]
          rcases a3 with a3 | a3
          · exact Or.inl a3
          · right; rw [a3]; simp
        · right; simp [i1]
      · intro x hx
        rcases List.mem_cons.mp hx with rfl | hx
        · exact a2.trans i2
        · exact i3 x hx
  cases es with
  | nil => exact absurd rfl hne
  | cons e es =>
    obtain ⟨k1, k2, k3⟩ := key es e
    refine ⟨es.foldl Extremum.stdMax e, ?_, rfl, ?_⟩
    · rcases k1 with k1 | k1
      · rw [k1]; simp
      · simp [k1]
    · intro x hx
      rcases List.mem_cons.mp hx with rfl | hx
      · exact k2
      · exact k3 x hx

/-! #### roll and pitch rates -/

theorem recursiveRollPitchG_cases {K : Type} [Zero K] [One K] [Add K] [Sub K] [Mul K] [Div K] [Neg K] [NatCast K] [LT K] [DecidableLT K]
    (lib : FeasLib K) (ic : InputConstraints K) (m : K) (tc jc : List (Extremum K)) (fuel : ℕ) (a b : K) (r : Verdict)
    (hr : recursiveRollPitchG lib ic m tc jc fuel a b = .ok r) : r = .feasible ∨ r = .indeterminable := by
  induction fuel generalizing a b r with
  | zero => cases hr
  | succ fuel ih =>
    rw [recursiveRollPitchG] at hr
    dsimp only at hr
    split_ifs at hr with h1 h2 h3
    · exact Or.inr (Res.ok.inj hr).symm
    · exact Or.inr (Res.ok.inj hr).symm
    · exact Or.inr (Res.ok.inj hr).symm
    all_goals
      cases hl : ic.getConstraint kOmegaXYMax with
      | none =>
        rw [hl] at hr
        exact Or.inl (Res.ok.inj hr).symm
      | some l =>
        rw [hl] at hr
        dsimp only at hr
        split_ifs at hr with h4
        · rw [Res.bind_eq_ok] at hr
          obtain ⟨r1, e1, hr⟩ := hr
          split_ifs at hr with h5
          · exact ih _ _ _ hr
          · rw [← Res.ok.inj hr]
            exact ih _ _ _ e1
        · exact Or.inl (Res.ok.inj hr).symm

theorem recursiveRollPitchG_returns (h : Rounding rnd u) (hu : u ≤ 1 / 100) (dot : Dot (Fl rnd)) (ic : InputConstraints (Fl rnd))
    (m : Fl rnd) {T : ℝ} (hm : 0 < m.val) (hmT : 8 * u * T ≤ m.val) (tc jc : List (Extremum (Fl rnd))) (n : ℕ) (a b : Fl rnd)
    (ha : 0 ≤ a.val) (hb : b.val ≤ T) (hn : b.val - a.val < m.val / 2 * (5 / 4) ^ n) :
    ∃ r, ∀ fuel, n < fuel → recursiveRollPitchG (flFeasLib rnd dot) ic m tc jc fuel a b = .ok r := by
  induction n generalizing a b with
  | zero =>
    refine ⟨.indeterminable, fun fuel hf => ?_⟩
    obtain ⟨f, rfl⟩ : ∃ f, fuel = f + 1 := ⟨fuel - 1, by omega⟩
    rw [recursiveRollPitchG, if_pos]
    by_contra hlen
    have hin := half_inside h hu ha hb hm hmT hlen dot
    have hlen' : m.val ≤ rnd (b.val - a.val) := not_lt.mp hlen
    have hL := abs_le.mp (h.rel (b.val - a.val))
    rw [abs_of_nonneg (by linarith [hin.1])] at hL
    have hu0 := rounding_nonneg h
    have : u * (b.val - a.val) ≤ 1 / 100 * (b.val - a.val) := mul_le_mul_of_nonneg_right hu (by linarith [hin.1])
    rw [pow_zero, mul_one] at hn
    linarith [hL.2]
  | succ n ih =>
    by_cases hlen : b - a < m
    · refine ⟨.indeterminable, fun fuel hf => ?_⟩
      obtain ⟨f, rfl⟩ : ∃ f, fuel = f + 1 := ⟨fuel - 1, by omega⟩
      rw [recursiveRollPitchG, if_pos hlen]
    have hin := half_inside h hu ha hb hm hmT hlen dot
    dsimp only at hin
    obtain ⟨h1, h2, h3, h4, h5⟩ := hin
    have hp : m.val / 2 * (5 / 4) ^ (n + 1) = 5 / 4 * (m.val / 2 * (5 / 4) ^ n) := by rw [pow_succ]; ring
    rw [hp] at hn
    obtain ⟨r1, e1⟩ := ih a _ ha (h3.trans hb) (lt_of_le_of_lt h4 (by linarith))
    obtain ⟨r2, e2⟩ := ih _ b (ha.trans h2) hb (lt_of_le_of_lt h5 (by linarith))
    have hstep : ∀ f, n < f → ∃ X, (X = .ok .indeterminable ∨ X = .ok .feasible ∨ X = if r1 = .feasible then .ok r2 else .ok r1) ∧
        recursiveRollPitchG (flFeasLib rnd dot) ic m tc jc (f + 1) a b = X := by
      intro f hf
      refine ⟨_, ?_, rfl⟩
      rw [recursiveRollPitchG, if_neg hlen]
      dsimp only
      split_ifs
      all_goals first
        | exact Or.inl rfl
        | skip
      all_goals
        cases ic.getConstraint kOmegaXYMax with
        | none => exact Or.inr (Or.inl rfl)
        | some l =>
          dsimp only
          split_ifs
          all_goals first
            | exact Or.inr (Or.inl rfl)
            | skip
          all_goals
            right; right
            rw [e1 f hf, Res.ok_bind, e2 f hf]
            split_ifs <;> rfl
    have hsame : ∀ f, n < f → recursiveRollPitchG (flFeasLib rnd dot) ic m tc jc (f + 1) a b =
        recursiveRollPitchG (flFeasLib rnd dot) ic m tc jc (n + 1 + 1) a b := by
      intro f hf
      rw [recursiveRollPitchG, recursiveRollPitchG]
      simp only [e1 f hf, e2 f hf, e1 (n + 1) (by omega), e2 (n + 1) (by omega)]
    obtain ⟨X, hX, hX2⟩ := hstep (n + 1) (by omega)
    obtain ⟨r, hr⟩ : ∃ r, X = .ok r := by
      rcases hX with rfl | rfl | rfl
      · exact ⟨_, rfl⟩
      · exact ⟨_, rfl⟩
      · split_ifs <;> exact ⟨_, rfl⟩
    refine ⟨r, fun fuel hf => ?_⟩
    obtain ⟨f, rfl⟩ : ∃ f, fuel = f + 1 := ⟨fuel - 1, by omega⟩
    rw [hsame f (by omega), hX2, hr]

/-! #### the parts of the check -/

theorem search_le (h : Rounding rnd u) {ε a b A E T : ℝ} {n m : ℕ} (hnm : n ≤ m) (hε : 0 ≤ ε) (ha : 0 ≤ a) (hb : 0 ≤ b)
    (haA : a ≤ A) (hbA : b ≤ A) (hT : 0 ≤ T) :
    b * ε + 2 * E + Real.sqrt (2 * ((1 + u) ^ n - 1) * (a * b) * T) ≤
      A * ε + 2 * E + Real.sqrt (2 * ((1 + u) ^ m - 1) * A ^ 2 * T) := by
  have hu := rounding_nonneg h
  have h1 := mul_le_mul_of_nonneg_right hbA hε
  have h2 : (1 + u) ^ n ≤ (1 + u) ^ m := pow_le_pow_right₀ (by linarith) hnm
  have h3 := one_le_pow_u h n
  have h4 : a * b ≤ A ^ 2 := by rw [sq]; exact mul_le_mul haA hbA hb (ha.trans haA)
  have h5 : Real.sqrt (2 * ((1 + u) ^ n - 1) * (a * b) * T) ≤ Real.sqrt (2 * ((1 + u) ^ m - 1) * A ^ 2 * T) := by
    refine Real.sqrt_le_sqrt (mul_le_mul_of_nonneg_right ?_ hT)
    exact mul_le_mul (by linarith) h4 (mul_nonneg ha hb) (by linarith)
  linarith

section
variable (h : Rounding rnd u) (dot : Dot (Fl rnd)) (ic : InputConstraints (Fl rnd)) (g : Fin 3 → Fl rnd) (s : Segment (Fl rnd))
  (hs : s.WF) (hD : 3 ≤ s.D) (hN : 4 ≤ s.N) (hT : 0 ≤ s.time.val) (A E V : ℝ) (he : AnalyticErrors u s g A E V)
include h hs hD hN hT he

theorem absSize_three_le (k : ℕ) (hk : 1 ≤ k) (hk3 : k ≤ 3) :
    0 ≤ absSize s [0, 1, 2] k s.time.val ∧ absSize s [0, 1, 2] k s.time.val ≤ A := by
  have h3 : ∀ d ∈ [0, 1, 2], d < s.D := by
    intro d hd
    simp only [List.mem_cons, List.not_mem_nil, or_false] at hd
    omega
  have h0 := absSize_nonneg s _ h3 k hT
  refine ⟨h0, le_trans ?_ (he.size k hk hk3)⟩
  have hg : 0 ≤ ∑ i, |(g i).val| := Finset.sum_nonneg fun _ _ => abs_nonneg _
  have := mul_le_mul_of_nonneg_right (one_le_pow_u h (2 * s.N + 1)) (add_nonneg h0 hg)
  linarith

theorem analyticErrors_nonneg : 0 ≤ A ∧ 0 ≤ E ∧ 0 ≤ V := by
  obtain ⟨a, b⟩ := absSize_three_le h g s hs hD hN hT A E V he 1 le_rfl (by norm_num)
  have hA := a.trans b
  have hE := (mul_nonneg (sub_nonneg.mpr (one_le_pow_u h _)) hA).trans he.eval
  have := mul_nonneg (sub_nonneg.mpr (one_le_pow_u h 5)) (add_nonneg hA hE)
  exact ⟨hA, hE, by linarith [he.value]⟩

theorem small_errors {a : ℝ} (ha : 0 ≤ a) (haA : a ≤ A) {n : ℕ} (hn : n ≤ 2 * s.N + 1) :
    ((1 + u) ^ n - 1) * a ≤ E ∧ E + ((1 + u) ^ 5 - 1) * (a + E) ≤ V := by
  have hu := rounding_nonneg h
  have h2 : (1 + u) ^ n ≤ (1 + u) ^ (2 * s.N + 1) := pow_le_pow_right₀ (by linarith) hn
  have h1 := one_le_pow_u h n
  refine ⟨le_trans (mul_le_mul (by linarith) haA ha (by linarith)) he.eval, ?_⟩
  have := mul_le_mul_of_nonneg_left (show a + E ≤ A + E by linarith) (sub_nonneg.mpr (one_le_pow_u h 5))
  linarith [he.value]

theorem analyticThrustG_near : ∃ c : List (Fl rnd), c.length ≤ 101 ∧ ∀ rc : RootCall (Fl rnd),
    (∀ r, analyticThrustG (flFeasLib rnd dot) rc ic g s = .ok r → ∃ x, rc c = .ok x) ∧
    ∀ x, rc c = .ok x → ∃ v cands, analyticThrustG (flFeasLib rnd dot) rc ic g s = .ok (v, cands) ∧
      ((v = .feasible ∧ ∀ ε, 0 ≤ ε → ApproxCall ε 0 s.time.val rc → ∀ t ∈ Icc 0 s.time.val,
          (∀ l, ic.getConstraint kFMin = some l →
            l.val ≤ thrust (fun i => (g i).val) (realPolys s) t + (V + E + searchError u ε s A E)) ∧
          (∀ l, ic.getConstraint kFMax = some l →
            thrust (fun i => (g i).val) (realPolys s) t ≤ l.val + (V + E + searchError u ε s A E))) ∨
       (v ≠ .feasible ∧ v ≠ .indeterminable ∧ ∃ t ∈ Icc 0 s.time.val, ∀ y,
          ViolatedUpTo 0 (candidateErrors E V) y ic g (realPolys s) t v)) := by
  obtain ⟨ts, e1, w1, w2, w3, w4, hsz, hth⟩ := thrustSegmentG_near h g s hs hD hN hT he
  have hds : ∀ d ∈ [0, 1, 2], d < ts.D := by
    intro d hd
    simp only [List.mem_cons, List.not_mem_nil, or_false] at hd
    omega
  have hT' : 0 ≤ ts.time.val := by rw [w4]; exact hT
  have a0 := absSize_nonneg ts _ hds 0 hT
  have a1 := absSize_nonneg ts _ hds 1 hT
  obtain ⟨q1, q2⟩ := small_errors h g s hs hD hN hT A E V he a0 (hsz 0 (by norm_num)) (n := 2 * ts.N) (by omega)
  obtain ⟨c, hlen, hc⟩ := magnitudeCandidatesM_near h ts w1 (by omega) 0 (by omega) (by norm_num) hT' (E := E) (V := V)
    (by rw [w4]; exact q1) (by rw [w4]; exact q2)
  refine ⟨c, hlen, fun rc => ⟨fun r hr => ?_, fun x hx => ?_⟩⟩
  · unfold analyticThrustG at hr
    rw [e1, Res.ok_bind, Res.bind_eq_ok] at hr
    obtain ⟨cs, e, -⟩ := hr
    exact (hc rc).1 cs e
  obtain ⟨times, val, m1, hne, m2, m3⟩ := (hc rc).2 x hx
  rw [w4] at m1 m2 m3
  have hne' : times.map (fun t => (⟨t, val t, 0⟩ : Extremum (Fl rnd))) ≠ [] := by simpa using hne
  obtain ⟨lo, hlo, elo, lolo⟩ := minElementG_ok _ hne'
  obtain ⟨hi, hhi, ehi, hihi⟩ := maxElementG_ok _ hne'
  obtain ⟨tlo, htlo, rfl⟩ := List.mem_map.mp hlo
  obtain ⟨thi, hthi, rfl⟩ := List.mem_map.mp hhi
  have hval : ∀ t ∈ times, t.val ∈ Icc 0 s.time.val ∧
      |(val t).val - thrust (fun i => (g i).val) (realPolys s) t.val| ≤ V + E := by
    intro t ht
    obtain ⟨p1, p2⟩ := m2 t ht
    refine ⟨p1, ?_⟩
    have p3 := hth _ p1
    have := abs_add_le ((val t).val - magnitude (realPolys ts) [0, 1, 2] 0 t.val)
      (magnitude (realPolys ts) [0, 1, 2] 0 t.val - thrust (fun i => (g i).val) (realPolys s) t.val)
    rw [sub_add_sub_cancel] at this
    have p2' : |(val t).val - magnitude (realPolys ts) [0, 1, 2] 0 t.val| ≤ V := p2
    linarith
  have hcand : ∀ ε, 0 ≤ ε → ApproxCall ε 0 s.time.val rc → ∀ t ∈ Icc 0 s.time.val,
      (val tlo).val ≤ thrust (fun i => (g i).val) (realPolys s) t + (V + E + searchError u ε s A E) ∧
      thrust (fun i => (g i).val) (realPolys s) t ≤ (val thi).val + (V + E + searchError u ε s A E) := by
    intro ε hε hA t ht
    obtain ⟨c1, c2⟩ := m3 ε hε hA (searchError u ε s A E)
      (search_le h (by omega) hε a0 a1 (hsz 0 (by norm_num)) (hsz 1 le_rfl) hT)
    have p0 := abs_le.mp (hth t ht)
    constructor
    · obtain ⟨w, hw, hle⟩ := c2 t ht
      have p1 := lolo _ (List.mem_map.mpr ⟨w, hw, rfl⟩)
      have p2 := abs_le.mp (m2 w hw).2
      simp only [Nat.cast_zero] at *
      linarith [p0.1, p0.2, p2.1, p2.2]
    · obtain ⟨w, hw, hle⟩ := c1 t ht
      have p1 := hihi _ (List.mem_map.mpr ⟨w, hw, rfl⟩)
      have p2 := abs_le.mp (m2 w hw).2
      simp only [Nat.cast_zero] at *
      linarith [p0.1, p0.2, p2.1, p2.2]
  have hce : candidateErrors E V 2 = V + E := by simp [candidateErrors]
  have hrun : analyticThrustG (flFeasLib rnd dot) rc ic g s = (do
      let low ← candidatesViolateG ic kFMin (.ok (⟨tlo, val tlo, 0⟩ : Extremum (Fl rnd))) fun v lim => v < lim
      if low then pure (.thrustLow, times.map fun t => ⟨t, val t, 0⟩)
      else do
        let high ← candidatesViolateG ic kFMax (.ok (⟨thi, val thi, 0⟩ : Extremum (Fl rnd))) fun v lim => v > lim
        if high then pure (.thrustHigh, times.map fun t => ⟨t, val t, 0⟩)
        else pure (.feasible, times.map fun t => ⟨t, val t, 0⟩)) := by
    unfold analyticThrustG
    have m1' : ts.magnitudeCandidatesM (flFeasLib rnd dot).toMagLib rc 0 0 ts.time kPosDim =
        .ok (true, times.map fun t => ⟨t, val t, 0⟩) := by rw [w4]; exact m1
    rw [e1, Res.ok_bind, m1', Res.ok_bind, elo, ehi]
    rfl
  rw [hrun]
  have hlow : ∀ lim : Fl rnd, (val tlo) < lim → ic.getConstraint kFMin = some lim → ∃ t ∈ Icc 0 s.time.val, ∀ y,
      ViolatedUpTo 0 (candidateErrors E V) y ic g (realPolys s) t .thrustLow := by
    intro lim hlt hl
    obtain ⟨p1, p2⟩ := hval tlo htlo
    refine ⟨tlo.val, p1, fun y => ⟨lim, hl, ?_⟩⟩
    have : (val tlo).val < lim.val := hlt
    rw [hce]
    linarith [(abs_le.mp p2).1]
  have hhigh : ∀ lim : Fl rnd, (val thi) > lim → ic.getConstraint kFMax = some lim → ∃ t ∈ Icc 0 s.time.val, ∀ y,
      ViolatedUpTo 0 (candidateErrors E V) y ic g (realPolys s) t .thrustHigh := by
    intro lim hlt hl
    obtain ⟨p1, p2⟩ := hval thi hthi
    refine ⟨thi.val, p1, fun y => ⟨lim, hl, ?_⟩⟩
    have : lim.val < (val thi).val := hlt
    rw [hce]
    linarith [(abs_le.mp p2).2]
  have hfin : (∀ lim : Fl rnd, ic.getConstraint kFMin = some lim → ¬ (val tlo) < lim) →
      (∀ lim : Fl rnd, ic.getConstraint kFMax = some lim → ¬ (val thi) > lim) →
      ∀ ε, 0 ≤ ε → ApproxCall ε 0 s.time.val rc → ∀ t ∈ Icc 0 s.time.val,
          (∀ l, ic.getConstraint kFMin = some l →
            l.val ≤ thrust (fun i => (g i).val) (realPolys s) t + (V + E + searchError u ε s A E)) ∧
          (∀ l, ic.getConstraint kFMax = some l →
            thrust (fun i => (g i).val) (realPolys s) t ≤ l.val + (V + E + searchError u ε s A E)) := by
    intro f1 f2 ε hε hA t ht
    obtain ⟨c1, c2⟩ := hcand ε hε hA t ht
    refine ⟨fun l hl => ?_, fun l hl => ?_⟩
    · have : l.val ≤ (val tlo).val := not_lt.mp (f1 l hl)
      linarith
    · have : (val thi).val ≤ l.val := not_lt.mp (f2 l hl)
      linarith
  unfold candidatesViolateG
  cases hl1 : ic.getConstraint kFMin with
  | none =>
    simp only [Res.ok_bind, Bool.false_eq_true, if_false]
    cases hl2 : ic.getConstraint kFMax with
    | none =>
      simp only [Res.ok_bind, Bool.false_eq_true, if_false]
      exact ⟨_, _, rfl, Or.inl ⟨rfl, fun ε hε hA t ht => ⟨by simp, by simp⟩⟩⟩
    | some l2 =>
      simp only [Res.ok_bind, Res.pure_eq]
      by_cases h2 : val thi > l2
      · rw [decide_eq_true h2, if_pos rfl]
        exact ⟨_, _, rfl, Or.inr ⟨by simp, by simp, hhigh l2 h2 hl2⟩⟩
      · rw [decide_eq_false h2, if_neg (by simp)]
        refine ⟨_, _, rfl, Or.inl ⟨rfl, ?_⟩⟩
        have := hfin (by rw [hl1]; simp) (by rw [hl2]; rintro l ⟨⟩; exact h2)
        rw [hl1, hl2] at this
        exact this
  | some l1 =>
    simp only [Res.ok_bind, Res.pure_eq]
    by_cases h1 : val tlo < l1
    · rw [decide_eq_true h1, if_pos rfl]
      exact ⟨_, _, rfl, Or.inr ⟨by simp, by simp, hlow l1 h1 hl1⟩⟩
    · rw [decide_eq_false h1, if_neg (by simp)]
      cases hl2 : ic.getConstraint kFMax with
      | none =>
        simp only [Res.ok_bind, Bool.false_eq_true, if_false]
        refine ⟨_, _, rfl, Or.inl ⟨rfl, ?_⟩⟩
        have := hfin (by rw [hl1]; rintro l ⟨⟩; exact h1) (by rw [hl2]; simp)
        rw [hl1, hl2] at this
        exact this
      | some l2 =>
        simp only [Res.ok_bind]
        by_cases h2 : val thi > l2
        · rw [decide_eq_true h2, if_pos rfl]
          exact ⟨_, _, rfl, Or.inr ⟨by simp, by simp, hhigh l2 h2 hl2⟩⟩
        · rw [decide_eq_false h2, if_neg (by simp)]
          refine ⟨_, _, rfl, Or.inl ⟨rfl, ?_⟩⟩
          have := hfin (by rw [hl1]; rintro l ⟨⟩; exact h1) (by rw [hl2]; rintro l ⟨⟩; exact h2)
          rw [hl1, hl2] at this
          exact this

theorem analyticVelocityG_near : ∃ c : List (Fl rnd), c.length ≤ 101 ∧ ∀ rc : RootCall (Fl rnd),
    (∀ r, analyticVelocityG (flFeasLib rnd dot) rc ic s = .ok r → ic.getConstraint kVMax ≠ none → ∃ x, rc c = .ok x) ∧
    ((ic.getConstraint kVMax = none ∧ analyticVelocityG (flFeasLib rnd dot) rc ic s = .ok none) ∨
     ∀ x, rc c = .ok x → ∃ v, analyticVelocityG (flFeasLib rnd dot) rc ic s = .ok v ∧
      ((v = none ∧ ∀ ε, 0 ≤ ε → ApproxCall ε 0 s.time.val rc → ∀ t ∈ Icc 0 s.time.val,
          ∀ l, ic.getConstraint kVMax = some l → speed (realPolys s) t ≤ l.val + (V + searchError u ε s A E)) ∨
       (v = some .velocity ∧ ∃ t ∈ Icc 0 s.time.val, ∀ y,
          ViolatedUpTo 0 (candidateErrors E V) y ic g (realPolys s) t .velocity))) := by
  obtain ⟨a0, a0'⟩ := absSize_three_le h g s hs hD hN hT A E V he 1 le_rfl (by norm_num)
  obtain ⟨a1, a1'⟩ := absSize_three_le h g s hs hD hN hT A E V he 2 (by norm_num) (by norm_num)
  obtain ⟨q1, q2⟩ := small_errors h g s hs hD hN hT A E V he a0 a0' (n := 2 * s.N) (by omega)
  obtain ⟨c, hlen, hc⟩ := magnitudeCandidatesM_near h s hs hD 1 (by omega) (by norm_num) hT q1 q2
  refine ⟨c, hlen, fun rc => ?_⟩
  unfold analyticVelocityG
  cases hl : ic.getConstraint kVMax with
  | none => exact ⟨fun r _ hne => absurd rfl hne, Or.inl ⟨rfl, rfl⟩⟩
  | some l =>
    dsimp only
    refine ⟨fun r hr _ => ?_, Or.inr fun x hx => ?_⟩
    · rw [Res.bind_eq_ok] at hr
      obtain ⟨cs, e, -⟩ := hr
      exact (hc rc).1 cs e
    obtain ⟨times, val, m1, hne, m2, m3⟩ := (hc rc).2 x hx
    have hne' : times.map (fun t => (⟨t, val t, 0⟩ : Extremum (Fl rnd))) ≠ [] := by simpa using hne
    obtain ⟨hi, hhi, ehi, hihi⟩ := maxElementG_ok _ hne'
    obtain ⟨thi, hthi, rfl⟩ := List.mem_map.mp hhi
    have m1' : s.magnitudeCandidatesM (flFeasLib rnd dot).toMagLib rc 1 0 s.time kPosDim =
        .ok (true, times.map fun t => ⟨t, val t, 0⟩) := m1
    have hsp : ∀ t, magnitude (realPolys s) [0, 1, 2] 1 t = speed (realPolys s) t := fun t => magnitude_speed (realSeg s) t
    rw [m1', Res.ok_bind]
    simp only [Bool.not_true, Bool.false_eq_true, if_false]
    rw [ehi, Res.ok_bind, Res.pure_eq]
    dsimp only
    by_cases hlt : val thi > l
    · rw [if_pos hlt]
      refine ⟨_, rfl, Or.inr ⟨rfl, thi.val, (m2 thi hthi).1, fun y => ⟨l, hl, ?_⟩⟩⟩
      have p2 := abs_le.mp (m2 thi hthi).2
      have p3 : l.val < (val thi).val := hlt
      rw [hsp] at p2
      simp only [candidateErrors]
      rw [if_neg (by norm_num)]
      linarith [p2.2]
    · rw [if_neg hlt]
      refine ⟨_, rfl, Or.inl ⟨rfl, fun ε hε hA t ht l' hl' => ?_⟩⟩
      cases hl'
      obtain ⟨c1, -⟩ := m3 ε hε hA (searchError u ε s A E) (search_le h (by omega) hε a0 a1 a0' a1' hT)
      obtain ⟨w, hw, hle⟩ := c1 t ht
      have p1 := hihi _ (List.mem_map.mpr ⟨w, hw, rfl⟩)
      have p2 := abs_le.mp (m2 w hw).2
      have p3 : (val thi).val ≤ l.val := not_lt.mp hlt
      rw [hsp, hsp] at hle
      rw [hsp] at p2
      dsimp only at p1
      linarith [p2.1]

theorem rollPitchPartG_returns (hu : u ≤ 1 / 100) (m : Fl rnd) (hm : 0 < m.val) (hmT : 8 * u * s.time.val ≤ m.val)
    (tc : List (Extremum (Fl rnd))) (rc : RootCall (Fl rnd)) (hrc : ∀ c, c.length ≤ 101 → ∃ x, rc c = .ok x) (n : ℕ)
    (hn : s.time.val < m.val / 2 * (5 / 4) ^ n) :
    ∃ r, ∀ fuel, n < fuel → rollPitchPartG (flFeasLib rnd dot) rc ic m fuel s tc = .ok r := by
  unfold rollPitchPartG
  by_cases hl : ic.hasConstraint kOmegaXYMax
  · obtain ⟨c, hlen, hc⟩ := magnitudeCandidatesM_near h s hs hD 3 (by omega) (by norm_num) hT le_rfl le_rfl
    obtain ⟨x, hx⟩ := hrc c hlen
    obtain ⟨times, val, m1, -⟩ := (hc rc).2 x hx
    have m1' : s.magnitudeCandidatesM (flFeasLib rnd dot).toMagLib rc 3 0 s.time kPosDim =
        .ok (true, times.map fun t => ⟨t, val t, 0⟩) := m1
    obtain ⟨r, hr⟩ := recursiveRollPitchG_returns h hu dot ic m hm hmT tc (times.map fun t => ⟨t, val t, 0⟩) n 0 s.time le_rfl le_rfl
      (by
        rw [show (0 : Fl rnd).val = 0 from rfl, sub_zero]
        exact hn)
    refine ⟨r, fun fuel hf => ?_⟩
    rw [if_pos hl, m1', Res.ok_bind]
    exact hr fuel hf
  · exact ⟨.feasible, fun fuel _ => by rw [if_neg hl]⟩

end

end Verif
