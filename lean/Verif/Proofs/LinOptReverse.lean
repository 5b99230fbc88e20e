import Verif.Proofs.LinOptImage
import Mathlib.Analysis.SpecialFunctions.Integrals.Basic

/-
The trajectory of smallest cost of a problem run backwards.
-/
namespace Verif

open Spec Set Polynomial

set_option linter.unusedSectionVars false

/-- The coefficients of `t ↦ p (T - t)`. -/
noncomputable def revCoef (n : ℕ) (T : ℝ) (f : ℕ → ℝ) : ℕ → ℝ :=
  ((ofCoeffs ((List.range n).map f)).comp (C T - X)).coeff

theorem ofCoeffs_coeff (n : ℕ) (p : ℝ[X]) (hp : p.natDegree < n) :
    ofCoeffs ((List.range n).map p.coeff) = p := by
  ext i
  rw [coeff_ofCoeffs]
  by_cases hi : i < n
  · simp [List.getD_eq_getElem?_getD, hi]
  · rw [Polynomial.coeff_eq_zero_of_natDegree_lt (by omega)]
    simp [List.getD_eq_getElem?_getD, hi]

theorem iterate_derivative_rev (p : ℝ[X]) (T : ℝ) (q : ℕ) :
    derivative^[q] (p.comp (C T - X)) = (-1) ^ q * (derivative^[q] p).comp (C T - X) := by
  induction q with
  | zero => simp
  | succ q ih =>
    rw [Function.iterate_succ_apply', ih, Function.iterate_succ_apply']
    have : derivative ((-1 : ℝ[X]) ^ q * (derivative^[q] p).comp (C T - X)) =
        (-1) ^ q * derivative ((derivative^[q] p).comp (C T - X)) := by
      have e : ((-1 : ℝ[X]) ^ q) = C ((-1 : ℝ) ^ q) := by simp
      rw [e, derivative_C_mul]
    rw [this, derivative_comp]
    simp only [derivative_sub, derivative_C, derivative_X, zero_sub]
    ring

theorem dvL_rev {n : ℕ} (hn : 0 < n) (T : ℝ) (f : ℕ → ℝ) (q : ℕ) (t : ℝ) :
    dvL n q t (revCoef n T f) = (-1) ^ q * dvL n q (T - t) f := by
  have hdeg : ((ofCoeffs ((List.range n).map f)).comp (C T - X)).natDegree < n := by
    have h1 := natDegree_ofCoeffs_lt ((List.range n).map f) (by simpa using hn)
    have h2 : (C T - X : ℝ[X]).natDegree ≤ 1 := by
      rw [natDegree_sub]
      exact (natDegree_X_sub_C T).le
    have h3 := natDegree_comp_le (p := ofCoeffs ((List.range n).map f)) (q := C T - X)
    have h4 : (ofCoeffs ((List.range n).map f)).natDegree * (C T - X : ℝ[X]).natDegree ≤
        (ofCoeffs ((List.range n).map f)).natDegree * 1 := Nat.mul_le_mul_left _ h2
    simp only [List.length_map, List.length_range] at h1
    omega
  rw [dvL_apply, dvL_apply]
  unfold derivAt revCoef
  rw [ofCoeffs_coeff n _ hdeg, iterate_derivative_rev]
  simp [eval_comp]

theorem getD_reverse (times : List ℝ) {i : ℕ} (hi : i < times.length) :
    times.reverse.getD i 0 = times.getD (times.length - 1 - i) 0 := by
  simp [List.getD_eq_getElem?_getD, List.getElem?_reverse hi]

/-- The segments run backwards. -/
noncomputable def revSegs (n dim : ℕ) (times : List ℝ) (a : List (Segment ℝ)) : List (Segment ℝ) :=
  mkSegs n dim times.reverse fun i d =>
    revCoef n (times.getD (times.length - 1 - i) 0) (cf a (times.length - 1 - i) d)

/-- `vs'` is `vs` run backwards. -/
def RevRel (L : ℕ) (vs vs' : List (Vertex ℝ)) : Prop :=
  ∀ i ≤ L, ∀ q, pinAt vs' i q = (pinAt vs (L - i) q).map fun w => w.map ((-1) ^ q * ·)

theorem RevRel.symm {L : ℕ} {vs vs' : List (Vertex ℝ)} (h : RevRel L vs vs') : RevRel L vs' vs := by
  intro i hi q
  have := h (L - i) (by omega) q
  rw [show L - (L - i) = i by omega] at this
  rw [this, Option.map_map]
  cases pinAt vs i q with
  | none => rfl
  | some w =>
    simp only [Option.map_some, Function.comp_apply, List.map_map, Option.some.injEq]
    have e : ((fun x : ℝ => (-1) ^ q * x) ∘ fun x => (-1) ^ q * x) = id := by
      funext x
      simp only [Function.comp_apply, id]
      rw [← mul_assoc, ← pow_add, Even.neg_one_pow ⟨q, rfl⟩, one_mul]
    rw [e, List.map_id]

section
variable {h n dim : ℕ} {times : List ℝ} {a : List (Segment ℝ)} {vs vs' : List (Vertex ℝ)}

theorem rev_shape : Shape n dim times.reverse (revSegs n dim times a) := mkSegs_shape _ _ _ _

theorem rev_cf (hn : 0 < n) {i d : ℕ} (hi : i < times.length) (hd : d < dim) (q : ℕ) (t : ℝ) :
    dvL n q t (cf (revSegs n dim times a) i d) =
      (-1) ^ q * dvL n q (times.getD (times.length - 1 - i) 0 - t) (cf a (times.length - 1 - i) d) := by
  unfold revSegs
  rw [cf_mkSegs _ (by simpa using hi) hd, dvL_rev hn]

theorem rev_meets (hn : 0 < n) (hl : ∀ i q, times.length < i → pinAt vs' i q = none) (ha : Shape n dim times a)
    (ma : MeetsConstraints h dim vs a) (hr : RevRel times.length vs vs') :
    MeetsConstraints h dim vs' (revSegs n dim times a) := by
  rw [meets_iff rev_shape]
  intro i q hq c hc d hd
  have hi : i ≤ times.length := by
    by_contra hcon
    rw [hl i q (by omega)] at hc
    cases hc
  rw [hr i hi q, Option.map_eq_some_iff] at hc
  obtain ⟨w, hw, rfl⟩ := hc
  obtain ⟨m1, m2⟩ := (meets_iff ha).mp ma _ q hq w hw d hd
  have e : (w.map fun x => (-1) ^ q * x).getD d 0 = (-1) ^ q * w.getD d 0 := by
    simp only [List.getD_eq_getElem?_getD, List.getElem?_map]
    cases w[d]? <;> simp
  rw [e, List.length_reverse]
  refine ⟨fun hi' => ?_, fun j hij hj => ?_⟩
  · rw [rev_cf hn hi' hd, sub_zero, m2 (times.length - 1 - i) (by omega) (by omega)]
  · rw [rev_cf hn hj hd, getD_reverse times hj, sub_self]
    rw [show times.length - 1 - j = times.length - i by omega, m1 (by omega)]

theorem rev_continuous (hn : 0 < n) (ha : Shape n dim times a) (ca : Spec.Continuous h dim a) :
    Spec.Continuous h dim (revSegs n dim times a) := by
  rw [continuous_iff rev_shape]
  intro i hi q hq d hd
  rw [List.length_reverse] at hi
  rw [rev_cf hn (by omega) hd, rev_cf hn hi hd, getD_reverse times (by omega), sub_self, sub_zero]
  have := (continuous_iff ha).mp ca (times.length - 1 - (i + 1)) (by omega) q hq d hd
  rw [this, show times.length - 1 - (i + 1) + 1 = times.length - 1 - i by omega]

theorem rev_cost (hn : 0 < n) (k : ℕ) (ha : Shape n dim times a) :
    cost k (revSegs n dim times a) = cost k a := by
  rw [cost_cf k rev_shape, cost_cf k ha, List.length_reverse,
    ← Finset.sum_range_reflect _ times.length]
  refine Finset.sum_congr rfl fun i hi => Finset.sum_congr rfl fun d hd => ?_
  have hi' : i < times.length := by simpa using hi
  have hd' : d < dim := by simpa using hd
  have e : ∀ t, (dvL n k t (cf (revSegs n dim times a) (times.length - 1 - i) d)) ^ 2 =
      (dvL n k (times.getD i 0 - t) (cf a i d)) ^ 2 := by
    intro t
    rw [rev_cf hn (by omega) hd', mul_pow, ← pow_mul, mul_comm k 2, pow_mul, neg_one_sq, one_pow, one_mul]
    rw [show times.length - 1 - (times.length - 1 - i) = i by omega]
  simp only [e]
  rw [getD_reverse times (by omega), show times.length - 1 - (times.length - 1 - i) = i by omega]
  rw [intervalIntegral.integral_comp_sub_left (fun t => (dvL n k t (cf a i d)) ^ 2) (times.getD i 0)]
  simp

end

theorem optimum_reversed {h k n dim : ℕ} (hk : k < h) (hn : 0 < n) {times : List ℝ}
    (h0 : ∀ T ∈ times, 0 < T) (hne : times ≠ []) {vs vs' : List (Vertex ℝ)}
    (hcount : vs.length = times.length + 1) (hcount' : vs'.length = times.length + 1)
    (hpin : Pinned k vs') (hr : RevRel times.length vs vs')
    {a b : List (Segment ℝ)} (ha : Shape n dim times a)
    (ma : MeetsConstraints h dim vs a) (ca : Spec.Continuous h dim a)
    (mina : ∀ segs, Shape n dim times segs → MeetsConstraints h dim vs segs →
      Spec.Continuous h dim segs → cost k a ≤ cost k segs)
    (hb : Shape n dim times.reverse b) (mb : MeetsConstraints h dim vs' b) (cb : Spec.Continuous h dim b)
    (minb : ∀ segs, Shape n dim times.reverse segs → MeetsConstraints h dim vs' segs →
      Spec.Continuous h dim segs → cost k b ≤ cost k segs) :
    ∀ i < times.length, ∀ d < dim, ∀ q t, dvL n q t (cf b i d) =
      (-1) ^ q * dvL n q (times.getD (times.length - 1 - i) 0 - t) (cf a (times.length - 1 - i) d) := by
  have out : ∀ {l : List (Vertex ℝ)}, l.length = times.length + 1 → ∀ i q, times.length < i →
      pinAt l i q = none := by
    intro l hl i q hi
    unfold pinAt
    rw [List.getElem?_eq_none (by omega)]
    rfl
  have hb' : Shape n dim times (revSegs n dim times.reverse b) := by
    have := rev_shape (n := n) (dim := dim) (times := times.reverse) (a := b)
    rwa [List.reverse_reverse] at this
  have mb' : MeetsConstraints h dim vs (revSegs n dim times.reverse b) := by
    refine rev_meets hn ?_ hb mb ?_
    · rw [List.length_reverse]; exact out hcount
    · rw [List.length_reverse]; exact hr.symm
  have h1 := mina _ hb' mb' (rev_continuous hn hb cb)
  rw [rev_cost hn k hb] at h1
  have hle : cost k (revSegs n dim times a) ≤ cost k b := by rw [rev_cost hn k ha]; exact h1
  have hpoly := optimum_unique hk (fun T hT => h0 T (by simpa using hT)) (by simpa using hne)
    (by rw [List.length_reverse]; exact hcount') hpin hb rev_shape mb (rev_meets hn (out hcount') ha ma hr) cb
    (rev_continuous hn ha ca) minb hle
  intro i hi d hd q t
  rw [← rev_cf hn hi hd]
  congr 1
  funext j
  have e : ∀ (l : List (Segment ℝ)), cf l i d j =
      (((l.map Segment.polys).getD i []).getD d ⟨[]⟩).coeffs.getD j 0 := by
    intro l
    unfold cf
    congr 3
    simp only [List.getD_eq_getElem?_getD, List.getElem?_map]
    cases l[i]? <;> rfl
  rw [e, e, hpoly]

/-- With agreeing vertices a trajectory can be evaluated in any segment that contains the time. -/
theorem evaluate_in (tr : Trajectory ℝ) (hwf : tr.WF) {q : ℕ} (hj : tr.JoinsAt q) {i : ℕ}
    (hi : i < tr.segments.length) {x : ℝ} (h0 : 0 ≤ x) (h1 : x ≤ tr.segments[i].time) :
    tr.evaluate (startTime tr.getSegmentTimes i + x) q = .ok (segValue tr.segments[i] q x) := by
  rcases h1.eq_or_lt with rfl | h1
  · rw [← times_getElem tr i hi, evaluate_at_vertex tr hwf q hj i hi, segValue_eq_valuesAt]
  · rw [evaluate_inside tr hwf i hi _ (by linarith) (by rw [times_getElem tr i hi]; linarith),
      segment_evaluate_ok _ (hwf.wf _ (List.getElem_mem hi)), add_sub_cancel_left]

end Verif
