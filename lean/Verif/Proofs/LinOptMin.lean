import Verif.Proofs.LinOptCost

/- Helper lemmas: the result of the linear optimisation has minimal cost. -/
namespace Verif

open Spec

set_option linter.unusedSectionVars false

variable {h : ℕ}

theorem zip_map_same {α β γ : Type} (f : α → β) (g : α → γ) (l : List α) :
    (l.map f).zip (l.map g) = l.map fun x => (f x, g x) := by
  induction l with
  | nil => rfl
  | cons a l ih => simp [ih]

theorem zipIdx_map_times {K β : Type} [Zero K] (times : List K) (g : K → β) :
    (times.map g).zipIdx = (List.range times.length).map fun i => (g (times.getD i 0), i) := by
  apply List.ext_getElem
  · simp
  · intro i h1 h2
    have h3 : i < times.length := by simpa using h1
    simp [List.getD_eq_getElem?_getD, h3]

/-- The coefficients belonging to the column values `X`, for segment `i`. -/
noncomputable def colCoeffs (inv : Matrix (Fin h) (Fin h) ℝ → Matrix (Fin h) (Fin h) ℝ) (dim : ℕ)
    (vs : List (Vertex ℝ)) (times : List ℝ) (X : ℕ → ℝ) (i : ℕ) : Fin (h + h) → ℝ :=
  (invertMappingMatrix inv (mapMat h (times.getD i 0))).mulVec fun p =>
    X ((colKeys h dim vs).idxOf (rowKey h i p))

theorem reorder_apply {o : LinOpt h ℝ} {inv} {vs : List (Vertex ℝ)} {times : List ℝ} {k : ℕ}
    (r : o.Ready inv vs times k) (i : ℕ) (hi : i < times.length) (X : ℕ → ℝ) (p : Fin (h + h)) :
    ∑ a ∈ Finset.range (o.nFixed + o.nFree), o.reorderEntry (i * (h + h) + p) a * X a =
      X ((colKeys h o.dimension vs).idxOf (rowKey h i p)) := by
  rw [← sum_pick _ (colKeys_nodup h o.dimension vs r.two) _ (rowKey_mem r i hi p p.2) X, list_sum_range,
    r.cols]
  exact Finset.sum_congr rfl fun a _ => by rw [r.reorderEntry i hi p p.2]

theorem rEntry_eq {o : LinOpt h ℝ} {inv} {vs : List (Vertex ℝ)} {times : List ℝ} {k : ℕ}
    (r : o.Ready inv vs times k) (a b : ℕ) :
    o.rEntry a b = ∑ i ∈ Finset.range times.length, ∑ p : Fin (h + h), ∑ q : Fin (h + h),
      o.reorderEntry (i * (h + h) + p) a *
        ((invertMappingMatrix inv (mapMat h (times.getD i 0))).transpose *
          costMat h k (times.getD i 0) * invertMappingMatrix inv (mapMat h (times.getD i 0))) p q *
        o.reorderEntry (i * (h + h) + q) b := by
  unfold LinOpt.rEntry
  rw [r.invEq, r.costEq, zip_map_same, zipIdx_map_times, List.map_map, list_sum_range]
  rfl

/-- The form the code builds is the sum of the quadratic costs of the segments. -/
theorem rform {o : LinOpt h ℝ} {inv} {vs : List (Vertex ℝ)} {times : List ℝ} {k : ℕ}
    (r : o.Ready inv vs times k) (X Z : ℕ → ℝ) :
    form o.rEntry (o.nFixed + o.nFree) X Z = ∑ i ∈ Finset.range times.length,
      colCoeffs inv o.dimension vs times X i ⬝ᵥ
        (costMat h k (times.getD i 0)).mulVec (colCoeffs inv o.dimension vs times Z i) := by
  have step : ∀ a b, o.rEntry a b * X a * Z b = ∑ i ∈ Finset.range times.length,
      ∑ p : Fin (h + h), ∑ q : Fin (h + h),
      (o.reorderEntry (i * (h + h) + p) a * X a) *
        ((invertMappingMatrix inv (mapMat h (times.getD i 0))).transpose *
          costMat h k (times.getD i 0) * invertMappingMatrix inv (mapMat h (times.getD i 0))) p q *
        (o.reorderEntry (i * (h + h) + q) b * Z b) := by
    intro a b
    rw [rEntry_eq r, Finset.sum_mul, Finset.sum_mul]
    refine Finset.sum_congr rfl fun i _ => ?_
    rw [Finset.sum_mul, Finset.sum_mul]
    refine Finset.sum_congr rfl fun p _ => ?_
    rw [Finset.sum_mul, Finset.sum_mul]
    exact Finset.sum_congr rfl fun q _ => by ring
  unfold form
  simp only [step]
  have swap : ∀ f : ℕ → ℕ → ℕ → Fin (h + h) → Fin (h + h) → ℝ,
      (∑ a ∈ Finset.range (o.nFixed + o.nFree), ∑ b ∈ Finset.range (o.nFixed + o.nFree),
        ∑ i ∈ Finset.range times.length, ∑ p, ∑ q, f a b i p q) =
      ∑ i ∈ Finset.range times.length, ∑ p, ∑ q, ∑ a ∈ Finset.range (o.nFixed + o.nFree),
        ∑ b ∈ Finset.range (o.nFixed + o.nFree), f a b i p q := by
    intro f
    rw [Finset.sum_congr rfl (fun a _ => Finset.sum_comm), Finset.sum_comm]
    refine Finset.sum_congr rfl fun i _ => ?_
    rw [Finset.sum_congr rfl (fun a _ => Finset.sum_comm), Finset.sum_comm]
    refine Finset.sum_congr rfl fun p _ => ?_
    rw [Finset.sum_congr rfl (fun a _ => Finset.sum_comm), Finset.sum_comm]
  rw [swap]
  refine Finset.sum_congr rfl fun i hi => ?_
  have hi' : i < times.length := by simpa using hi
  have inner : ∀ p q : Fin (h + h), ∑ a ∈ Finset.range (o.nFixed + o.nFree),
      ∑ b ∈ Finset.range (o.nFixed + o.nFree), (o.reorderEntry (i * (h + h) + p) a * X a) *
        ((invertMappingMatrix inv (mapMat h (times.getD i 0))).transpose *
          costMat h k (times.getD i 0) * invertMappingMatrix inv (mapMat h (times.getD i 0))) p q *
        (o.reorderEntry (i * (h + h) + q) b * Z b) =
      X ((colKeys h o.dimension vs).idxOf (rowKey h i p)) *
        (((invertMappingMatrix inv (mapMat h (times.getD i 0))).transpose *
          costMat h k (times.getD i 0) * invertMappingMatrix inv (mapMat h (times.getD i 0))) p q *
        Z ((colKeys h o.dimension vs).idxOf (rowKey h i q))) := by
    intro p q
    rw [← reorder_apply r i hi' X p, ← reorder_apply r i hi' Z q]
    simp only [Finset.mul_sum, Finset.sum_mul]
    rw [Finset.sum_comm]
    refine Finset.sum_congr rfl fun a _ => Finset.sum_congr rfl fun b _ => by ring
  simp only [inner]
  unfold colCoeffs
  set A := invertMappingMatrix inv (mapMat h (times.getD i 0))
  set Q := costMat h k (times.getD i 0)
  have e : ∀ y z : Fin (h + h) → ℝ, A.mulVec y ⬝ᵥ Q.mulVec (A.mulVec z) =
      ∑ p, ∑ q, y p * ((A.transpose * Q * A) p q * z q) := by
    intro y z
    have e1 : A.mulVec y ⬝ᵥ Q.mulVec (A.mulVec z) = y ⬝ᵥ (A.transpose * Q * A).mulVec z := by
      rw [← Matrix.mulVec_mulVec, ← Matrix.mulVec_mulVec, Matrix.dotProduct_mulVec y,
        Matrix.vecMul_transpose]
    rw [e1]
    simp only [dotProduct, Matrix.mulVec, Finset.mul_sum]
  rw [e]

theorem rEntry_symm {o : LinOpt h ℝ} {inv} {vs : List (Vertex ℝ)} {times : List ℝ} {k : ℕ}
    (r : o.Ready inv vs times k) (hN : h + h ≤ 22) (a b : ℕ) : o.rEntry a b = o.rEntry b a := by
  have hk := r.derivLt
  rw [rEntry_eq r, rEntry_eq r]
  refine Finset.sum_congr rfl fun i _ => ?_
  rw [Finset.sum_comm]
  refine Finset.sum_congr rfl fun p _ => Finset.sum_congr rfl fun q _ => ?_
  set A := invertMappingMatrix inv (mapMat h (times.getD i 0))
  have e : (A.transpose * costMat h k (times.getD i 0) * A).transpose =
      A.transpose * costMat h k (times.getD i 0) * A := by
    rw [Matrix.transpose_mul, Matrix.transpose_mul, Matrix.transpose_transpose,
      costMat_symm h k hN (by omega), Matrix.mul_assoc]
  have e2 := congrFun (congrFun e p) q
  rw [Matrix.transpose_apply] at e2
  rw [e2]
  ring

theorem rform_nonneg {o : LinOpt h ℝ} {inv} {vs : List (Vertex ℝ)} {times : List ℝ} {k : ℕ}
    (r : o.Ready inv vs times k) (hN : h + h ≤ 22) (ht : ∀ T ∈ times, 1 / 2 ^ 52 ≤ T) (X : ℕ → ℝ) :
    0 ≤ form o.rEntry (o.nFixed + o.nFree) X X := by
  have hk := r.derivLt
  rw [rform r]
  refine Finset.sum_nonneg fun i hi => costMat_nonneg h k hN (by omega) _ ?_ _
  have := ht _ (getD_mem_times (by simpa using hi : i < times.length))
  have h2 := dblEps_pos (K := ℝ)
  linarith

/-! #### Costs of segments -/

/-- Cost of segments whose coefficients are those of the column values `X d`. -/
theorem cost_cols {inv : Matrix (Fin h) (Fin h) ℝ → Matrix (Fin h) (Fin h) ℝ} {dim k : ℕ}
    (hN : h + h ≤ 22) (hk : k < h) (vs : List (Vertex ℝ)) (times : List ℝ) (X : ℕ → ℕ → ℝ)
    (segs : List (Segment ℝ)) (hs : Shape (h + h) dim times segs)
    (hc : ∀ (i : ℕ) (s : Segment ℝ), segs[i]? = some s → ∀ d < dim, (s.polys.getD d ⟨[]⟩).coeffs =
      List.ofFn (colCoeffs inv dim vs times (X d) i)) :
    2 * cost k segs = ∑ d ∈ Finset.range dim, ∑ i ∈ Finset.range times.length,
      colCoeffs inv dim vs times (X d) i ⬝ᵥ
        (costMat h k (times.getD i 0)).mulVec (colCoeffs inv dim vs times (X d) i) := by
  have hlen : segs.length = times.length := by rw [← hs.durations]; simp
  have e1 : segs = (List.range times.length).map fun i => segs.getD i ⟨[], 0, 0⟩ := by
    apply List.ext_getElem
    · simp [hlen]
    · intro i h1 h2
      simp [List.getD_eq_getElem?_getD, h1]
  have e2 : ∀ i < times.length, (fun s : Segment ℝ => (s.polys.map fun p =>
      ∫ t in (0 : ℝ)..s.time, (iteratedDeriv k (curve p.coeffs) t) ^ 2).sum)
        (segs.getD i ⟨[], 0, 0⟩) = ∑ d ∈ Finset.range dim,
          ∫ t in (0 : ℝ)..(times.getD i 0),
            (iteratedDeriv k (curve (List.ofFn (colCoeffs inv dim vs times (X d) i))) t) ^ 2 := by
    intro i hi
    have hi' : i < segs.length := by omega
    have hg : segs[i]? = some segs[i] := List.getElem?_eq_getElem hi'
    have hgd : segs.getD i ⟨[], 0, 0⟩ = segs[i] := by
      rw [List.getD_eq_getElem?_getD, hg]; rfl
    have htime : (segs[i]).time = times.getD i 0 := by
      have : times[i]? = some (segs[i]).time := by
        rw [← hs.durations, List.getElem?_map, hg]; rfl
      rw [List.getD_eq_getElem?_getD, this]; rfl
    rw [hgd]
    simp only
    rw [htime]
    have hd : (segs[i]).polys.length = dim := hs.dims _ (List.getElem_mem hi')
    have e3 : (segs[i]).polys = (List.range dim).map fun d => (segs[i]).polys.getD d ⟨[]⟩ := by
      apply List.ext_getElem
      · simp [hd]
      · intro j h1 h2
        simp [List.getD_eq_getElem?_getD, h1]
    rw [e3, List.map_map, list_sum_range]
    refine Finset.sum_congr rfl fun d hd' => ?_
    simp only [Function.comp_apply]
    rw [hc i _ hg d (by simpa using hd')]
  unfold cost
  rw [e1, List.map_map, list_sum_range, Finset.sum_comm, Finset.mul_sum]
  refine Finset.sum_congr rfl fun i hi => ?_
  have := e2 i (by simpa using hi)
  simp only [Function.comp_apply] at this ⊢
  rw [this, Finset.mul_sum]
  exact Finset.sum_congr rfl fun d _ => (costMat_integral h k hN (by omega) _ _).symm

/-- The value of derivative `key.2` at vertex `key.1`, read from segments. -/
noncomputable def valOf (segs : List (Segment ℝ)) (d : ℕ) (key : ℕ × ℕ) : ℝ :=
  if key.1 < segs.length then segDeriv (segs.getD key.1 ⟨[], 0, 0⟩) d key.2 0
  else segDeriv (segs.getD (key.1 - 1) ⟨[], 0, 0⟩) d key.2 (segs.getD (key.1 - 1) ⟨[], 0, 0⟩).time

/-- The column values of a trajectory. -/
noncomputable def colsOf (h dim : ℕ) (vs : List (Vertex ℝ)) (segs : List (Segment ℝ)) (d c : ℕ) : ℝ :=
  valOf segs d ((colKeys h dim vs).getD c (0, 0))

theorem colsOf_key (dim : ℕ) (vs : List (Vertex ℝ)) (hv : 2 ≤ vs.length) (segs : List (Segment ℝ))
    (d i k : ℕ) (hi : i < vs.length) (hk : k < h) :
    colsOf h dim vs segs d ((colKeys h dim vs).idxOf (i, k)) = valOf segs d (i, k) := by
  unfold colsOf
  have hm := (colKeys_mem h dim vs hv i k).mpr ⟨hi, hk⟩
  have hlt := List.idxOf_lt_length_of_mem hm
  rw [List.getD_eq_getElem?_getD, List.getElem?_eq_getElem hlt, Option.getD_some, List.getElem_idxOf]

/-- Every trajectory with these durations that is continuous is the one of its column values. -/
theorem coeffs_of_cols {inv : Matrix (Fin h) (Fin h) ℝ → Matrix (Fin h) (Fin h) ℝ}
    (hinv : IsInverse inv) {dim : ℕ} (hN : h + h ≤ 22) (vs : List (Vertex ℝ)) (hv : 2 ≤ vs.length)
    (times : List ℝ) (hvt : vs.length = times.length + 1) (ht : ∀ T ∈ times, 1 / 2 ^ 52 ≤ T)
    (segs : List (Segment ℝ)) (hs : Shape (h + h) dim times segs) (hcont : Spec.Continuous h dim segs)
    (i : ℕ) (s : Segment ℝ) (hi : segs[i]? = some s) (d : ℕ) (hd : d < dim) :
    (s.polys.getD d ⟨[]⟩).coeffs = List.ofFn (colCoeffs inv dim vs times (colsOf h dim vs segs d) i) := by
  have hlen : segs.length = times.length := by rw [← hs.durations]; simp
  have hi' := (List.getElem?_eq_some_iff.mp hi).1
  have hil : i < times.length := by omega
  have hm : s ∈ segs := List.mem_of_getElem? hi
  have htime : s.time = times.getD i 0 := by
    have : times[i]? = some s.time := by
      rw [← hs.durations, List.getElem?_map, hi]; rfl
    rw [List.getD_eq_getElem?_getD, this]; rfl
  have hT := ht _ (getD_mem_times hil)
  have hpd : d < s.polys.length := by rw [hs.dims s hm]; exact hd
  have hpm : s.polys.getD d ⟨[]⟩ ∈ s.polys := by
    rw [List.getD_eq_getElem?_getD, List.getElem?_eq_getElem hpd]
    exact List.getElem_mem hpd
  have hcl := hs.coeffs s hm _ hpm
  set c := (s.polys.getD d ⟨[]⟩).coeffs with hc
  set x : Fin (h + h) → ℝ := fun p => c.getD p 0 with hx
  have hcx : c = List.ofFn x := (ofFn_of_getD c hcl).symm
  have hval0 : ∀ k < h, valOf segs d (i, k) = derivAt c k 0 := by
    intro k _
    unfold valOf
    rw [if_pos hi']
    rw [List.getD_eq_getElem?_getD, hi, Option.getD_some]
    rfl
  have hvalT : ∀ k < h, valOf segs d (i + 1, k) = derivAt c k (times.getD i 0) := by
    intro k hk
    unfold valOf
    simp only
    split_ifs with h1
    · have := hcont i s segs[i + 1] hi (List.getElem?_eq_getElem h1) k hk d hd
      rw [List.getD_eq_getElem?_getD, List.getElem?_eq_getElem h1, Option.getD_some, ← this, htime]
      rfl
    · rw [Nat.add_sub_cancel, List.getD_eq_getElem?_getD, hi, Option.getD_some, htime]
      rfl
  have hA : (mapMat h (times.getD i 0)).mulVec x = fun p : Fin (h + h) =>
      colsOf h dim vs segs d ((colKeys h dim vs).idxOf (rowKey h i p)) := by
    funext p
    refine Fin.addCases (fun q => ?_) (fun q => ?_) p
    · rw [(mapMat_spec _ hN hT x q).1, ← hcx]
      have : rowKey h i (Fin.castAdd h q : Fin (h + h)) = (i, (q : ℕ)) := by simp [rowKey]
      rw [this, colsOf_key _ _ hv _ _ _ _ (by omega) q.2, hval0 _ q.2]
    · rw [(mapMat_spec _ hN hT x q).2, ← hcx]
      have : rowKey h i (Fin.natAdd h q : Fin (h + h)) = (i + 1, (q : ℕ)) := by simp [rowKey]
      rw [this, colsOf_key _ _ hv _ _ _ _ (by omega) q.2, hvalT _ q.2]
  unfold colCoeffs
  rw [← hA, Matrix.mulVec_mulVec, mapMat_inv _ hN hT inv hinv, Matrix.one_mulVec]
  exact hcx

/-- The column values of a trajectory that meets the constraints start with the prescribed ones. -/
theorem colsOf_fixed (dim : ℕ) (vs : List (Vertex ℝ)) (hv : 2 ≤ vs.length) (times : List ℝ)
    (hvt : vs.length = times.length + 1) (segs : List (Segment ℝ))
    (hs : Shape (h + h) dim times segs) (hm : MeetsConstraints h dim vs segs) (d : ℕ) (hd : d < dim)
    (c : ℕ) (hc : c < (fixedCols h dim vs).length) :
    colsOf h dim vs segs d c = (fixedVals h dim vs d).getD c 0 := by
  have hlen : segs.length = times.length := by rw [← hs.durations]; simp
  have hcm : (fixedCols h dim vs)[c] ∈ constraintSet true (pairRows h dim vs 0) := List.getElem_mem hc
  obtain ⟨h1, h2, h3⟩ := columns_entry h dim vs hv _ hcm
  set e := (fixedCols h dim vs)[c] with he
  have hkey : (colKeys h dim vs).getD c (0, 0) = e.key := by
    unfold colKeys columns
    rw [List.map_append, List.getD_eq_getElem?_getD,
      List.getElem?_append_left (by simpa [fixedCols] using hc), List.getElem?_map,
      show constraintSet true (pairRows h dim vs 0) = fixedCols h dim vs from rfl,
      List.getElem?_eq_getElem hc]
    rfl
  have hval : (fixedVals h dim vs d).getD c 0 = e.value.getD d 0 := by
    unfold fixedVals
    rw [List.getD_eq_getElem?_getD, List.getElem?_map, List.getElem?_eq_getElem hc]
    rfl
  unfold colsOf
  rw [hkey, hval]
  have hvi : vs[e.key.1]? = some (vs.getD e.key.1 (Vertex.new 0)) := by
    rw [List.getD_eq_getElem?_getD, List.getElem?_eq_getElem h1]; rfl
  have := hm e.key.1 _ hvi e.key.2 h2 e.value h3 d hd
  unfold valOf
  split_ifs with h4
  · have hg : segs[e.key.1]? = some (segs.getD e.key.1 ⟨[], 0, 0⟩) := by
      rw [List.getD_eq_getElem?_getD, List.getElem?_eq_getElem h4]; rfl
    exact this.1 _ hg
  · have h5 : e.key.1 - 1 < segs.length := by omega
    have hg : segs[e.key.1 - 1]? = some (segs.getD (e.key.1 - 1) ⟨[], 0, 0⟩) := by
      rw [List.getD_eq_getElem?_getD, List.getElem?_eq_getElem h5]; rfl
    exact this.2 (e.key.1 - 1) _ (by omega) hg

/-- The computed segments have the coefficients of the compact vectors. -/
theorem segmentsFor_cols (inv : Matrix (Fin h) (Fin h) ℝ → Matrix (Fin h) (Fin h) ℝ) (dim : ℕ)
    (vs : List (Vertex ℝ)) (times : List ℝ) (fc : List (List ℝ)) (i : ℕ) (s : Segment ℝ)
    (hs : (segmentsFor inv dim vs times fc)[i]? = some s) (d : ℕ) (hd : d < dim) :
    (s.polys.getD d ⟨[]⟩).coeffs = List.ofFn (colCoeffs inv dim vs times
      (fun c => (fixedVals h dim vs d ++ fc.getD d []).getD c 0) i) := by
  obtain ⟨hi, rfl⟩ := segmentsFor_get inv dim vs times fc i s hs
  simp only
  rw [List.getD_eq_getElem?_getD, List.getElem?_map, List.getElem?_range hd]
  rfl

/-- The cost computed for segments is the integral. -/
theorem computeCost_ok {o : LinOpt h ℝ} {inv} {vs : List (Vertex ℝ)} {times : List ℝ} {k : ℕ}
    (r : o.Ready inv vs times k) (hN : h + h ≤ 22) (hs : Shape (h + h) o.dimension times o.segments) :
    o.computeCost = .ok (cost k o.segments) := by
  have hk := r.derivLt
  unfold LinOpt.computeCost
  rw [Res.check_of (by rw [r.nSeg, r.segLen, r.costEq]; simp), Res.ok_bind]
  have hmap : (o.cost.zip o.segments).mapM (fun m =>
      (List.range o.dimension).mapM fun d => do
        let p ← m.2.get d
        let c ← p.getCoefficients 0
        if c.length ≠ h + h then Res.ub
        else
          let x : Fin (h + h) → ℝ := fun i => c.getD i 0
          pure (x ⬝ᵥ m.1.mulVec x)) = Res.ok ((o.cost.zip o.segments).map fun m =>
            (List.range o.dimension).map fun d =>
              2 * ∫ t in (0 : ℝ)..m.2.time,
                (iteratedDeriv k (curve (m.2.polys.getD d ⟨[]⟩).coeffs) t) ^ 2) := by
    apply Res.mapM_ok
    intro m hm
    apply Res.mapM_ok
    intro d hd
    have hd' : d < o.dimension := by simpa using hd
    obtain ⟨i, hi⟩ := List.mem_iff_getElem?.mp hm
    rw [List.getElem?_zip_eq_some] at hi
    obtain ⟨hi1, hi2⟩ := hi
    have hm2 := List.mem_of_getElem? hi2
    have hpl : d < m.2.polys.length := by rw [hs.dims _ hm2]; exact hd'
    have hget : m.2.get d = .ok (m.2.polys.getD d ⟨[]⟩) := by
      unfold Segment.get
      rw [Res.check_of (by unfold Segment.D; exact hpl), Res.ok_bind, Res.at'_of_lt hpl]
      simp [List.getD_eq_getElem?_getD, hpl]
    have hpm : m.2.polys.getD d ⟨[]⟩ ∈ m.2.polys := by
      rw [List.getD_eq_getElem?_getD, List.getElem?_eq_getElem hpl]
      exact List.getElem_mem hpl
    have hcl := hs.coeffs _ hm2 _ hpm
    have htime : times[i]? = some m.2.time := by
      rw [← hs.durations, List.getElem?_map, hi2]; rfl
    have hQ : m.1 = costMat h k m.2.time := by
      rw [r.costEq, List.getElem?_map, htime] at hi1
      simpa using hi1.symm
    have hgc : (m.2.polys.getD d ⟨[]⟩).getCoefficients 0 = .ok (m.2.polys.getD d ⟨[]⟩).coeffs := by
      unfold Poly.getCoefficients
      rw [Res.check_of (by omega), Res.ok_bind, if_pos rfl, Res.pure_eq]
    rw [hget, Res.ok_bind, hgc, Res.ok_bind, if_neg (by simpa using hcl), Res.pure_eq, hQ,
      costMat_integral h k hN (by omega), ofFn_of_getD _ hcl]
  rw [hmap, Res.ok_bind, Res.pure_eq, List.map_map]
  congr 1
  have e1 : ∀ m ∈ o.cost.zip o.segments, (List.sum ∘ fun m : SqMat h ℝ × Segment ℝ =>
      (List.range o.dimension).map fun d => 2 * ∫ t in (0 : ℝ)..m.2.time,
        (iteratedDeriv k (curve (m.2.polys.getD d ⟨[]⟩).coeffs) t) ^ 2) m =
      2 * (fun s : Segment ℝ => (s.polys.map fun p =>
        ∫ t in (0 : ℝ)..s.time, (iteratedDeriv k (curve p.coeffs) t) ^ 2).sum) m.2 := by
    intro m hm
    have hm2 : m.2 ∈ o.segments := (List.of_mem_zip hm).2
    have hd : m.2.polys.length = o.dimension := hs.dims _ hm2
    have e3 : m.2.polys = (List.range o.dimension).map fun d => m.2.polys.getD d ⟨[]⟩ := by
      apply List.ext_getElem
      · simp [hd]
      · intro j h1 h2
        simp [List.getD_eq_getElem?_getD, h1]
    simp only [Function.comp_apply]
    rw [List.sum_map_mul_left]
    congr 1
    conv_rhs => rw [e3, List.map_map]
    rfl
  rw [List.map_congr_left e1, List.sum_map_mul_left]
  unfold cost
  have e2 : (o.cost.zip o.segments).map Prod.snd = o.segments := by
    apply List.map_snd_zip
    rw [r.segLen, r.costEq]
    simp
  conv_rhs => rw [← e2, List.map_map]
  simp only [Function.comp_def]
  ring

/-! #### Solving -/

section Generic
variable {K : Type} [Field K] [LinearOrder K] [IsStrictOrderedRing K]

/-- The free values `solveLinear` computes. -/
def solvedFree (solve : (n : ℕ) → Matrix (Fin n) (Fin n) K → (Fin n → K) → Fin n → K)
    (o : LinOpt h K) (vs : List (Vertex K)) (d : ℕ) : Fin o.nFree → K :=
  solve o.nFree (fun a b : Fin o.nFree => o.rEntry (o.nFixed + a) (o.nFixed + b))
    (Matrix.mulVec (-(Matrix.of fun (a : Fin o.nFree) (b : Fin o.nFixed) =>
      o.rEntry (o.nFixed + a) b)) fun b => (fixedVals h o.dimension vs d).getD b 0)

theorem solve_free_ok {o : LinOpt h K} {inv solve} {vs : List (Vertex K)} {times : List K} {k : ℕ}
    (r : o.Ready inv vs times k) (hdim : 0 < o.dimension) (hf : o.nFree ≠ 0) :
    o.solveLinear solve = .ok { o with
      freeCompact := (List.range o.dimension).map fun d => List.ofFn (solvedFree solve o vs d)
      segments := segmentsFor inv o.dimension vs times
        ((List.range o.dimension).map fun d => List.ofFn (solvedFree solve o vs d)) } := by
  have hk := r.derivLt
  unfold LinOpt.solveLinear
  rw [Res.check_of (by rw [r.deriv]; omega), Res.ok_bind, if_neg hf,
    if_neg (by rw [r.nAll, r.nSeg, Nat.mul_comm]; simp)]
  simp only
  rw [Res.mapM_ok (g := fun d => List.ofFn (solvedFree solve o vs d)) (by
    intro d hd
    have hd' : d < o.dimension := by simpa using hd
    have : Res.at' o.fixedCompact d = .ok (fixedVals h o.dimension vs d) := by
      rw [r.fixedC, Res.at'_eq_ok]
      simp [hd']
    rw [this, Res.ok_bind, if_neg (by rw [r.nFixed]; simp [fixedVals]), Res.pure_eq]
    rfl), Res.ok_bind]
  exact update_ok (ready_free r _ (by simp)) hdim (by
    intro v hv
    obtain ⟨d, -, rfl⟩ := List.mem_map.mp hv
    simp)

theorem solve_none_ok {o : LinOpt h K} {inv solve} {vs : List (Vertex K)} {times : List K} {k : ℕ}
    (r : o.Ready inv vs times k) (hdim : 0 < o.dimension) (hf : o.nFree = 0)
    (he : ∀ v ∈ o.freeCompact, v.length = 0) :
    o.solveLinear solve = .ok { o with
      segments := segmentsFor inv o.dimension vs times o.freeCompact } := by
  have hk := r.derivLt
  unfold LinOpt.solveLinear
  rw [Res.check_of (by rw [r.deriv]; omega), Res.ok_bind, if_pos hf]
  exact update_ok r hdim (by rw [hf]; exact he)

end Generic

/-- The computed segments are at least as cheap as any others. -/
theorem solve_min {o o' : LinOpt h ℝ} {inv solve} {vs : List (Vertex ℝ)} {times : List ℝ} {k : ℕ}
    (hinv : IsInverse inv) (hsolve : IsSolver solve) (hN : h + h ≤ 22)
    (r : o.Ready inv vs times k) (hdim : 0 < o.dimension) (ht : ∀ T ∈ times, 1 / 2 ^ 52 ≤ T)
    (ho : o.solveLinear solve = .ok o') (segs : List (Segment ℝ))
    (hs : Shape (h + h) o.dimension times segs) (hm : MeetsConstraints h o.dimension vs segs)
    (hc : Spec.Continuous h o.dimension segs) : cost k o'.segments ≤ cost k segs := by
  have hk := r.derivLt
  have hcost : ∀ fc : List (List ℝ), 2 * cost k (segmentsFor inv o.dimension vs times fc) =
      ∑ d ∈ Finset.range o.dimension, form o.rEntry (o.nFixed + o.nFree)
        (fun c => (fixedVals h o.dimension vs d ++ fc.getD d []).getD c 0)
        (fun c => (fixedVals h o.dimension vs d ++ fc.getD d []).getD c 0) := by
    intro fc
    rw [cost_cols hN hk vs times
      (fun d c => (fixedVals h o.dimension vs d ++ fc.getD d []).getD c 0) _
      (segmentsFor_shape inv o.dimension vs times fc)
      (fun i s hs d hd => segmentsFor_cols inv o.dimension vs times fc i s hs d hd)]
    exact Finset.sum_congr rfl fun d _ => (rform r _ _).symm
  have hcost' : 2 * cost k segs = ∑ d ∈ Finset.range o.dimension,
      form o.rEntry (o.nFixed + o.nFree) (colsOf h o.dimension vs segs d)
        (colsOf h o.dimension vs segs d) := by
    rw [cost_cols hN hk vs times (colsOf h o.dimension vs segs) segs hs
      (fun i s hs' d hd => coeffs_of_cols hinv hN vs r.two times r.nVert ht segs hs hc i s hs' d hd)]
    exact Finset.sum_congr rfl fun d _ => (rform r _ _).symm
  have hsym : ∀ X Z, form o.rEntry (o.nFixed + o.nFree) X Z =
      form o.rEntry (o.nFixed + o.nFree) Z X := by
    intro X Z
    unfold form
    rw [Finset.sum_comm]
    exact Finset.sum_congr rfl fun a _ => Finset.sum_congr rfl fun b _ => by
      rw [rEntry_symm r hN]; ring
  have hfix : ∀ (fr : List ℝ) (d c : ℕ), c < o.nFixed →
      (fixedVals h o.dimension vs d ++ fr).getD c 0 = (fixedVals h o.dimension vs d).getD c 0 := by
    intro fr d c hc
    rw [List.getD_eq_getElem?_getD, List.getElem?_append_left, ← List.getD_eq_getElem?_getD]
    rw [r.nFixed] at hc
    simpa [fixedVals] using hc
  have main : ∃ fc : List (List ℝ), o'.segments = segmentsFor inv o.dimension vs times fc ∧
      ∀ d < o.dimension, ∀ a < o.nFree, ∑ b ∈ Finset.range (o.nFixed + o.nFree),
        o.rEntry (o.nFixed + a) b *
          (fixedVals h o.dimension vs d ++ fc.getD d []).getD b 0 = 0 := by
    by_cases hf : o.nFree = 0
    · obtain ⟨-, -, -, h4⟩ := ready_solve r hdim ho
      exact ⟨_, h4, fun d _ a ha => absurd ha (by omega)⟩
    · rw [solve_free_ok r hdim hf, Res.ok.injEq] at ho
      subst ho
      refine ⟨_, rfl, fun d hd a ha => ?_⟩
      rw [List.getD_eq_getElem?_getD (l := List.map _ _), List.getElem?_map, List.getElem?_range hd]
      simp only [Option.map_some, Option.getD_some]
      set x := solvedFree solve o vs d with hx
      have hflen : (fixedVals h o.dimension vs d).length = o.nFixed := by
        rw [r.nFixed]; simp [fixedVals]
      rw [free_system o.rEntry o.nFixed o.nFree
        (fun c => (fixedVals h o.dimension vs d).getD c 0) (fun c => (List.ofFn x).getD c 0) a
        (fun c => (fixedVals h o.dimension vs d ++ List.ofFn x).getD c 0)
        (fun c hc => hfix _ d c hc)
        (fun c _ => by
          rw [List.getD_eq_getElem?_getD, List.getElem?_append_right (by omega), hflen,
            Nat.add_sub_cancel_left, List.getD_eq_getElem?_getD])]
      have hsol := hsolve o.nFree _ _ (normal_solvable o.rEntry o.nFixed o.nFree
        (rEntry_symm r hN) (rform_nonneg r hN ht)
        (fun c => (fixedVals h o.dimension vs d).getD c 0))
      have hsol' : Matrix.mulVec (fun a b : Fin o.nFree =>
          o.rEntry (o.nFixed + a) (o.nFixed + b)) x = _ := hsol
      have := congrFun hsol' ⟨a, ha⟩
      rw [Matrix.neg_mulVec] at this
      simp only [Matrix.mulVec, dotProduct, Pi.neg_apply, Matrix.of_apply] at this
      have e : ∀ b : Fin o.nFree, (List.ofFn x).getD b 0 = x b := fun b => ofFn_getD x b
      simp only [e]
      rw [this]
      ring
  obtain ⟨fc, hseg, hsolv⟩ := main
  have hle : 2 * cost k o'.segments ≤ 2 * cost k segs := by
    rw [hseg, hcost, hcost']
    refine Finset.sum_le_sum fun d hd => ?_
    have hd' : d < o.dimension := by simpa using hd
    refine form_min o.rEntry o.nFixed o.nFree hsym (rform_nonneg r hN ht) _ _ ?_ (hsolv d hd')
    intro c hc'
    rw [hfix _ d c hc', colsOf_fixed o.dimension vs r.two times r.nVert segs hs hm d hd' c
      (by rw [← r.nFixed]; exact hc')]
  linarith

end Verif
