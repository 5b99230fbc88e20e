import Verif.Proofs.LinOptConstraints
import Verif.Proofs.VertexMore

/- Helper lemmas: what `setupFromVertices` and `updateSegmentsFromCompactConstraints` compute. -/
namespace Verif

open Spec

set_option linter.unusedSectionVars false

variable {K : Type}

/-! #### Dropping constraints of too high an order -/

theorem filter_fold (m : ℤ) (l : List (ℤ × List K)) (o : Vertex K) (ho : o.WF)
    (hl : ∀ e ∈ l, e.2.length = o.D) (hsort : (l.map Prod.fst).Pairwise (· < ·)) :
    ∃ o', l.foldlM (fun (tmp : Vertex K) e =>
        if e.1 > m then pure tmp else tmp.addConstraint e.1 e.2) o = Res.ok o' ∧
      o'.D = o.D ∧ o'.WF ∧
      ∀ q, o'.getConstraint q = match mapFind q l with
        | some c => if q ≤ m then some c else o.getConstraint q
        | none => o.getConstraint q := by
  induction l generalizing o with
  | nil => exact ⟨o, rfl, rfl, ho, fun q => by simp [mapFind]⟩
  | cons e l ih =>
    obtain ⟨k, c⟩ := e
    rw [List.map_cons, List.pairwise_cons] at hsort
    have hnone : mapFind k l = none := by
      cases hf : mapFind k l with
      | none => rfl
      | some c' =>
        have h1 := mapFind_mem hf
        have := hsort.1 k (List.mem_map.mpr ⟨(k, c'), h1, rfl⟩)
        simp at this
    rw [List.foldlM_cons]
    by_cases hk : k > m
    · rw [if_pos hk, Res.pure_eq, Res.ok_bind]
      obtain ⟨o', h1, h2, h3, h4⟩ := ih o ho (fun e he => hl e (by simp [he])) hsort.2
      refine ⟨o', h1, h2, h3, ?_⟩
      intro q
      rw [h4, mapFind_cons]
      by_cases hq : k = q
      · subst hq
        rw [if_pos rfl, hnone]
        simp only
        rw [if_neg (by omega)]
      · rw [if_neg hq]
    · rw [if_neg hk, addConstraint_ok _ _ _ (hl (k, c) (by simp)), Res.ok_bind]
      obtain ⟨o', h1, h2, h3, h4⟩ := ih { o with constraints := mapInsert k c o.constraints }
        (insert_WF ho _ _ (hl (k, c) (by simp))) (fun e he => hl e (by simp [he])) hsort.2
      refine ⟨o', h1, h2, h3, ?_⟩
      intro q
      rw [h4, mapFind_cons]
      simp only [Vertex.getConstraint]
      rw [mapFind_insert]
      by_cases hq : k = q
      · subst hq
        rw [if_pos rfl, if_pos rfl, hnone]
        simp only
        rw [if_pos (by omega)]
      · rw [if_neg hq, if_neg (fun h => hq h.symm)]

theorem filterVertex_ok (h dim : ℕ) (v : Vertex K) (hv : v.WF) (hD : v.D = dim) :
    ∃ w, filterVertex h dim v = .ok w ∧ w.WF ∧ w.D = dim ∧
      ∀ q : ℤ, q < h → w.getConstraint q = v.getConstraint q := by
  obtain ⟨o', h1, h2, h3, h4⟩ := filter_fold ((h : ℤ) - 1) v.constraints (Vertex.new dim)
    (vertex_new_WF _) (fun e he => (hv.dims e he).trans hD) hv.sorted
  unfold filterVertex
  rw [h1, Res.ok_bind]
  split_ifs with ha
  · refine ⟨o', rfl, h3, h2, ?_⟩
    intro q hq
    rw [h4]
    unfold Vertex.getConstraint
    split
    · next c hc => rw [if_pos (by omega), hc]
    · next hc => rw [hc]; simp [Vertex.new, mapFind]
  · exact ⟨v, rfl, hv, hD, fun q _ => rfl⟩

/-- The vertex that is kept. -/
def filt (h dim : ℕ) (v : Vertex K) : Vertex K :=
  match filterVertex h dim v with
  | .ok w => w
  | _ => v

theorem filt_spec (h dim : ℕ) (v : Vertex K) (hv : v.WF) (hD : v.D = dim) :
    filterVertex h dim v = .ok (filt h dim v) ∧ (filt h dim v).WF ∧ (filt h dim v).D = dim ∧
      ∀ q : ℤ, q < h → (filt h dim v).getConstraint q = v.getConstraint q := by
  obtain ⟨w, h1, h2, h3, h4⟩ := filterVertex_ok h dim v hv hD
  have : filt h dim v = w := by unfold filt; rw [h1]
  rw [this]
  exact ⟨h1, h2, h3, h4⟩

/-! #### The state after setting up -/

section Zero
variable [Zero K] {h : ℕ}

/-- The fixed and the free columns. -/
def fixedCols (h dim : ℕ) (vs : List (Vertex K)) : List (Constr K) :=
  constraintSet true (pairRows h dim vs 0)

def freeCols (h dim : ℕ) (vs : List (Vertex K)) : List (Constr K) :=
  constraintSet false (pairRows h dim vs 0)

/-- The values of the fixed columns in dimension `d`. -/
def fixedVals (h dim : ℕ) (vs : List (Vertex K)) (d : ℕ) : List K :=
  (fixedCols h dim vs).map fun c => c.value.getD d 0

/-- The segments fit the optimiser and there is one (possibly empty) vector of free values per
dimension. This holds of every object a program can make. -/
structure LinOpt.Sane (o : LinOpt h K) : Prop where
  segDims : ∀ s ∈ o.segments, s.polys.length = o.dimension ∧ s.N = h + h
  freeLen : o.freeCompact.length = o.dimension

theorem fixedVals_ok (dim : ℕ) (vs : List (Vertex K)) (hv : 2 ≤ vs.length)
    (hwf : ∀ v ∈ vs, v.WF ∧ v.D = dim) (d : ℕ) (hd : d < dim) :
    compactFixed (pairRows h dim vs 0) (fixedCols h dim vs) d = .ok (fixedVals h dim vs d) := by
  unfold fixedVals
  apply compactFixed_ok
  · intro c hc
    obtain ⟨h1, h2, h3⟩ := columns_entry h dim vs hv c hc
    have hm : vs.getD c.key.1 (Vertex.new 0) ∈ vs := by
      rw [List.getD_eq_getElem?_getD, List.getElem?_eq_getElem h1]
      exact List.getElem_mem h1
    obtain ⟨hw, hD⟩ := hwf _ hm
    have := hw.dims _ (mapFind_mem h3)
    simp only at this
    omega
  · intro c hc
    exact ⟨_, constraintSet_sub _ _ c hc, rfl⟩

/-- The value that the compact vector `dAll` gives to derivative `key.2` at vertex `key.1`. -/
def valueAt (h dim : ℕ) (vs : List (Vertex K)) (dAll : List K) (key : ℕ × ℕ) : K :=
  dAll.getD ((colKeys h dim vs).idxOf key) 0

/-- The compact vector holds the prescribed value of every constraint. -/
theorem valueAt_fixed (dim : ℕ) (vs : List (Vertex K)) (hv : 2 ≤ vs.length) (d i k : ℕ) (fr : List K)
    (v : Vertex K) (hi : vs[i]? = some v) (hk : k < h) (c : List K)
    (hc : v.getConstraint (k : ℕ) = some c) :
    valueAt h dim vs (fixedVals h dim vs d ++ fr) (i, k) = c.getD d 0 := by
  have hget : vs.getD i (Vertex.new 0) = v := by rw [List.getD_eq_getElem?_getD, hi]; rfl
  have hilt := (List.getElem?_eq_some_iff.mp hi).1
  have hmem : (i, k) ∈ (fixedCols h dim vs).map Constr.key :=
    (fixedKeys_mem true h dim vs hv i k).mpr ⟨hilt, hk, by rw [hget, hc]; rfl⟩
  unfold valueAt colKeys columns
  have e0 : (constraintSet true (pairRows h dim vs 0)) = fixedCols h dim vs := rfl
  rw [List.map_append, e0, List.idxOf_append_of_mem hmem]
  have hlt : ((fixedCols h dim vs).map Constr.key).idxOf (i, k) < (fixedCols h dim vs).length := by
    have := List.idxOf_lt_length_of_mem hmem
    simpa using this
  set n := ((fixedCols h dim vs).map Constr.key).idxOf (i, k) with hn
  rw [List.getD_eq_getElem?_getD, List.getElem?_append_left (by simpa [fixedVals] using hlt)]
  unfold fixedVals
  rw [List.getElem?_map, List.getElem?_eq_getElem hlt]
  simp only [Option.map_some, Option.getD_some]
  have hkey : ((fixedCols h dim vs)[n]).key = (i, k) := by
    have h1 : ((fixedCols h dim vs).map Constr.key)[n]'(by simpa using hlt) = (i, k) :=
      List.getElem_idxOf _
    simpa using h1
  obtain ⟨_, _, h3⟩ := columns_entry h dim vs hv _ (List.getElem_mem hlt)
  rw [hkey] at h3
  simp only at h3
  rw [hget, hc] at h3
  rw [Option.some.injEq] at h3
  rw [← h3]

end Zero

section Order
variable [Field K] [LinearOrder K] {h : ℕ}

/-- The mapping matrix (when it can be computed). -/
def mapMat (h : ℕ) (T : K) : SqMat h K :=
  match setupMappingMatrix h T with
  | .ok A => A
  | _ => 0

/-- The cost matrix. -/
def costMat (h k : ℕ) (T : K) : SqMat h K := fun i j => costEntry (h + h) k T i j

/-- The object after a successful set-up, `vs` being the vertices that are kept. -/
structure LinOpt.Ready (o : LinOpt h K)
    (inv : Matrix (Fin h) (Fin h) K → Matrix (Fin h) (Fin h) K) (vs : List (Vertex K))
    (times : List K) (k : ℕ) : Prop extends o.Sane where
  vertsEq : o.vertices = vs
  deriv : o.derivative = k
  derivLt : k < h
  timesEq : o.segmentTimes = times
  nVert : vs.length = times.length + 1
  two : 2 ≤ vs.length
  nSeg : o.nSegments = times.length
  nAll : o.nAll = times.length * (h + h)
  nFixed : o.nFixed = (fixedCols h o.dimension vs).length
  nFree : o.nFree = (freeCols h o.dimension vs).length
  reord : o.reordering = reorderingTriplets (pairRows h o.dimension vs 0)
    (fixedCols h o.dimension vs) (freeCols h o.dimension vs)
  invEq : o.invMapping = times.map fun T => invertMappingMatrix inv (mapMat h T)
  costEq : o.cost = times.map fun T => costMat h k T
  fixedC : o.fixedCompact = (List.range o.dimension).map (fixedVals h o.dimension vs)
  segLen : o.segments.length = times.length

variable [IsStrictOrderedRing K]

theorem costJacobian_ok (k : ℕ) (hk : k < h) (hN : h + h ≤ 22) (T : K) :
    computeQuadraticCostJacobian h (k : ℕ) T = .ok (costMat h k T) := by
  unfold computeQuadraticCostJacobian
  rw [Res.check_of (by push_cast; omega), Res.ok_bind, if_neg (by unfold kMaxConvolutionSize; omega)]
  simp only [Int.toNat_natCast]
  rfl

theorem mapMat_ok (T : K) (hN : h + h ≤ 22) : setupMappingMatrix h T = .ok (mapMat h T) := by
  obtain ⟨A, hA, -⟩ := mapping_ok h T hN
  unfold mapMat
  rw [hA]

theorem dblEps_pos : (0 : K) < 1 / 2 ^ 52 := by positivity

theorem effTime_of_le {T : K} (hT : 1 / 2 ^ 52 ≤ T) : effTime T = T := by
  unfold effTime dblEpsilon
  rw [if_neg]
  have := dblEps_pos (K := K)
  rw [abs_of_pos (by linarith)]
  exact not_lt.mpr hT

theorem mapMat_spec (T : K) (hN : h + h ≤ 22) (hT : 1 / 2 ^ 52 ≤ T) :
    ∀ (x : Fin (h + h) → K) (i : Fin h),
        (mapMat h T).mulVec x (Fin.castAdd h i) = derivAt (List.ofFn x) i 0 ∧
        (mapMat h T).mulVec x (Fin.natAdd h i) = derivAt (List.ofFn x) i T := by
  obtain ⟨A, hA, hA2⟩ := mapping_ok h T hN
  rw [effTime_of_le hT] at hA2
  have : mapMat h T = A := by unfold mapMat; rw [hA]
  rw [this]
  exact hA2

theorem mapMat_inv (T : K) (hN : h + h ≤ 22) (hT : 1 / 2 ^ 52 ≤ T)
    (inv : Matrix (Fin h) (Fin h) K → Matrix (Fin h) (Fin h) K) (hinv : IsInverse inv) :
    invertMappingMatrix inv (mapMat h T) * mapMat h T = 1 :=
  invert_ok _ T (by have := dblEps_pos (K := K); linarith) (mapMat_spec T hN hT) inv hinv

theorem updateTimes_ok (inv : Matrix (Fin h) (Fin h) K → Matrix (Fin h) (Fin h) K) (o : LinOpt h K)
    (times : List K) (k : ℕ) (hk : k < h) (hN : h + h ≤ 22) (hd : o.derivative = k)
    (hl : times.length = o.nSegments) (ht : ∀ T ∈ times, 0 < T) :
    o.updateSegmentTimes inv times = .ok { o with
      segmentTimes := times
      cost := times.map fun T => costMat h k T
      invMapping := times.map fun T => invertMappingMatrix inv (mapMat h T) } := by
  unfold LinOpt.updateSegmentTimes
  rw [Res.check_of hl, Res.ok_bind]
  rw [Res.mapM_ok (g := fun T => (costMat h k T, invertMappingMatrix inv (mapMat h T)))]
  · simp [Function.comp_def]
  · intro T hT
    rw [Res.check_of (ht T hT), Res.ok_bind, hd, costJacobian_ok k hk hN, Res.ok_bind,
      mapMat_ok T hN, Res.ok_bind, Res.pure_eq]

theorem setup_ok (inv : Matrix (Fin h) (Fin h) K → Matrix (Fin h) (Fin h) K) (o : LinOpt h K)
    (ho : o.Sane) (vertices : List (Vertex K)) (times : List K) (k : ℕ) (hk : k < h)
    (hp : Problem h o.dimension vertices times) :
    ∃ o', o.setupFromVertices inv vertices times k = .ok o' ∧
      o'.Ready inv (vertices.map (filt h o.dimension)) times k ∧ o'.dimension = o.dimension ∧
      o'.nVertices = vertices.length ∧ o'.freeCompact = o.freeCompact := by
  have hN := hp.small
  have h2 := hp.two
  have hcount := hp.count
  set vs := vertices.map (filt h o.dimension) with hvs
  have hvl : vs.length = vertices.length := by simp [hvs]
  have hvwf : ∀ v ∈ vs, v.WF ∧ v.D = o.dimension := by
    intro v hv
    obtain ⟨w, hw, rfl⟩ := List.mem_map.mp hv
    obtain ⟨h3, h4⟩ := hp.wf w hw
    exact ⟨(filt_spec h _ w h3 h4).2.1, (filt_spec h _ w h3 h4).2.2.1⟩
  have hmap : vertices.mapM (filterVertex h o.dimension) = .ok vs :=
    Res.mapM_ok fun v hv => (filt_spec h _ v (hp.wf v hv).1 (hp.wf v hv).2).1
  unfold LinOpt.setupFromVertices
  rw [Res.check_of (by omega), Res.ok_bind, if_neg (by omega)]
  simp only
  rw [Res.check_of hp.count, Res.ok_bind, hmap, Res.ok_bind]
  rw [updateTimes_ok inv _ times k hk hN rfl (by simp only; omega) (fun T hT => by
    have := hp.times_pos T hT
    have := dblEps_pos (K := K)
    linarith), Res.ok_bind]
  unfold LinOpt.setupReordering
  simp only
  have hrows : allConstraints h o.dimension (vertices.length - 1) vs 0 =
      pairRows h o.dimension vs 0 := by
    rw [← hvl]; exact allConstraints_eq h _ vs (by omega)
  rw [hrows]
  rw [Res.mapM_ok (g := fixedVals h o.dimension vs) (by
    intro d hd
    exact fixedVals_ok o.dimension vs (by omega) hvwf d (by simpa using hd)), Res.ok_bind]
  refine ⟨_, rfl, ?_, rfl, rfl, rfl⟩
  have hlen : (o.segments.take (vertices.length - 1) ++ List.replicate
      (vertices.length - 1 - o.segments.length) (Segment.mkZero (h + h) o.dimension)).length =
      times.length := by
    simp; omega
  exact {
    segDims := by
      intro s hs
      simp only at hs
      rcases List.mem_append.mp hs with hs | hs
      · exact ho.segDims s (List.mem_of_mem_take hs)
      · obtain ⟨_, rfl⟩ := List.mem_replicate.mp hs
        simp [Segment.mkZero]
    freeLen := ho.freeLen
    vertsEq := rfl
    deriv := rfl
    derivLt := hk
    timesEq := rfl
    nVert := by omega
    two := by omega
    nSeg := by simp only; omega
    nAll := by simp only; rw [pairRows_length, hvl, hp.count]; simp
    nFixed := rfl
    nFree := rfl
    reord := rfl
    invEq := rfl
    costEq := rfl
    fixedC := rfl
    segLen := hlen }

/-! #### Computing the segments -/

theorem LinOpt.Ready.cols {o : LinOpt h K} {inv} {vs : List (Vertex K)} {times : List K} {k : ℕ}
    (r : o.Ready inv vs times k) : o.nFixed + o.nFree = (colKeys h o.dimension vs).length := by
  rw [r.nFixed, r.nFree]
  simp [colKeys, columns, fixedCols, freeCols]

theorem LinOpt.Ready.reorderEntry {o : LinOpt h K} {inv} {vs : List (Vertex K)} {times : List K}
    {k : ℕ} (r : o.Ready inv vs times k) (i : ℕ) (hi : i < times.length) (p : ℕ) (hp : p < h + h)
    (c : ℕ) :
    o.reorderEntry (i * (h + h) + p) c =
      (((if (colKeys h o.dimension vs)[c]? = some (rowKey h i p) then 1 else 0 : ℕ) : ℕ) : K) := by
  unfold LinOpt.reorderEntry
  have h1 := r.nVert
  rw [r.reord, triplets_count _ _ _ _ _ _
    (pairRows_get h o.dimension vs 0 i p (by omega) hp)]
  simp [colKeys, columns, fixedCols, freeCols]

theorem rowKey_mem {o : LinOpt h K} {inv} {vs : List (Vertex K)} {times : List K} {k : ℕ}
    (r : o.Ready inv vs times k) (i : ℕ) (hi : i < times.length) (p : ℕ) (hp : p < h + h) :
    rowKey h i p ∈ colKeys h o.dimension vs := by
  have h1 := r.nVert
  unfold rowKey
  split_ifs
  · exact (colKeys_mem _ _ _ r.two _ _).mpr ⟨by omega, by omega⟩
  · exact (colKeys_mem _ _ _ r.two _ _).mpr ⟨by omega, by omega⟩

theorem LinOpt.Ready.newD {o : LinOpt h K} {inv} {vs : List (Vertex K)} {times : List K} {k : ℕ}
    (r : o.Ready inv vs times k) (i : ℕ) (hi : i < times.length) (dAll : List K) (p : Fin (h + h)) :
    o.newD i dAll p = valueAt h o.dimension vs dAll (rowKey h i p) := by
  unfold LinOpt.newD valueAt
  rw [r.cols]
  have : (fun c => o.reorderEntry (i * (h + h) + p) c * dAll.getD c 0) = fun c =>
      (((if (colKeys h o.dimension vs)[c]? = some (rowKey h i p) then 1 else 0 : ℕ) : ℕ) : K) *
        dAll.getD c 0 := by
    funext c
    rw [r.reorderEntry i hi p p.2]
  rw [this]
  exact sum_pick _ (colKeys_nodup _ _ _ r.two) _ (rowKey_mem r i hi p p.2) _

/-- The coefficients of the polynomial through given end-point values. -/
def coeffsFor (inv : Matrix (Fin h) (Fin h) K → Matrix (Fin h) (Fin h) K) (T : K)
    (y : Fin (h + h) → K) : List K :=
  List.ofFn ((invertMappingMatrix inv (mapMat h T)).mulVec y)

/-- The segments belonging to the free values `fc`. -/
def segmentsFor (inv : Matrix (Fin h) (Fin h) K → Matrix (Fin h) (Fin h) K) (dim : ℕ)
    (vs : List (Vertex K)) (times : List K) (fc : List (List K)) : List (Segment K) :=
  (List.range times.length).map fun i =>
    ⟨(List.range dim).map fun d => ⟨coeffsFor inv (times.getD i 0) fun p =>
      valueAt h dim vs (fixedVals h dim vs d ++ fc.getD d []) (rowKey h i p)⟩,
      times.getD i 0, h + h⟩

theorem update_ok {o : LinOpt h K} {inv} {vs : List (Vertex K)} {times : List K} {k : ℕ}
    (r : o.Ready inv vs times k) (hdim : 0 < o.dimension)
    (hfc : ∀ v ∈ o.freeCompact, v.length = o.nFree) :
    o.updateSegments = .ok { o with
      segments := segmentsFor inv o.dimension vs times o.freeCompact } := by
  set P : ℕ → ℕ → Poly K := fun i d => ⟨coeffsFor inv (times.getD i 0) fun p =>
      valueAt h o.dimension vs (fixedVals h o.dimension vs d ++ o.freeCompact.getD d [])
        (rowKey h i p)⟩ with hP
  set g : ℕ → ℕ → Segment K := fun m i =>
    if m = 0 then o.segments.getD i (Segment.mkZero 0 0)
    else ⟨(List.range m).map (P i) ++ (o.segments.getD i (Segment.mkZero 0 0)).polys.drop m,
      times.getD i 0, (o.segments.getD i (Segment.mkZero 0 0)).N⟩ with hg
  have hgpol : ∀ m i, i < times.length → m ≤ o.dimension → (g m i).polys =
      (List.range m).map (P i) ++ (o.segments.getD i (Segment.mkZero 0 0)).polys.drop m ∧
      (g m i).polys.length = o.dimension ∧
      (g m i).N = (o.segments.getD i (Segment.mkZero 0 0)).N := by
    intro m i hi hm
    have hmem : o.segments.getD i (Segment.mkZero 0 0) ∈ o.segments := by
      rw [List.getD_eq_getElem?_getD, List.getElem?_eq_getElem (by rw [r.segLen]; exact hi)]
      exact List.getElem_mem _
    have h1 := (r.segDims _ hmem).1
    simp only [hg]
    split_ifs with h0
    · subst h0
      exact ⟨by simp, h1, rfl⟩
    · refine ⟨rfl, ?_, rfl⟩
      simp only [List.length_append, List.length_map, List.length_range, List.length_drop, h1]
      omega
  have hfold : ∀ m ≤ o.dimension, (List.range m).foldlM (fun (segs : List (Segment K)) d => do
      let df ← Res.at' o.fixedCompact d
      let dp ← Res.at' o.freeCompact d
      if df.length + dp.length ≠ o.nFixed + o.nFree then Res.ub
      else (List.range o.nSegments).mapM fun i => do
        if o.nAll < i * (h + h) + (h + h) then Res.ub
        else
          let Ainv ← Res.at' o.invMapping i
          let T ← Res.at' o.segmentTimes i
          let s ← Res.at' segs i
          (s.setTime T).set d ⟨List.ofFn (Ainv.mulVec (o.newD i (df ++ dp)))⟩) o.segments =
      Res.ok ((List.range times.length).map (g m)) := by
    intro m
    induction m with
    | zero =>
      intro _
      rw [List.range_zero, List.foldlM_nil, Res.pure_eq]
      congr 1
      apply List.ext_getElem
      · simp [r.segLen]
      · intro i h1 h2
        simp [hg, List.getD_eq_getElem?_getD, h1]
    | succ m ih =>
      intro hm
      rw [List.range_succ, List.foldlM_append, ih (by omega), Res.ok_bind, List.foldlM_cons]
      have hfree : m < o.freeCompact.length := by rw [r.freeLen]; omega
      have hfix : Res.at' o.fixedCompact m = .ok (fixedVals h o.dimension vs m) := by
        rw [Res.at'_eq_ok, r.fixedC, List.getElem?_map, List.getElem?_range (by omega)]
        rfl
      have hfr : Res.at' o.freeCompact m = .ok (o.freeCompact.getD m []) := by
        rw [Res.at'_of_lt hfree]
        simp [List.getD_eq_getElem?_getD, hfree]
      have hfl : (o.freeCompact.getD m []).length = o.nFree := by
        apply hfc
        rw [List.getD_eq_getElem?_getD, List.getElem?_eq_getElem hfree]
        exact List.getElem_mem hfree
      rw [hfix, Res.ok_bind, hfr, Res.ok_bind, if_neg (by
        rw [hfl, r.nFixed]; simp [fixedVals])]
      rw [Res.mapM_ok (g := g (m + 1))]
      · rw [Res.ok_bind, List.foldlM_nil, r.nSeg]; rfl
      · intro i hi
        rw [List.mem_range, r.nSeg] at hi
        rw [if_neg (by rw [r.nAll]; nlinarith)]
        have e1 : Res.at' o.invMapping i = .ok (invertMappingMatrix inv (mapMat h (times.getD i 0))) := by
          rw [Res.at'_eq_ok, r.invEq, List.getElem?_map, List.getElem?_eq_getElem hi]
          simp [List.getD_eq_getElem?_getD, hi]
        have e2 : Res.at' o.segmentTimes i = .ok (times.getD i 0) := by
          rw [Res.at'_eq_ok, r.timesEq, List.getElem?_eq_getElem hi]
          simp [List.getD_eq_getElem?_getD, hi]
        have e3 : Res.at' ((List.range times.length).map (g m)) i = .ok (g m i) := by
          rw [Res.at'_eq_ok, List.getElem?_map, List.getElem?_range hi]
          rfl
        rw [e1, Res.ok_bind, e2, Res.ok_bind, e3, Res.ok_bind]
        obtain ⟨hp1, hp2, hp3⟩ := hgpol m i hi (by omega)
        unfold Segment.set Segment.setTime Segment.D
        rw [Res.check_of (by simp only; rw [hp2]; omega), Res.ok_bind, Res.pure_eq]
        have hnd : o.newD i (fixedVals h o.dimension vs m ++ o.freeCompact.getD m []) =
            fun p : Fin (h + h) => valueAt h o.dimension vs
              (fixedVals h o.dimension vs m ++ o.freeCompact.getD m []) (rowKey h i p) := by
          funext p; exact r.newD i hi _ p
        have hpoly : (⟨List.ofFn ((invertMappingMatrix inv (mapMat h (times.getD i 0))).mulVec
            (o.newD i (fixedVals h o.dimension vs m ++ o.freeCompact.getD m [])))⟩ : Poly K) =
            P i m := by
          simp only [hP, coeffsFor]
          rw [← hnd]
        rw [hpoly]
        simp only
        have hl : (g (m + 1) i) = ⟨(List.range (m + 1)).map (P i) ++
            (o.segments.getD i (Segment.mkZero 0 0)).polys.drop (m + 1),
            times.getD i 0, (o.segments.getD i (Segment.mkZero 0 0)).N⟩ := by
          simp [hg]
        rw [hl, hp3]
        congr 2
        rw [hp1]
        have hmem : o.segments.getD i (Segment.mkZero 0 0) ∈ o.segments := by
          rw [List.getD_eq_getElem?_getD, List.getElem?_eq_getElem (by rw [r.segLen]; exact hi)]
          exact List.getElem_mem _
        have hlen := (r.segDims _ hmem).1
        rw [List.set_append_right _ _ (by simp)]
        generalize (o.segments.getD i (Segment.mkZero 0 0)).polys = L at hlen
        have hdrop : L.drop m = L[m] :: L.drop (m + 1) := List.drop_eq_getElem_cons (by omega)
        simp only [List.length_map, List.length_range, Nat.sub_self, List.range_succ,
          List.map_append, List.map_cons, List.map_nil, List.append_assoc, List.singleton_append]
        rw [hdrop, List.set_cons_zero]
  unfold LinOpt.updateSegments
  rw [hfold o.dimension le_rfl, Res.ok_bind, Res.pure_eq]
  congr 2
  unfold segmentsFor
  apply List.map_congr_left
  intro i hi
  rw [List.mem_range] at hi
  have hmem : o.segments.getD i (Segment.mkZero 0 0) ∈ o.segments := by
    rw [List.getD_eq_getElem?_getD, List.getElem?_eq_getElem (by rw [r.segLen]; exact hi)]
    exact List.getElem_mem _
  obtain ⟨h1, h2⟩ := r.segDims _ hmem
  simp only [hg, if_neg (show ¬ o.dimension = 0 by omega)]
  rw [List.drop_of_length_le (by omega), h2, List.append_nil]

end Order
end Verif
