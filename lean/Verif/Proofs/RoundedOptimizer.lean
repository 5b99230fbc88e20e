import Verif.Proofs.LinOptResult
import Verif.Proofs.RoundedMapping
import Verif.Spec.RoundedOptimizer

/- Helper lemmas: what the linear optimiser computes with rounded numbers. -/
namespace Verif

open Spec

set_option linter.unusedSectionVars false

section Generic
variable {K : Type} [Zero K] [One K] [Add K] [Mul K] [Neg K] [Div K] [NatCast K] [LT K] [DecidableLT K] {h : ℕ}

/-- The mapping matrix (when it can be computed). -/
def mapMatG (mag : MagLib K) (h : ℕ) (T : K) : SqMat h K :=
  match setupMappingMatrixG mag h T with
  | .ok A => A
  | _ => fun _ _ => 0

/-- The object after a successful set-up, `vs` being the vertices that are kept. -/
structure LinOpt.ReadyG (o : LinOpt h K) (L : OptLib h K) (vs : List (Vertex K)) (times : List K) (k : ℕ) :
    Prop extends o.Sane where
  deriv : o.derivative = k
  derivLt : k < h
  timesEq : o.segmentTimes = times
  nVert : vs.length = times.length + 1
  two : 2 ≤ vs.length
  nSeg : o.nSegments = times.length
  nAll : o.nAll = times.length * (h + h)
  nFixed : o.nFixed = (fixedCols h o.dimension vs).length
  nFree : o.nFree = (freeCols h o.dimension vs).length
  reord : o.reordering = reorderingTriplets (pairRows h o.dimension vs 0)
    (fixedCols h o.dimension vs) (freeCols h o.dimension vs)
  invEq : o.invMapping = times.map fun T => invertMappingMatrixG L.dot L.inv (mapMatG L.mag h T)
  fixedC : o.fixedCompact = (List.range o.dimension).map (fixedVals h o.dimension vs)
  segLen : o.segments.length = times.length

/-- The cost matrix. -/
def costMatG (pow : K → ℕ → K) (h k : ℕ) (T : K) : SqMat h K := fun i j => costEntryG pow (h + h) k T i j

theorem updateTimesG_ok (L : OptLib h K) (o : LinOpt h K) (times : List K) (k : ℕ) (hk : k < h) (hN : h + h ≤ 22)
    (hd : o.derivative = k) (hl : times.length = o.nSegments) (ht : ∀ T ∈ times, 0 < T)
    (hm : ∀ T ∈ times, setupMappingMatrixG L.mag h T = .ok (mapMatG L.mag h T)) :
    o.updateSegmentTimesG L times = .ok { o with
      segmentTimes := times
      cost := times.map fun T => costMatG L.pow h k T
      invMapping := times.map fun T => invertMappingMatrixG L.dot L.inv (mapMatG L.mag h T) } := by
  unfold LinOpt.updateSegmentTimesG
  rw [Res.check_of hl, Res.ok_bind]
  rw [Res.mapM_ok (g := fun T => (costMatG L.pow h k T,
    invertMappingMatrixG L.dot L.inv (mapMatG L.mag h T)))]
  · simp [Function.comp_def]
  · intro T hT
    have hQ : computeQuadraticCostJacobianG L.pow h ((k : ℕ) : ℤ) T =
        .ok (costMatG L.pow h k T) := by
      unfold computeQuadraticCostJacobianG
      rw [Res.check_of (by push_cast; omega), Res.ok_bind, if_neg (by unfold kMaxConvolutionSize; omega)]
      simp only [Int.toNat_natCast]
      rfl
    rw [Res.check_of (ht T hT), Res.ok_bind, hd, hQ, Res.ok_bind, hm T hT, Res.ok_bind, Res.pure_eq]

theorem setupG_ok (L : OptLib h K) (o : LinOpt h K) (ho : o.Sane) (vertices : List (Vertex K)) (times : List K) (k : ℕ)
    (hk : k < h) (hN : h + h ≤ 22) (h2 : 2 ≤ vertices.length) (hcount : vertices.length = times.length + 1)
    (hwf : ∀ v ∈ vertices, v.WF ∧ v.D = o.dimension) (ht : ∀ T ∈ times, 0 < T)
    (hm : ∀ T ∈ times, setupMappingMatrixG L.mag h T = .ok (mapMatG L.mag h T)) :
    ∃ o', o.setupFromVerticesG L vertices times k = .ok o' ∧
      o'.ReadyG L (vertices.map (filt h o.dimension)) times k ∧ o'.dimension = o.dimension := by
  set vs := vertices.map (filt h o.dimension) with hvs
  have hvl : vs.length = vertices.length := by simp [hvs]
  have hvwf : ∀ v ∈ vs, v.WF ∧ v.D = o.dimension := by
    intro v hv
    obtain ⟨w, hw, rfl⟩ := List.mem_map.mp hv
    obtain ⟨h3, h4⟩ := hwf w hw
    exact ⟨(filt_spec h _ w h3 h4).2.1, (filt_spec h _ w h3 h4).2.2.1⟩
  have hmap : vertices.mapM (filterVertex h o.dimension) = .ok vs :=
    Res.mapM_ok fun v hv => (filt_spec h _ v (hwf v hv).1 (hwf v hv).2).1
  unfold LinOpt.setupFromVerticesG
  rw [Res.check_of (by omega), Res.ok_bind, if_neg (by omega)]
  simp only
  rw [Res.check_of hcount, Res.ok_bind, hmap, Res.ok_bind]
  have hc := updateTimesG_ok L { o with
      derivative := k, vertices := vs, segmentTimes := times, nVertices := vertices.length,
      nSegments := vertices.length - 1
      segments := o.segments.take (vertices.length - 1) ++
        List.replicate (vertices.length - 1 - o.segments.length) (Segment.mkZero (h + h) o.dimension) }
    times k hk hN rfl (by simp only; omega) ht hm
  rw [hc, Res.ok_bind]
  unfold LinOpt.setupReordering
  simp only
  have hrows : allConstraints h o.dimension (vertices.length - 1) vs 0 =
      pairRows h o.dimension vs 0 := by
    rw [← hvl]; exact allConstraints_eq h _ vs (by omega)
  rw [hrows]
  rw [Res.mapM_ok (g := fixedVals h o.dimension vs) (by
    intro d hd
    exact fixedVals_ok o.dimension vs (by omega) hvwf d (by simpa using hd)), Res.ok_bind]
  refine ⟨_, rfl, ?_, rfl⟩
  have hlen : (o.segments.take (vertices.length - 1) ++ List.replicate
      (vertices.length - 1 - o.segments.length) (Segment.mkZero (h + h) o.dimension)).length =
      times.length := by
    simp; omega
  exact {
    segDims := by
      intro s hs
      simp only at hs
      rcases List.mem_append.mp hs with hs | hs
      · exact ho.segDims s (List.mem_of_mem_take hs)
      · obtain ⟨_, rfl⟩ := List.mem_replicate.mp hs
        simp [Segment.mkZero]
    freeLen := ho.freeLen
    deriv := rfl
    derivLt := hk
    timesEq := rfl
    nVert := by omega
    two := by omega
    nSeg := by simp only; omega
    nAll := by simp only; rw [pairRows_length, hvl, hcount]; simp
    nFixed := rfl
    nFree := rfl
    reord := rfl
    invEq := rfl
    fixedC := rfl
    segLen := hlen }

/-! #### The required derivatives -/

/-- A fold that adds at one place only. -/
theorem foldl_pick (n j : ℕ) (hj : j < n) (f : ℕ → K) (cnt : ℕ → ℕ) (hc : ∀ c < n, cnt c = if c = j then 1 else 0)
    (a : K) :
    (List.range n).foldl (fun s c => if cnt c = 0 then s else s + ((cnt c : ℕ) : K) * f c) a =
      a + ((1 : ℕ) : K) * f j := by
  have key : ∀ m ≤ n, (List.range m).foldl (fun s c => if cnt c = 0 then s else s + ((cnt c : ℕ) : K) * f c) a =
      if j < m then a + ((1 : ℕ) : K) * f j else a := by
    intro m
    induction m with
    | zero => simp
    | succ m ih =>
      intro hm
      rw [List.range_succ, List.foldl_append, ih (by omega), List.foldl_cons, List.foldl_nil, hc m (by omega)]
      by_cases e : m = j
      · subst e
        rw [if_pos rfl, if_neg (by omega), if_neg (by omega), if_pos (by omega)]
      · rw [if_neg e, if_pos rfl]
        by_cases g : j < m
        · rw [if_pos g, if_pos (by omega)]
        · rw [if_neg g, if_neg (by omega)]
  rw [key n le_rfl, if_pos hj]

/-- The number that is added to zero for derivative `p` of segment `i`. -/
def pickG (h dim : ℕ) (vs : List (Vertex K)) (dAll : List K) (key : ℕ × ℕ) : K :=
  0 + ((1 : ℕ) : K) * valueAt h dim vs dAll key

theorem LinOpt.ReadyG.newDG {o : LinOpt h K} {L} {vs : List (Vertex K)} {times : List K} {k : ℕ}
    (r : o.ReadyG L vs times k) (i : ℕ) (hi : i < times.length) (dAll : List K) (p : Fin (h + h)) :
    o.newDG i dAll p = pickG h o.dimension vs dAll (rowKey h i p) := by
  unfold LinOpt.newDG
  have hv := r.nVert
  have hcols : o.nFixed + o.nFree = (colKeys h o.dimension vs).length := by
    rw [r.nFixed, r.nFree]
    simp [colKeys, columns, fixedCols, freeCols]
  have hmem : rowKey h i p ∈ colKeys h o.dimension vs := by
    have hp := p.2
    unfold rowKey
    split_ifs
    · exact (colKeys_mem _ _ _ r.two _ _).mpr ⟨by omega, by omega⟩
    · exact (colKeys_mem _ _ _ r.two _ _).mpr ⟨by omega, by omega⟩
  have hnd := colKeys_nodup h o.dimension vs r.two
  have hlt := List.idxOf_lt_length_of_mem hmem
  rw [foldl_pick _ ((colKeys h o.dimension vs).idxOf (rowKey h i p)) (by rw [hcols]; exact hlt) (fun c => dAll.getD c 0)
    (fun c => o.reordering.count (i * (h + h) + p, c))]
  · rfl
  · intro c hc
    rw [hcols] at hc
    rw [r.reord, triplets_count _ _ _ _ _ _ (pairRows_get h o.dimension vs 0 i p (by omega) p.2)]
    have e : (fixedCols h o.dimension vs ++ freeCols h o.dimension vs).map Constr.key = colKeys h o.dimension vs := rfl
    rw [e, List.getElem?_eq_getElem hc]
    simp only [entry_key, Nat.zero_add, Option.some.injEq, Prod.mk.eta]
    by_cases g : c = (colKeys h o.dimension vs).idxOf (rowKey h i p)
    · rw [if_pos g, if_pos]
      subst g
      exact List.getElem_idxOf _
    · rw [if_neg g, if_neg]
      intro he
      apply g
      rw [← he]
      exact (hnd.idxOf_getElem _ hc).symm

/-- The segments belonging to the free values `fc`. -/
def segmentsForG (L : OptLib h K) (dim : ℕ) (vs : List (Vertex K)) (times : List K) (fc : List (List K)) :
    List (Segment K) :=
  (List.range times.length).map fun i =>
    ⟨(List.range dim).map fun d => ⟨segmentCoeffsG L.dot
      (invertMappingMatrixG L.dot L.inv (mapMatG L.mag h (times.getD i 0))) fun p =>
      pickG h dim vs (fixedVals h dim vs d ++ fc.getD d []) (rowKey h i p)⟩,
      times.getD i 0, h + h⟩

theorem updateG_ok {o : LinOpt h K} {L} {vs : List (Vertex K)} {times : List K} {k : ℕ}
    (r : o.ReadyG L vs times k) (hdim : 0 < o.dimension)
    (hfc : ∀ v ∈ o.freeCompact, v.length = o.nFree) :
    o.updateSegmentsG L = .ok { o with
      segments := segmentsForG L o.dimension vs times o.freeCompact } := by
  set P : ℕ → ℕ → Poly K := fun i d => ⟨segmentCoeffsG L.dot
      (invertMappingMatrixG L.dot L.inv (mapMatG L.mag h (times.getD i 0))) fun p =>
      pickG h o.dimension vs (fixedVals h o.dimension vs d ++ o.freeCompact.getD d [])
        (rowKey h i p)⟩ with hP
  set g : ℕ → ℕ → Segment K := fun m i =>
    if m = 0 then o.segments.getD i (Segment.mkZero 0 0)
    else ⟨(List.range m).map (P i) ++ (o.segments.getD i (Segment.mkZero 0 0)).polys.drop m,
      times.getD i 0, (o.segments.getD i (Segment.mkZero 0 0)).N⟩ with hg
  have hgpol : ∀ m i, i < times.length → m ≤ o.dimension → (g m i).polys =
      (List.range m).map (P i) ++ (o.segments.getD i (Segment.mkZero 0 0)).polys.drop m ∧
      (g m i).polys.length = o.dimension ∧
      (g m i).N = (o.segments.getD i (Segment.mkZero 0 0)).N := by
    intro m i hi hm
    have hmem : o.segments.getD i (Segment.mkZero 0 0) ∈ o.segments := by
      rw [List.getD_eq_getElem?_getD, List.getElem?_eq_getElem (by rw [r.segLen]; exact hi)]
      exact List.getElem_mem _
    have h1 := (r.segDims _ hmem).1
    simp only [hg]
    split_ifs with h0
    · subst h0
      exact ⟨by simp, h1, rfl⟩
    · refine ⟨rfl, ?_, rfl⟩
      simp only [List.length_append, List.length_map, List.length_range, List.length_drop, h1]
      omega
  have hfold : ∀ m ≤ o.dimension, (List.range m).foldlM (fun (segs : List (Segment K)) d => do
      let df ← Res.at' o.fixedCompact d
      let dp ← Res.at' o.freeCompact d
      if df.length + dp.length ≠ o.nFixed + o.nFree then Res.ub
      else (List.range o.nSegments).mapM fun i => do
        if o.nAll < i * (h + h) + (h + h) then Res.ub
        else
          let Ainv ← Res.at' o.invMapping i
          let T ← Res.at' o.segmentTimes i
          let s ← Res.at' segs i
          (s.setTime T).set d ⟨segmentCoeffsG L.dot Ainv (o.newDG i (df ++ dp))⟩) o.segments =
      Res.ok ((List.range times.length).map (g m)) := by
    intro m
    induction m with
    | zero =>
      intro _
      rw [List.range_zero, List.foldlM_nil, Res.pure_eq]
      congr 1
      apply List.ext_getElem
      · simp [r.segLen]
      · intro i h1 h2
        simp [hg, List.getD_eq_getElem?_getD, h1]
    | succ m ih =>
      intro hm
      rw [List.range_succ, List.foldlM_append, ih (by omega), Res.ok_bind, List.foldlM_cons]
      have hfree : m < o.freeCompact.length := by rw [r.freeLen]; omega
      have hfix : Res.at' o.fixedCompact m = .ok (fixedVals h o.dimension vs m) := by
        rw [Res.at'_eq_ok, r.fixedC, List.getElem?_map, List.getElem?_range (by omega)]
        rfl
      have hfr : Res.at' o.freeCompact m = .ok (o.freeCompact.getD m []) := by
        rw [Res.at'_of_lt hfree]
        simp [List.getD_eq_getElem?_getD, hfree]
      have hfl : (o.freeCompact.getD m []).length = o.nFree := by
        apply hfc
        rw [List.getD_eq_getElem?_getD, List.getElem?_eq_getElem hfree]
        exact List.getElem_mem hfree
      rw [hfix, Res.ok_bind, hfr, Res.ok_bind, if_neg (by
        rw [hfl, r.nFixed]; simp [fixedVals])]
      rw [Res.mapM_ok (g := g (m + 1))]
      · rw [Res.ok_bind, List.foldlM_nil, r.nSeg]; rfl
      · intro i hi
        rw [List.mem_range, r.nSeg] at hi
        rw [if_neg (by rw [r.nAll]; nlinarith)]
        have e1 : Res.at' o.invMapping i =
            .ok (invertMappingMatrixG L.dot L.inv (mapMatG L.mag h (times.getD i 0))) := by
          rw [Res.at'_eq_ok, r.invEq, List.getElem?_map, List.getElem?_eq_getElem hi]
          simp [List.getD_eq_getElem?_getD, hi]
        have e2 : Res.at' o.segmentTimes i = .ok (times.getD i 0) := by
          rw [Res.at'_eq_ok, r.timesEq, List.getElem?_eq_getElem hi]
          simp [List.getD_eq_getElem?_getD, hi]
        have e3 : Res.at' ((List.range times.length).map (g m)) i = .ok (g m i) := by
          rw [Res.at'_eq_ok, List.getElem?_map, List.getElem?_range hi]
          rfl
        rw [e1, Res.ok_bind, e2, Res.ok_bind, e3, Res.ok_bind]
        obtain ⟨hp1, hp2, hp3⟩ := hgpol m i hi (by omega)
        unfold Segment.set Segment.setTime Segment.D
        rw [Res.check_of (by simp only; rw [hp2]; omega), Res.ok_bind, Res.pure_eq]
        have hnd : o.newDG i (fixedVals h o.dimension vs m ++ o.freeCompact.getD m []) =
            fun p : Fin (h + h) => pickG h o.dimension vs
              (fixedVals h o.dimension vs m ++ o.freeCompact.getD m []) (rowKey h i p) := by
          funext p; exact r.newDG i hi _ p
        have hpoly : (⟨segmentCoeffsG L.dot (invertMappingMatrixG L.dot L.inv (mapMatG L.mag h (times.getD i 0)))
            (o.newDG i (fixedVals h o.dimension vs m ++ o.freeCompact.getD m []))⟩ : Poly K) =
            P i m := by
          simp only [hP]
          rw [← hnd]
        rw [hpoly]
        simp only
        have hl : (g (m + 1) i) = ⟨(List.range (m + 1)).map (P i) ++
            (o.segments.getD i (Segment.mkZero 0 0)).polys.drop (m + 1),
            times.getD i 0, (o.segments.getD i (Segment.mkZero 0 0)).N⟩ := by
          simp [hg]
        rw [hl, hp3]
        congr 2
        rw [hp1]
        have hmem : o.segments.getD i (Segment.mkZero 0 0) ∈ o.segments := by
          rw [List.getD_eq_getElem?_getD, List.getElem?_eq_getElem (by rw [r.segLen]; exact hi)]
          exact List.getElem_mem _
        have hlen := (r.segDims _ hmem).1
        rw [List.set_append_right _ _ (by simp)]
        generalize (o.segments.getD i (Segment.mkZero 0 0)).polys = Q at hlen
        have hdrop : Q.drop m = Q[m] :: Q.drop (m + 1) := List.drop_eq_getElem_cons (by omega)
        simp only [List.length_map, List.length_range, Nat.sub_self, List.range_succ,
          List.map_append, List.map_cons, List.map_nil, List.append_assoc, List.singleton_append]
        rw [hdrop, List.set_cons_zero]
  unfold LinOpt.updateSegmentsG
  rw [hfold o.dimension le_rfl, Res.ok_bind, Res.pure_eq]
  congr 2
  unfold segmentsForG
  apply List.map_congr_left
  intro i hi
  rw [List.mem_range] at hi
  have hmem : o.segments.getD i (Segment.mkZero 0 0) ∈ o.segments := by
    rw [List.getD_eq_getElem?_getD, List.getElem?_eq_getElem (by rw [r.segLen]; exact hi)]
    exact List.getElem_mem _
  obtain ⟨h1, h2⟩ := r.segDims _ hmem
  simp only [hg, if_neg (show ¬ o.dimension = 0 by omega)]
  rw [List.drop_of_length_le (by omega), h2, List.append_nil]

/-! #### Calls that returned -/

theorem updateSegmentsG_inv {L} {o o' : LinOpt h K} (ho : o.updateSegmentsG L = .ok o') :
    ∃ segs, o' = { o with segments := segs } ∧
      (∀ n, (∀ s ∈ o.segments, s.polys.length = n ∧ s.N = h + h) →
        ∀ s ∈ segs, s.polys.length = n ∧ s.N = h + h) := by
  unfold LinOpt.updateSegmentsG at ho
  rw [Res.bind_eq_ok] at ho
  obtain ⟨segs, h1, h2⟩ := ho
  rw [Res.pure_eq, Res.ok.injEq] at h2
  refine ⟨segs, h2.symm, ?_⟩
  intro n hn
  refine Res.foldlM_inv (fun segs => ∀ s ∈ segs, s.polys.length = n ∧ s.N = h + h) hn ?_ h1
  intro s d s' _ hs hst
  rw [Res.bind_eq_ok] at hst
  obtain ⟨df, -, hst⟩ := hst
  rw [Res.bind_eq_ok] at hst
  obtain ⟨dp, -, hst⟩ := hst
  split_ifs at hst
  intro y hy
  obtain ⟨i, -, hi⟩ := Res.mapM_eq_ok hst y hy
  split_ifs at hi
  rw [Res.bind_eq_ok] at hi
  obtain ⟨A, -, hi⟩ := hi
  rw [Res.bind_eq_ok] at hi
  obtain ⟨T, -, hi⟩ := hi
  rw [Res.bind_eq_ok] at hi
  obtain ⟨s0, hs0, hi⟩ := hi
  unfold Segment.set at hi
  rw [Res.bind_eq_ok] at hi
  obtain ⟨_, -, hi⟩ := hi
  rw [Res.pure_eq, Res.ok.injEq] at hi
  have hmem : s0 ∈ s := List.mem_of_getElem? (Res.at'_eq_ok.mp hs0)
  have := hs s0 hmem
  rw [← hi]
  simpa [Segment.setTime] using this

theorem updateSegmentsG_sane {L} {o o' : LinOpt h K} (hs : o.Sane) (ho : o.updateSegmentsG L = .ok o') :
    o'.Sane ∧ o'.dimension = o.dimension := by
  obtain ⟨segs, rfl, h2⟩ := updateSegmentsG_inv ho
  exact ⟨⟨h2 _ hs.segDims, hs.freeLen⟩, rfl⟩

theorem solveLinearG_inv {L sol} {o o' : LinOpt h K} (ho : o.solveLinearG L sol = .ok o') :
    (o.nFree = 0 ∧ o.updateSegmentsG L = .ok o') ∨
    (o.nFree ≠ 0 ∧ ∃ fc : List (List K), fc.length = o.dimension ∧
      LinOpt.updateSegmentsG L { o with freeCompact := fc } = .ok o') := by
  unfold LinOpt.solveLinearG at ho
  rw [Res.bind_eq_ok] at ho
  obtain ⟨_, -, ho⟩ := ho
  split_ifs at ho with h1 h2
  · exact Or.inl ⟨h1, ho⟩
  · rw [Res.bind_eq_ok] at ho
    obtain ⟨fc, hfc, ho⟩ := ho
    exact Or.inr ⟨h1, fc, by rw [Res.mapM_length hfc, List.length_range], ho⟩

theorem setFreeG_inv {L fc} {o o' : LinOpt h K} (ho : o.setFreeConstraintsG L fc = .ok o') :
    fc.length = o.dimension ∧ (∀ v ∈ fc, v.length = o.nFree) ∧
      LinOpt.updateSegmentsG L { o with freeCompact := fc } = .ok o' := by
  unfold LinOpt.setFreeConstraintsG at ho
  rw [Res.bind_eq_ok] at ho
  obtain ⟨_, h1, ho⟩ := ho
  rw [Res.bind_eq_ok] at ho
  obtain ⟨_, h2, ho⟩ := ho
  exact ⟨Res.check_eq_ok.mp h1, Res.check_eq_ok.mp h2, ho⟩

theorem updateTimesG_inv {L} {ts} {o o' : LinOpt h K} (ho : o.updateSegmentTimesG L ts = .ok o') :
    ts.length = o.nSegments ∧ ∃ c m, o' = { o with segmentTimes := ts, cost := c, invMapping := m } := by
  unfold LinOpt.updateSegmentTimesG at ho
  rw [Res.bind_eq_ok] at ho
  obtain ⟨_, h1, ho⟩ := ho
  rw [Res.bind_eq_ok] at ho
  obtain ⟨ms, h2, ho⟩ := ho
  exact ⟨Res.check_eq_ok.mp h1, _, _, (by simpa using ho.symm)⟩

theorem setupG_inv {L} {vs : List (Vertex K)} {ts : List K} {k : ℤ} {o o' : LinOpt h K}
    (ho : o.setupFromVerticesG L vs ts k = .ok o') (hs : o.Sane) : o'.Sane := by
  unfold LinOpt.setupFromVerticesG at ho
  rw [Res.bind_eq_ok] at ho
  obtain ⟨_, -, ho⟩ := ho
  split_ifs at ho
  simp only at ho
  rw [Res.bind_eq_ok] at ho
  obtain ⟨_, -, ho⟩ := ho
  rw [Res.bind_eq_ok] at ho
  obtain ⟨_, -, ho⟩ := ho
  rw [Res.bind_eq_ok] at ho
  obtain ⟨o2, h2, ho⟩ := ho
  obtain ⟨-, c, m, rfl⟩ := updateTimesG_inv h2
  unfold LinOpt.setupReordering at ho
  simp only at ho
  rw [Res.bind_eq_ok] at ho
  obtain ⟨df, -, ho⟩ := ho
  rw [Res.pure_eq, Res.ok.injEq] at ho
  subst ho
  refine ⟨?_, hs.freeLen⟩
  intro s hs'
  simp only at hs'
  rcases List.mem_append.mp hs' with hs' | hs'
  · exact hs.segDims s (List.mem_of_mem_take hs')
  · obtain ⟨_, rfl⟩ := List.mem_replicate.mp hs'
    simp [Segment.mkZero]

theorem readyG_update {o o' : LinOpt h K} {L} {vs : List (Vertex K)} {times : List K} {k : ℕ}
    (r : o.ReadyG L vs times k) (hdim : 0 < o.dimension) (ho : o.updateSegmentsG L = .ok o') :
    o' = { o with segments := segmentsForG L o.dimension vs times o.freeCompact } ∧
    o'.ReadyG L vs times k ∧ ∀ v ∈ o'.freeCompact, v.length = o'.nFree := by
  have hl : ∀ v ∈ o.freeCompact, v.length = o.nFree := by
    have ho := ho
    unfold LinOpt.updateSegmentsG at ho
    rw [Res.bind_eq_ok] at ho
    obtain ⟨segs, h1, -⟩ := ho
    have hst := Res.foldlM_step h1
    intro v hv
    obtain ⟨d, hd⟩ := List.mem_iff_getElem?.mp hv
    have hlt := (List.getElem?_eq_some_iff.mp hd).1
    obtain ⟨s, s', hs⟩ := hst d (by rw [List.mem_range, ← r.freeLen]; exact hlt)
    rw [Res.bind_eq_ok] at hs
    obtain ⟨df, hdf, hs⟩ := hs
    rw [Res.bind_eq_ok] at hs
    obtain ⟨dp, hdp, hs⟩ := hs
    split_ifs at hs with hc
    rw [Res.at'_eq_ok, hd, Option.some.injEq] at hdp
    rw [Res.at'_eq_ok, r.fixedC, List.getElem?_map, List.getElem?_range (by rw [← r.freeLen]; exact hlt),
      Option.map_some, Option.some.injEq] at hdf
    have : df.length = o.nFixed := by rw [← hdf, r.nFixed]; simp [fixedVals]
    subst hdp
    omega
  have h1 := updateG_ok r hdim hl
  rw [h1, Res.ok.injEq] at ho
  refine ⟨ho.symm, ?_, by rw [← ho]; exact hl⟩
  have hsane : o'.Sane := (updateSegmentsG_sane r.toSane (by rw [h1, ho])).1
  subst ho
  exact { toSane := hsane, deriv := r.deriv, derivLt := r.derivLt,
          timesEq := r.timesEq, nVert := r.nVert, two := r.two, nSeg := r.nSeg, nAll := r.nAll,
          nFixed := r.nFixed, nFree := r.nFree, reord := r.reord, invEq := r.invEq, fixedC := r.fixedC,
          segLen := by simp [segmentsForG] }

theorem readyG_free {o : LinOpt h K} {L} {vs : List (Vertex K)} {times : List K} {k : ℕ}
    (r : o.ReadyG L vs times k) (fc : List (List K)) (hl : fc.length = o.dimension) :
    LinOpt.ReadyG { o with freeCompact := fc } L vs times k :=
  { segDims := r.segDims, freeLen := hl, deriv := r.deriv,
    derivLt := r.derivLt, timesEq := r.timesEq, nVert := r.nVert, two := r.two, nSeg := r.nSeg,
    nAll := r.nAll, nFixed := r.nFixed, nFree := r.nFree, reord := r.reord, invEq := r.invEq,
    fixedC := r.fixedC, segLen := r.segLen }

theorem readyG_solve {o o' : LinOpt h K} {L sol} {vs : List (Vertex K)} {times : List K} {k : ℕ}
    (r : o.ReadyG L vs times k) (hdim : 0 < o.dimension) (ho : o.solveLinearG L sol = .ok o') :
    o'.ReadyG L vs times k ∧ o'.dimension = o.dimension ∧ (∀ v ∈ o'.freeCompact, v.length = o'.nFree) ∧
      o'.segments = segmentsForG L o.dimension vs times o'.freeCompact := by
  rcases solveLinearG_inv ho with ⟨_, h1⟩ | ⟨_, fc, hl, h1⟩
  · obtain ⟨h2, h3, h4⟩ := readyG_update r hdim h1
    exact ⟨h3, by rw [h2], h4, by rw [h2]⟩
  · obtain ⟨h2, h3, h4⟩ := readyG_update (readyG_free r fc hl) hdim h1
    exact ⟨h3, by rw [h2], h4, by rw [h2]⟩

theorem readyG_setFree {o o' : LinOpt h K} {L} {vs : List (Vertex K)} {times : List K} {k : ℕ} {fc : List (List K)}
    (r : o.ReadyG L vs times k) (hdim : 0 < o.dimension) (ho : o.setFreeConstraintsG L fc = .ok o') :
    o'.ReadyG L vs times k ∧ o'.dimension = o.dimension ∧ (∀ v ∈ o'.freeCompact, v.length = o'.nFree) ∧
      o'.segments = segmentsForG L o.dimension vs times o'.freeCompact ∧ o'.freeCompact = fc := by
  obtain ⟨hl, _, h1⟩ := setFreeG_inv ho
  obtain ⟨h2, h3, h4⟩ := readyG_update (readyG_free r fc hl) hdim h1
  exact ⟨h3, by rw [h2], h4, by rw [h2], by rw [h2]⟩

theorem readyG_times {o : LinOpt h K} {L} {vs : List (Vertex K)} {times times' : List K} {k : ℕ}
    (r : o.ReadyG L vs times k) (hN : h + h ≤ 22) (hl : times'.length = times.length) (ht : ∀ T ∈ times', 0 < T)
    (hm : ∀ T ∈ times', setupMappingMatrixG L.mag h T = .ok (mapMatG L.mag h T)) :
    ∃ o', o.updateSegmentTimesG L times' = .ok o' ∧ o'.ReadyG L vs times' k ∧ o'.dimension = o.dimension := by
  have h1 := updateTimesG_ok L o times' k r.derivLt hN r.deriv (hl.trans r.nSeg.symm) ht hm
  refine ⟨_, h1, ?_, rfl⟩
  exact { segDims := r.segDims, freeLen := r.freeLen, deriv := r.deriv,
           derivLt := r.derivLt, timesEq := rfl, nVert := by rw [hl]; exact r.nVert, two := r.two,
           nSeg := r.nSeg.trans hl.symm, nAll := by rw [hl]; exact r.nAll, nFixed := r.nFixed,
           nFree := r.nFree, reord := r.reord, invEq := rfl, fixedC := r.fixedC,
           segLen := by rw [hl]; exact r.segLen }

end Generic

section Rounded
variable {rnd : ℝ → ℝ} {u : ℝ} {h : ℕ}

theorem mapMatG_ok (hr : Rounding rnd u) (hnat : ∀ n : ℕ, n < 2 ^ 53 → rnd n = n) (hN : h + h ≤ 22) (T : Fl rnd)
    (hT : 1 / 2 ^ 52 ≤ T.val) : setupMappingMatrixG (flLib rnd) h T = .ok (mapMatG (flLib rnd) h T) := by
  obtain ⟨M, e, -, -⟩ := mapping_rounded hr hnat h (by omega) T hT
  unfold mapMatG
  rw [e]

theorem fl_pos {T : Fl rnd} (hT : 1 / 2 ^ 52 ≤ T.val) : (0 : Fl rnd) < T := by
  change (0 : ℝ) < T.val
  refine lt_of_lt_of_le ?_ hT
  positivity

theorem flReachable_sane {L : OptLib h (Fl rnd)} {o : LinOpt h (Fl rnd)} (ho : FlReachable L o) : o.Sane := by
  induction ho with
  | new dim => exact ⟨by simp [LinOpt.new], by simp [LinOpt.new]⟩
  | setup _ h1 ih => exact setupG_inv h1 ih
  | @solveLinear o o' sol _ h1 ih =>
    rcases solveLinearG_inv h1 with ⟨_, h1⟩ | ⟨_, fc, hl, h1⟩
    · exact (updateSegmentsG_sane ih h1).1
    · exact (updateSegmentsG_sane (o := { o with freeCompact := fc }) ⟨ih.segDims, hl⟩ h1).1
  | @setFree o o' fc _ h1 ih =>
    obtain ⟨h2, -, h3⟩ := setFreeG_inv h1
    exact (updateSegmentsG_sane (o := { o with freeCompact := fc }) ⟨ih.segDims, h2⟩ h3).1
  | times _ h1 ih =>
    obtain ⟨-, c, m, rfl⟩ := updateTimesG_inv h1
    exact ⟨ih.segDims, ih.freeLen⟩

theorem flSetup_ok (hr : Rounding rnd u) (hnat : ∀ n : ℕ, n < 2 ^ 53 → rnd n = n) {L : OptLib h (Fl rnd)}
    (hL : L.mag = flLib rnd) (o : LinOpt h (Fl rnd)) (ho : o.Sane) {vertices : List (Vertex (Fl rnd))}
    {times : List (Fl rnd)} {k : ℕ} (hk : k < h) (hp : FlProblem h o.dimension vertices times) :
    ∃ o', o.setupFromVerticesG L vertices times k = .ok o' ∧
      o'.ReadyG L (vertices.map (filt h o.dimension)) times k ∧ o'.dimension = o.dimension :=
  setupG_ok L o ho vertices times k hk hp.small hp.two hp.count hp.wf (fun T hT => fl_pos (hp.times_pos T hT))
    (fun T hT => by rw [hL]; exact mapMatG_ok hr hnat hp.small T (hp.times_pos T hT))

/-- What is known of the object at every point of a session. -/
theorem flSession_ready (hr : Rounding rnd u) (hnat : ∀ n : ℕ, n < 2 ^ 53 → rnd n = n) {L : OptLib h (Fl rnd)}
    (hL : L.mag = flLib rnd) {vertices : List (Vertex (Fl rnd))} {k : ℕ} {times : List (Fl rnd)}
    {o : LinOpt h (Fl rnd)} (hs : FlSession L vertices k times o) :
    FlProblem h o.dimension vertices times ∧ o.ReadyG L (vertices.map (filt h o.dimension)) times k := by
  induction hs with
  | @setup o o' times hre hp ho =>
    have hk : k < h := by
      have ho := ho
      unfold LinOpt.setupFromVerticesG at ho
      rw [Res.bind_eq_ok] at ho
      obtain ⟨_, h1, -⟩ := ho
      have := Res.check_eq_ok.mp h1
      omega
    obtain ⟨o'', h1, h2, h3⟩ := flSetup_ok hr hnat hL o (flReachable_sane hre) hk hp
    rw [h1, Res.ok.injEq] at ho
    subst ho
    rw [h3]
    exact ⟨hp, h2⟩
  | solveLinear sol _ ho ih =>
    obtain ⟨hp, hr⟩ := ih
    obtain ⟨h1, h2, -⟩ := readyG_solve hr hp.dim_pos ho
    rw [h2]
    exact ⟨hp, h1⟩
  | setFree fc _ ho ih =>
    obtain ⟨hp, hr⟩ := ih
    obtain ⟨h1, h2, -⟩ := readyG_setFree hr hp.dim_pos ho
    rw [h2]
    exact ⟨hp, h1⟩
  | @times o o' times times' _ ht ho ih =>
    obtain ⟨hp, hrd⟩ := ih
    have hlen : times'.length = times.length := (updateTimesG_inv ho).1.trans hrd.nSeg
    obtain ⟨o'', h1, h2, h3⟩ := readyG_times hrd hp.small hlen (fun T hT => fl_pos (ht T hT))
      (fun T hT => by rw [hL]; exact mapMatG_ok hr hnat hp.small T (ht T hT))
    rw [h1, Res.ok.injEq] at ho
    subst ho
    rw [h3]
    exact ⟨⟨by rw [hlen]; exact hp.count, hp.two, ht, hp.wf, hp.numbers, hp.dim_pos, hp.small⟩, h2⟩

theorem pickG_val (hr : Rounding rnd u) (hnat : ∀ n : ℕ, n < 2 ^ 53 → rnd n = n) (dim : ℕ) (vs : List (Vertex (Fl rnd)))
    (dAll : List (Fl rnd)) (key : ℕ × ℕ) :
    (pickG h dim vs dAll key).val = rnd (valueAt h dim vs dAll key).val := by
  change rnd (0 + rnd (rnd (1 : ℕ) * (valueAt h dim vs dAll key).val)) = _
  rw [hnat 1 (by norm_num), Nat.cast_one, one_mul, zero_add, hr.idem]

end Rounded
end Verif
