import Verif.Props.RoundedMapping
import Verif.Props.RoundedCost
import Verif.Proofs.RoundedOptimizer

/-
Property C121: the linear optimiser as a whole with rounding after every operation.

Nothing is assumed of the sparse solver, of `std::pow` or of Eigen's `inverse()`, but the residual of the latter enters the
bounds. Of the scalar products of Eigen `Spec.DotOk` is assumed.
-/
namespace Verif

open Spec

set_option linter.unusedSectionVars false

/-- With a field, exact library functions and the free values of a solver of the linear system, the functions used here
are those of the model of the linear optimiser. -/
theorem C121_same_code {K : Type} [Field K] [LinearOrder K] {h : ℕ} (sq : K → K)
    (inv : Matrix (Fin h) (Fin h) K → Matrix (Fin h) (Fin h) K)
    (solve : (n : ℕ) → Matrix (Fin n) (Fin n) K → (Fin n → K) → Fin n → K) (o : LinOpt h K)
    (L : OptLib h K) (hL : L = ⟨fieldLib sq, fun t n => t ^ n, fun _ a b => a ⬝ᵥ b, inv⟩) :
    (∀ times, o.updateSegmentTimesG L times = o.updateSegmentTimes inv times) ∧
    (∀ vertices times k, o.setupFromVerticesG L vertices times k = o.setupFromVertices inv vertices times k) ∧
    (∀ fc, o.setFreeConstraintsG L fc = o.setFreeConstraints fc) ∧
    o.solveLinearG L (fun o df => solve o.nFree (fun a b => o.rEntry (o.nFixed + a) (o.nFixed + b))
      (Matrix.mulVec (-(Matrix.of fun (a : Fin o.nFree) (b : Fin o.nFixed) => o.rEntry (o.nFixed + a) b))
        fun b => df.getD b 0)) =
      o.solveLinear solve := by
  subst hL
  have ht : ∀ (o : LinOpt h K) times, o.updateSegmentTimesG ⟨fieldLib sq, fun t n => t ^ n, fun _ a b => a ⬝ᵥ b, inv⟩ times =
      o.updateSegmentTimes inv times := by
    intro o times
    have hQ : ∀ T : K, computeQuadraticCostJacobianG (fun t n => t ^ n) h o.derivative T =
        computeQuadraticCostJacobian h o.derivative T := fun T => rfl
    unfold LinOpt.updateSegmentTimesG LinOpt.updateSegmentTimes
    have hI : ∀ M : SqMat h K, invertMappingMatrixG (fun _ a b => a ⬝ᵥ b) inv M = invertMappingMatrix inv M :=
      fun M => (C118_same_code sq h 0 inv M fun _ => 0).2.1
    simp only [hI, hQ]
    rfl
  have hd : ∀ (o : LinOpt h K) i dAll, o.newDG i dAll = o.newD i dAll := by
    intro o i dAll
    funext p
    unfold LinOpt.newDG LinOpt.newD LinOpt.reorderEntry
    rw [List.sum_eq_foldl, List.foldl_map]
    congr 1
    funext s c
    split_ifs with e
    · rw [e, Nat.cast_zero, zero_mul, add_zero]
    · rfl
  have hu : ∀ o : LinOpt h K, o.updateSegmentsG ⟨fieldLib sq, fun t n => t ^ n, fun _ a b => a ⬝ᵥ b, inv⟩ =
      o.updateSegments := by
    intro o
    unfold LinOpt.updateSegmentsG LinOpt.updateSegments
    simp only [hd]
    rfl
  refine ⟨ht o, fun vertices times k => ?_, fun fc => ?_, ?_⟩
  · unfold LinOpt.setupFromVerticesG LinOpt.setupFromVertices
    simp only [ht]
  · unfold LinOpt.setFreeConstraintsG LinOpt.setFreeConstraints
    simp only [hu]
  · unfold LinOpt.solveLinearG LinOpt.solveLinear
    simp only [hu]
    rfl

variable {rnd : ℝ → ℝ} {u : ℝ} {h : ℕ}

/-- **C121**, the calls return: setting up with any object and any acceptable problem, and afterwards, whatever was called
in between, solving with any solver (when no derivative is free the object must not have kept free values of an earlier
problem, see C34), setting free values of the right number, and changing the durations. -/
theorem C121_returns (hr : Rounding rnd u) (hnat : ∀ n : ℕ, n < 2 ^ 53 → rnd n = n) {L : OptLib h (Fl rnd)}
    (hL : L.mag = flLib rnd) {vertices : List (Vertex (Fl rnd))} {k : ℕ} (hk : k < h) :
    (∀ o times, FlReachable L o → FlProblem h o.dimension vertices times →
      ∃ o', o.setupFromVerticesG L vertices times k = .ok o') ∧
    ∀ o times, FlSession L vertices k times o →
      ((0 < o.nFree ∨ ∀ v ∈ o.freeCompact, v = []) → ∀ sol, ∃ o', o.solveLinearG L sol = .ok o') ∧
      (∀ fc, fc.length = o.dimension → (∀ v ∈ fc, v.length = o.nFree) → ∃ o', o.setFreeConstraintsG L fc = .ok o') ∧
      ∀ times' : List (Fl rnd), times'.length = times.length → (∀ T ∈ times', 1 / 2 ^ 52 ≤ T.val) →
        ∃ o', o.updateSegmentTimesG L times' = .ok o' := by
  refine ⟨fun o times hre hp => ?_, fun o times hs => ?_⟩
  · obtain ⟨o', h1, -⟩ := flSetup_ok hr hnat hL o (flReachable_sane hre) hk hp
    exact ⟨o', h1⟩
  · obtain ⟨hp, r⟩ := flSession_ready hr hnat hL hs
    have hfree : ∀ fc : List (List (Fl rnd)), fc.length = o.dimension → (∀ v ∈ fc, v.length = o.nFree) →
        ∃ o', LinOpt.updateSegmentsG L { o with freeCompact := fc } = .ok o' := fun fc hl hv =>
      ⟨_, updateG_ok (readyG_free r fc hl) hp.dim_pos hv⟩
    refine ⟨fun hf sol => ?_, fun fc hl hv => ?_, fun times' hl ht => ?_⟩
    · unfold LinOpt.solveLinearG
      rw [Res.check_of (by rw [r.deriv]; have := r.derivLt; omega), Res.ok_bind]
      split_ifs with h0 h1
      · refine ⟨_, updateG_ok r hp.dim_pos fun v hv => ?_⟩
        rcases hf with hf | hf
        · omega
        · rw [hf v hv, h0]
          rfl
      · exact absurd (by rw [r.nAll, r.nSeg, Nat.mul_comm]) h1
      · rw [Res.mapM_ok (g := fun d => List.ofFn (sol o (fixedVals h o.dimension (vertices.map (filt h o.dimension)) d)))]
        · rw [Res.ok_bind]
          refine hfree _ (by simp) ?_
          intro v hv
          obtain ⟨d, -, rfl⟩ := List.mem_map.mp hv
          simp
        · intro d hd
          have : Res.at' o.fixedCompact d = .ok (fixedVals h o.dimension (vertices.map (filt h o.dimension)) d) := by
            rw [Res.at'_eq_ok, r.fixedC, List.getElem?_map, List.getElem?_range (by simpa using hd)]
            rfl
          rw [this, Res.ok_bind, if_neg (by rw [r.nFixed]; simp [fixedVals]), Res.pure_eq]
    · unfold LinOpt.setFreeConstraintsG
      rw [Res.check_of hl, Res.ok_bind, Res.check_of hv, Res.ok_bind]
      exact hfree fc hl hv
    · obtain ⟨o', h1, -⟩ := readyG_times r hp.small hl (fun T hT => fl_pos (ht T hT))
        (fun T hT => by rw [hL]; exact mapMatG_ok hr hnat hp.small T (ht T hT))
      exact ⟨o', h1⟩

/-- The free value of a key is one of the free values. -/
theorem valueAt_free_mem {K : Type} [Zero K] {h : ℕ} (dim : ℕ) (vs : List (Vertex K)) (hv : 2 ≤ vs.length) (d i k : ℕ)
    (fr : List K) (hfr : fr.length = (freeCols h dim vs).length) (v : Vertex K) (hi : vs[i]? = some v) (hk : k < h)
    (hc : v.getConstraint (k : ℕ) = none) :
    valueAt h dim vs (fixedVals h dim vs d ++ fr) (i, k) ∈ fr := by
  have hget : vs.getD i (Vertex.new 0) = v := by rw [List.getD_eq_getElem?_getD, hi]; rfl
  have hilt := (List.getElem?_eq_some_iff.mp hi).1
  have hmem : (i, k) ∈ (freeCols h dim vs).map Constr.key :=
    (fixedKeys_mem false h dim vs hv i k).mpr ⟨hilt, hk, by rw [hget, hc]; rfl⟩
  have hnot : (i, k) ∉ (fixedCols h dim vs).map Constr.key := fun hm => by
    have := ((fixedKeys_mem true h dim vs hv i k).mp hm).2.2
    rw [hget, hc] at this
    cases this
  unfold valueAt colKeys columns
  change (fixedVals h dim vs d ++ fr).getD (((fixedCols h dim vs ++ freeCols h dim vs).map Constr.key).idxOf (i, k)) 0 ∈ fr
  rw [List.map_append, List.idxOf_append_of_notMem hnot]
  have hlt := List.idxOf_lt_length_of_mem hmem
  rw [List.length_map] at hlt
  rw [List.getD_eq_getElem?_getD, List.getElem?_append_right (by simp [fixedVals])]
  have e : ((fixedCols h dim vs).map Constr.key).length + ((freeCols h dim vs).map Constr.key).idxOf (i, k) -
      (fixedVals h dim vs d).length = ((freeCols h dim vs).map Constr.key).idxOf (i, k) := by
    simp [fixedVals]
  rw [e, List.getElem?_eq_getElem (by omega)]
  exact List.getElem_mem _

/-- **C121**. After `setupFromVertices` and any calls, the last of which was `solveLinear` or `setFreeConstraints`, there
are derivatives `D d j k` (dimension, vertex, order) required at the vertices: the prescribed ones where the vertex has a
constraint, and numbers among the free values elsewhere. Every segment has the required derivatives at its beginning up to
`2h + 1` roundings, and at its end up to `endError`. -/
theorem C121_ends (hr : Rounding rnd u) (hnat : ∀ n : ℕ, n < 2 ^ 53 → rnd n = n) {L : OptLib h (Fl rnd)}
    (hL : L.mag = flLib rnd) (hdot : DotOk u L.dot) {vertices : List (Vertex (Fl rnd))} {k : ℕ} {times : List (Fl rnd)}
    {o o' : LinOpt h (Fl rnd)} (hs : FlSession L vertices k times o)
    (hlast : (∃ sol, o.solveLinearG L sol = .ok o') ∨ ∃ fc, o.setFreeConstraintsG L fc = .ok o') :
    Shape (h + h) o.dimension times o'.segments ∧
    ∃ D : ℕ → ℕ → ℕ → ℝ,
      (∀ (j : ℕ) (v : Vertex (Fl rnd)), vertices[j]? = some v → ∀ q < h, ∀ d < o.dimension,
        (∀ c, v.getConstraint (q : ℕ) = some c → D d j q = (c.getD d 0).val) ∧
        (v.getConstraint (q : ℕ) = none → ∃ x ∈ o'.freeCompact.getD d [], D d j q = rnd x.val)) ∧
      ∀ (i : ℕ) (s : Segment (Fl rnd)), o'.segments[i]? = some s →
        ∃ M : SqMat h (Fl rnd), setupMappingMatrixG (flLib rnd) h s.time = .ok M ∧ ∀ d < o.dimension, ∀ q : Fin h,
          |derivAt (dimVals s d) q 0 - D d i q| ≤ ((1 + u) ^ (2 * h + 1) - 1) * |D d i q| ∧
          |derivAt (dimVals s d) q s.time.val - D d (i + 1) q| ≤
            endError u h s.time.val (L.inv fun a b => M (Fin.natAdd h a) (Fin.natAdd h b)) (endsOf h (D d) i) q := by
  obtain ⟨hp, r⟩ := flSession_ready hr hnat hL hs
  set vs := vertices.map (filt h o.dimension) with hvs
  have hdim' : o'.ReadyG L vs times k ∧ o'.dimension = o.dimension ∧ (∀ v ∈ o'.freeCompact, v.length = o'.nFree) ∧
      o'.segments = segmentsForG L o.dimension vs times o'.freeCompact := by
    rcases hlast with ⟨sol, ho⟩ | ⟨fc, ho⟩
    · exact readyG_solve r hp.dim_pos ho
    · obtain ⟨h1, h2, h3, h4, -⟩ := readyG_setFree r hp.dim_pos ho
      exact ⟨h1, h2, h3, h4⟩
  obtain ⟨r', hd', hfl, hseg⟩ := hdim'
  have hseg_get : ∀ (i : ℕ) (s : Segment (Fl rnd)), o'.segments[i]? = some s → i < times.length ∧
      s = ⟨(List.range o.dimension).map fun d => ⟨segmentCoeffsG L.dot
      (invertMappingMatrixG L.dot L.inv (mapMatG L.mag h (times.getD i 0))) fun p =>
      pickG h o.dimension vs (fixedVals h o.dimension vs d ++ o'.freeCompact.getD d []) (rowKey h i p)⟩,
      times.getD i 0, h + h⟩ := by
    intro i s hs
    rw [hseg] at hs
    unfold segmentsForG at hs
    have hi : i < times.length := by
      have := (List.getElem?_eq_some_iff.mp hs).1
      simpa using this
    refine ⟨hi, ?_⟩
    rw [List.getElem?_map, List.getElem?_range hi] at hs
    simpa using hs.symm
  refine ⟨⟨?_, ?_, ?_⟩, fun d j q => rnd (valueAt h o.dimension vs
    (fixedVals h o.dimension vs d ++ o'.freeCompact.getD d []) (j, q)).val, ?_, ?_⟩
  · rw [hseg]
    unfold segmentsForG
    rw [List.map_map]
    apply List.ext_getElem
    · simp
    · intro i h1 h2
      simp [List.getD_eq_getElem?_getD, h2]
  · intro s hs
    obtain ⟨i, hi⟩ := List.mem_iff_getElem?.mp hs
    obtain ⟨-, rfl⟩ := hseg_get i s hi
    simp
  · intro s hs
    obtain ⟨i, hi⟩ := List.mem_iff_getElem?.mp hs
    obtain ⟨-, rfl⟩ := hseg_get i s hi
    intro p hp
    obtain ⟨d, -, rfl⟩ := List.mem_map.mp hp
    simp [segmentCoeffsG]
  · intro j v hj q hq d hd
    have hv := List.mem_of_getElem? hj
    obtain ⟨hw, hD⟩ := hp.wf v hv
    have hj' : vs[j]? = some (filt h o.dimension v) := by rw [hvs, List.getElem?_map, hj]; rfl
    have hfc := (filt_spec h o.dimension v hw hD).2.2.2 (q : ℤ) (by exact_mod_cast hq)
    refine ⟨fun c hc => ?_, fun hc => ?_⟩
    · dsimp only
      rw [valueAt_fixed o.dimension vs r.two d j q _ _ hj' hq c (hfc.trans hc)]
      have hm := mapFind_mem hc
      have hlen : c.length = o.dimension := (hw.dims _ hm).trans hD
      rw [List.getD_eq_getElem?_getD, List.getElem?_eq_getElem (by omega)]
      exact hp.numbers v hv _ hm _ (List.getElem_mem _)
    · refine ⟨_, valueAt_free_mem o.dimension vs r.two d j q _ ?_ _ hj' hq (hfc.trans hc), rfl⟩
      have hdl : d < o'.freeCompact.length := by rw [r'.freeLen, hd']; exact hd
      rw [hfl _ (by rw [List.getD_eq_getElem?_getD, List.getElem?_eq_getElem hdl]; exact List.getElem_mem _), r'.nFree,
        hd']
  · intro i s hi
    obtain ⟨hil, rfl⟩ := hseg_get i s hi
    have hTm : times.getD i 0 ∈ times := by
      rw [List.getD_eq_getElem?_getD, List.getElem?_eq_getElem hil]
      exact List.getElem_mem _
    obtain ⟨M, e, g⟩ := C118_ends hr hnat hdot h (by have := hp.small; omega) (times.getD i 0) (hp.times_pos _ hTm) L.inv
    refine ⟨M, e, fun d hd q => ?_⟩
    have hM : mapMatG L.mag h (times.getD i 0) = M := by
      unfold mapMatG
      rw [hL, e]
    have hcoef : dimVals ⟨(List.range o.dimension).map fun d => ⟨segmentCoeffsG L.dot
        (invertMappingMatrixG L.dot L.inv (mapMatG L.mag h (times.getD i 0))) fun p =>
        pickG h o.dimension vs (fixedVals h o.dimension vs d ++ o'.freeCompact.getD d []) (rowKey h i p)⟩,
        times.getD i 0, h + h⟩ d = vals (segmentCoeffsG L.dot (invertMappingMatrixG L.dot L.inv M) fun p =>
        pickG h o.dimension vs (fixedVals h o.dimension vs d ++ o'.freeCompact.getD d []) (rowKey h i p)) := by
      unfold dimVals vals
      simp only
      rw [List.getD_eq_getElem?_getD, List.getElem?_map, List.getElem?_range hd, hM]
      rfl
    obtain ⟨g1, g2⟩ := g (fun p => pickG h o.dimension vs (fixedVals h o.dimension vs d ++ o'.freeCompact.getD d [])
      (rowKey h i p)) _ _ hcoef.symm.symm rfl
    have hlo : ∀ q : Fin h, (pickG h o.dimension vs (fixedVals h o.dimension vs d ++ o'.freeCompact.getD d [])
        (rowKey h i (Fin.castAdd h q))).val = rnd (valueAt h o.dimension vs
        (fixedVals h o.dimension vs d ++ o'.freeCompact.getD d []) (i, q)).val := fun q => by
      rw [pickG_val hr hnat]
      simp [rowKey]
    have hhi : ∀ q : Fin h, (pickG h o.dimension vs (fixedVals h o.dimension vs d ++ o'.freeCompact.getD d [])
        (rowKey h i (Fin.natAdd h q))).val = rnd (valueAt h o.dimension vs
        (fixedVals h o.dimension vs d ++ o'.freeCompact.getD d []) (i + 1, q)).val := fun q => by
      rw [pickG_val hr hnat]
      simp [rowKey]
    have hends : endsOf h (fun j q => rnd (valueAt h o.dimension vs
        (fixedVals h o.dimension vs d ++ o'.freeCompact.getD d []) (j, q)).val) i =
        fun c : Fin (h + h) =>
        (pickG h o.dimension vs (fixedVals h o.dimension vs d ++ o'.freeCompact.getD d []) (rowKey h i c)).val := by
      funext c
      unfold endsOf
      refine Fin.addCases (fun q => ?_) (fun q => ?_) c
      · rw [Fin.addCases_left, hlo]
      · rw [Fin.addCases_right, hhi]
    have a := g1 q
    have b := g2 (residual h (times.getD i 0).val (L.inv fun a b => M (Fin.natAdd h a) (Fin.natAdd h b)))
      (fun _ _ => le_rfl) q
    rw [hlo] at a
    rw [hhi] at b
    refine ⟨a, ?_⟩
    unfold endError
    rw [hends]
    exact b

/-- **C121**, the free values that were set are the ones in force. -/
theorem C121_free {L : OptLib h (Fl rnd)} {o o' : LinOpt h (Fl rnd)} {fc : List (List (Fl rnd))}
    (ho : o.setFreeConstraintsG L fc = .ok o') : o'.freeCompact = fc := by
  obtain ⟨-, -, h1⟩ := setFreeG_inv ho
  obtain ⟨segs, h2, -⟩ := updateSegmentsG_inv h1
  rw [h2]

/-- **C121**, constraints and joints. Prescribed derivatives are met at the beginning of the segment that starts at the
vertex up to `2h + 1` roundings, and at the end of the segment that ends there up to `endError` of some requirement `d` for
that segment; and where two segments meet their derivatives differ by no more than the two errors together. -/
theorem C121_constraints (hr : Rounding rnd u) (hnat : ∀ n : ℕ, n < 2 ^ 53 → rnd n = n) {L : OptLib h (Fl rnd)}
    (hL : L.mag = flLib rnd) (hdot : DotOk u L.dot) {vertices : List (Vertex (Fl rnd))} {k : ℕ} {times : List (Fl rnd)}
    {o o' : LinOpt h (Fl rnd)} (hs : FlSession L vertices k times o)
    (hlast : (∃ sol, o.solveLinearG L sol = .ok o') ∨ ∃ fc, o.setFreeConstraintsG L fc = .ok o') :
    (∀ (j : ℕ) (v : Vertex (Fl rnd)) (s : Segment (Fl rnd)), vertices[j]? = some v → o'.segments[j]? = some s →
      ∀ (q : Fin h) (c : List (Fl rnd)), v.getConstraint ((q : ℕ) : ℤ) = some c → ∀ d < o.dimension,
        |derivAt (dimVals s d) q 0 - (c.getD d 0).val| ≤ ((1 + u) ^ (2 * h + 1) - 1) * |(c.getD d 0).val|) ∧
    ∀ (i : ℕ) (s : Segment (Fl rnd)), o'.segments[i]? = some s →
      ∃ M : SqMat h (Fl rnd), setupMappingMatrixG (flLib rnd) h s.time = .ok M ∧ ∀ d < o.dimension,
        ∃ req : Fin (h + h) → ℝ,
          (∀ v, vertices[i]? = some v → ∀ (q : Fin h) (c : List (Fl rnd)), v.getConstraint ((q : ℕ) : ℤ) = some c →
            req (Fin.castAdd h q) = (c.getD d 0).val) ∧
          (∀ v, vertices[i + 1]? = some v → ∀ (q : Fin h) (c : List (Fl rnd)), v.getConstraint ((q : ℕ) : ℤ) = some c →
            req (Fin.natAdd h q) = (c.getD d 0).val ∧
            |derivAt (dimVals s d) q s.time.val - (c.getD d 0).val| ≤
              endError u h s.time.val (L.inv fun a b => M (Fin.natAdd h a) (Fin.natAdd h b)) req q) ∧
          ∀ s', o'.segments[i + 1]? = some s' → ∀ q : Fin h,
            |derivAt (dimVals s d) q s.time.val - derivAt (dimVals s' d) q 0| ≤
              endError u h s.time.val (L.inv fun a b => M (Fin.natAdd h a) (Fin.natAdd h b)) req q +
                ((1 + u) ^ (2 * h + 1) - 1) * |req (Fin.natAdd h q)| := by
  obtain ⟨-, D, hD, hE⟩ := C121_ends hr hnat hL hdot hs hlast
  have lo : ∀ (D : ℕ → ℕ → ℝ) (i : ℕ) (q : Fin h), endsOf h D i (Fin.castAdd h q) = D i q := fun D i q => by
    unfold endsOf; rw [Fin.addCases_left]
  have hi : ∀ (D : ℕ → ℕ → ℝ) (i : ℕ) (q : Fin h), endsOf h D i (Fin.natAdd h q) = D (i + 1) q := fun D i q => by
    unfold endsOf; rw [Fin.addCases_right]
  refine ⟨fun j v s hv hsj q c hc d hd => ?_, fun i s hsi => ?_⟩
  · obtain ⟨M, -, hM⟩ := hE j s hsj
    have := (hM d hd q).1
    rwa [(hD j v hv q q.2 d hd).1 c hc] at this
  · obtain ⟨M, e, hM⟩ := hE i s hsi
    refine ⟨M, e, fun d hd => ⟨endsOf h (D d) i, fun v hv q c hc => ?_, fun v hv q c hc => ?_, fun s' hs' q => ?_⟩⟩
    · rw [lo]
      exact (hD i v hv q q.2 d hd).1 c hc
    · have hc' := (hD (i + 1) v hv q q.2 d hd).1 c hc
      rw [hi]
      refine ⟨hc', ?_⟩
      rw [← hc']
      exact (hM d hd q).2
    · rw [hi]
      obtain ⟨M', -, hM'⟩ := hE (i + 1) s' hs'
      have a := (hM d hd q).2
      have b := (hM' d hd q).1
      have := abs_sub_le (derivAt (dimVals s d) q s.time.val) (D d (i + 1) q) (derivAt (dimVals s' d) q 0)
      rw [abs_sub_comm (D d (i + 1) q)] at this
      linarith

/-- Three vertices at 0, 1 and 3, at rest at both ends, durations 1 and 1, with doubles and sums from left to right: the
set-up and the setting of the free slope return, and the first segment ends at 1 with the slope 2 that was set. -/
example : ∃ (L : OptLib 2 (Fl round53)) (vertices : List (Vertex (Fl round53))) (o o' : LinOpt 2 (Fl round53)),
    vertices = [⟨1, [(0, [⟨0⟩]), (1, [⟨0⟩])]⟩, ⟨1, [(0, [⟨1⟩])]⟩, ⟨1, [(0, [⟨3⟩]), (1, [⟨0⟩])]⟩] ∧
    (LinOpt.new 1).setupFromVerticesG L vertices [⟨1⟩, ⟨1⟩] 1 = .ok o ∧
    o.setFreeConstraintsG L [[⟨2⟩]] = .ok o' ∧ ∃ s, o'.segments[0]? = some s ∧
      |derivAt (dimVals s 0) 0 1 - 1| ≤ 1 / 10 ^ 12 ∧ |derivAt (dimVals s 0) 1 1 - 2| ≤ 1 / 10 ^ 12 := by
  set L : OptLib 2 (Fl round53) := ⟨flLib round53, fun t _ => t, seqDot, fun _ => !![⟨3⟩, ⟨-1⟩; ⟨-2⟩, ⟨1⟩]⟩ with hLdef
  set vertices : List (Vertex (Fl round53)) :=
    [⟨1, [(0, [⟨0⟩]), (1, [⟨0⟩])]⟩, ⟨1, [(0, [⟨1⟩])]⟩, ⟨1, [(0, [⟨3⟩]), (1, [⟨0⟩])]⟩] with hv
  have hL : L.mag = flLib round53 := rfl
  have hdot : DotOk (1 / 2 ^ 53) L.dot := seqDot_ok round53_rounding
  have hp : FlProblem 2 (LinOpt.new 1 : LinOpt 2 (Fl round53)).dimension vertices [⟨1⟩, ⟨1⟩] := by
    have n := fun k hk => round53_nat k hk
    have n0 := n 0 (by norm_num)
    have n1 := n 1 (by norm_num)
    have n3 := n 3 (by norm_num)
    push_cast at n0 n1 n3
    refine ⟨rfl, by simp [hv], ?_, ?_, ?_, by decide, by norm_num⟩
    · intro T hT
      simp at hT
      rw [hT]
      norm_num
    · intro v hv'
      simp only [hv, List.mem_cons, List.not_mem_nil, or_false] at hv'
      rcases hv' with rfl | rfl | rfl <;> exact ⟨⟨by simp, by simp⟩, rfl⟩
    · intro v hv' e he x hx
      simp only [hv, List.mem_cons, List.not_mem_nil, or_false] at hv'
      rcases hv' with rfl | rfl | rfl <;> simp only [List.mem_cons, List.not_mem_nil, or_false] at he
      · rcases he with rfl | rfl <;> simp at hx <;> rw [hx] <;> exact n0
      · rw [he] at hx; simp at hx; rw [hx]; exact n1
      · rcases he with rfl | rfl <;> simp at hx <;> rw [hx]
        · exact n3
        · exact n0
  obtain ⟨o, ho, r, hdim⟩ := flSetup_ok round53_rounding round53_nat hL (LinOpt.new 1) (flReachable_sane (L := L) (.new 1))
    (k := 1) (by norm_num) hp
  have hs : FlSession L vertices 1 [⟨1⟩, ⟨1⟩] o := .setup (.new 1) hp ho
  have hd1 : o.dimension = 1 := hdim
  have hfree : o.nFree = 1 := by
    rw [r.nFree, hd1]
    rfl
  obtain ⟨o', ho'⟩ := ((C121_returns round53_rounding round53_nat hL (k := 1) (by norm_num)).2 o _ hs).2.1 [[⟨2⟩]]
    (by rw [hd1]; rfl) (by rw [hfree]; simp)
  refine ⟨L, vertices, o, o', rfl, ho, ho', ?_⟩
  obtain ⟨hsh, D, hD, hE⟩ := C121_ends round53_rounding round53_nat hL hdot hs (.inr ⟨_, ho'⟩)
  have hlen : o'.segments.length = 2 := by
    have := congrArg List.length hsh.durations
    simpa using this
  refine ⟨o'.segments[0], List.getElem?_eq_getElem (by omega), ?_⟩
  have ht : (o'.segments[0]).time = ⟨1⟩ := by
    have : (o'.segments.map Segment.time)[0]? = some ⟨1⟩ := by rw [hsh.durations]; rfl
    rw [List.getElem?_map, List.getElem?_eq_getElem (by omega)] at this
    simpa using this
  obtain ⟨M, -, hM⟩ := hE 0 _ (List.getElem?_eq_getElem (by omega))
  rw [ht] at hM
  have d00 : D 0 0 0 = 0 := (hD 0 _ rfl 0 (by norm_num) 0 (by omega)).1 [⟨0⟩] rfl
  have d01 : D 0 0 1 = 0 := (hD 0 _ rfl 1 (by norm_num) 0 (by omega)).1 [⟨0⟩] rfl
  have d10 : D 0 1 0 = 1 := (hD 1 _ rfl 0 (by norm_num) 0 (by omega)).1 [⟨1⟩] rfl
  have d11 : D 0 1 1 = 2 := by
    obtain ⟨x, hx, hx'⟩ := (hD 1 _ rfl 1 (by norm_num) 0 (by omega)).2 rfl
    rw [C121_free ho'] at hx
    simp at hx
    rw [hx', hx]
    have := round53_nat 2 (by norm_num)
    push_cast at this
    exact this
  have e0 := (hM 0 (by omega) 0).2
  have e1 := (hM 0 (by omega) 1).2
  have hx : (L.inv fun a b => M (Fin.natAdd 2 a) (Fin.natAdd 2 b)) = !![⟨3⟩, ⟨-1⟩; ⟨-2⟩, ⟨1⟩] := rfl
  rw [hx] at e0 e1
  have hends : endsOf 2 (D 0) 0 = ![0, 0, 1, 2] := by
    funext c
    fin_cases c
    · exact d00
    · exact d01
    · exact d10
    · exact d11
  rw [hends] at e0 e1
  simp [endError, Spec.residual, Fin.sum_univ_two, monoDeriv, Nat.descFactorial, reach, Fin.natAdd, Fin.castAdd, d10, d11]
    at e0 e1
  norm_num at e0 e1 ⊢
  exact ⟨e0.trans (by norm_num), e1.trans (by norm_num)⟩

end Verif
