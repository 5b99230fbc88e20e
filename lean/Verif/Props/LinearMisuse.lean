import Verif.Proofs.LinearMisuse
import Verif.Props.LinearGetters
import Verif.Props.NonlinearOptimization

/- Theorems: calls of the linear optimiser that it accepts and refuses. -/
namespace Verif

open Spec

set_option linter.unusedSectionVars false

section
variable {K : Type} [Field K] [LinearOrder K] [IsStrictOrderedRing K] {h : ℕ}

/-- **C109.** `setupFromVertices` of any object, whatever was done with it before: it returns if the order is between 0
and N/2 - 1, there is a vertex, there is one time less than vertices, the vertices have the dimension of the object and
all times are positive, and is refused otherwise: by a failing `CHECK`, or by an exception if there is no vertex.
Missing: that what is accepted can be used, see the refutations below. -/
theorem C109_setup_partial (inv : Matrix (Fin h) (Fin h) K → Matrix (Fin h) (Fin h) K) (o : LinOpt h K)
    {vs : List (Vertex K)} (hv : ∀ v ∈ vs, v.WF) (ts : List K) (k : ℤ) (hN : h + h ≤ 22) :
    ((0 ≤ k ∧ k < h ∧ vs ≠ [] ∧ vs.length = ts.length + 1 ∧ (∀ v ∈ vs, Usable h o.dimension v) ∧ ∀ T ∈ ts, 0 < T) →
      ∃ o', o.setupFromVertices inv vs ts k = .ok o' ∧ o'.segmentTimes = ts ∧ o'.dimension = o.dimension ∧
        o'.segments.length = ts.length) ∧
    (¬ (0 ≤ k ∧ k < h ∧ vs ≠ [] ∧ vs.length = ts.length + 1 ∧ (∀ v ∈ vs, Usable h o.dimension v) ∧
        ∀ T ∈ ts, 0 < T) →
      o.setupFromVertices inv vs ts k = .abort ∨ vs = [] ∧ o.setupFromVertices inv vs ts k = .throws) := by
  unfold LinOpt.setupFromVertices
  dsimp only
  by_cases hk : 0 ≤ k ∧ k ≤ (h : ℤ) - 1
  swap
  · refine ⟨fun hc => absurd ⟨hc.1, by omega⟩ hk, fun _ => .inl ?_⟩
    rw [Res.check_of_not hk]
    rfl
  rw [Res.check_of hk, Res.ok_bind]
  by_cases h0 : vs.length = 0
  · rw [if_pos h0]
    rw [List.length_eq_zero_iff] at h0
    exact ⟨fun hc => absurd h0 hc.2.2.1, fun _ => .inr ⟨h0, rfl⟩⟩
  rw [if_neg h0]
  by_cases hc : vs.length = ts.length + 1
  swap
  · refine ⟨fun hc' => absurd hc'.2.2.2.1 hc, fun _ => .inl ?_⟩
    rw [Res.check_of_not hc]
    rfl
  rw [Res.check_of hc, Res.ok_bind]
  by_cases hu : ∀ v ∈ vs, Usable h o.dimension v
  swap
  · refine ⟨fun hc' => absurd hc'.2.2.2.2.1 hu, fun _ => .inl ?_⟩
    rw [mapM_abort]
    · rfl
    · intro v hm
      by_cases huv : Usable h o.dimension v
      · obtain ⟨w, hw, -⟩ := filterVertex_usable (hv v hm) huv
        exact .inl ⟨w, hw⟩
      · exact .inr (filterVertex_refused (hv v hm) huv)
    · push Not at hu
      obtain ⟨v, hm, huv⟩ := hu
      exact ⟨v, hm, filterVertex_refused (hv v hm) huv⟩
  have hf : ∀ v ∈ vs, filterVertex h o.dimension v = .ok (filt h o.dimension v) ∧
      ∀ e ∈ (filt h o.dimension v).constraints, e.2.length = o.dimension := by
    intro v hm
    obtain ⟨w, hw, h1⟩ := filterVertex_usable (hv v hm) (hu v hm)
    unfold filt
    rw [hw]
    exact ⟨rfl, h1⟩
  rw [Res.mapM_ok (g := filt h o.dimension) fun v hm => (hf v hm).1, Res.ok_bind]
  obtain ⟨k, rfl⟩ := Int.eq_ofNat_of_zero_le hk.1
  by_cases hT : ∀ T ∈ ts, 0 < T
  · refine ⟨fun _ => ?_, fun hn => absurd ⟨hk.1, by omega, by rintro rfl; exact h0 rfl, hc, hu, hT⟩ hn⟩
    rw [updateTimes_ok inv _ ts k (by omega) hN rfl (by dsimp only; omega) hT, Res.ok_bind]
    have hret := setupReordering_returns (h := h) (K := K) { o with
      derivative := k, vertices := vs.map (filt h o.dimension), segmentTimes := ts, nVertices := vs.length,
      nSegments := vs.length - 1,
      segments := o.segments.take (vs.length - 1) ++ List.replicate (vs.length - 1 - o.segments.length)
        (Segment.mkZero (h + h) o.dimension),
      cost := ts.map fun T => costMat h k T
      invMapping := ts.map fun T => invertMappingMatrix inv (mapMat h T) } (by
        intro v hm
        obtain ⟨w, hw, rfl⟩ := List.mem_map.mp hm
        exact (hf w hw).2)
    obtain ⟨o', ho'⟩ := hret
    refine ⟨o', ho', ?_⟩
    unfold LinOpt.setupReordering at ho'
    dsimp only at ho'
    rw [Res.bind_eq_ok] at ho'
    obtain ⟨df, -, ho'⟩ := ho'
    rw [Res.pure_eq, Res.ok.injEq] at ho'
    subst ho'
    refine ⟨rfl, rfl, ?_⟩
    simp
    omega
  · refine ⟨fun hc' => absurd hc'.2.2.2.2.2 hT, fun _ => .inl ?_⟩
    push Not at hT
    rw [updateTimes_refused inv _ ts (k := k) (by omega) hN rfl (.inr hT)]
    rfl

/-- **C109.** New segment times of the wrong number, or one that is not positive, are refused by an object that was set
up. -/
theorem C109_times {inv solve} {vs : List (Vertex K)} {k : ℕ} {times : List K} {o : LinOpt h K}
    (hs : Session inv solve vs k times o) (ts : List K) :
    ((ts.length = times.length ∧ ∀ T ∈ ts, 0 < T) → ∃ o', o.updateSegmentTimes inv ts = .ok o') ∧
    (¬ (ts.length = times.length ∧ ∀ T ∈ ts, 0 < T) → o.updateSegmentTimes inv ts = .abort) := by
  obtain ⟨hk, hp, r⟩ := session_ready hs
  have hd := r.deriv
  have hl := r.nSeg
  constructor
  · rintro ⟨h1, h2⟩
    exact ⟨_, updateTimes_ok inv o ts k hk hp.small hd (by rw [h1, hl]) h2⟩
  · intro hn
    refine updateTimes_refused inv o ts hk hp.small hd ?_
    rw [hl]
    by_cases h1 : ts.length = times.length
    · right
      push Not at hn
      exact hn h1
    · exact .inl h1

/-- **C109.** Free derivatives are accepted by an object that was set up exactly if there is one list for each dimension
and each has one value for each free derivative. -/
theorem C109_free {inv solve} {vs : List (Vertex K)} {k : ℕ} {times : List K} {o : LinOpt h K}
    (hs : Session inv solve vs k times o) (free : List (List K)) :
    ((free.length = o.dimension ∧ ∀ v ∈ free, v.length = o.nFree) → ∃ o', o.setFreeConstraints free = .ok o') ∧
    (¬ (free.length = o.dimension ∧ ∀ v ∈ free, v.length = o.nFree) → o.setFreeConstraints free = .abort) := by
  obtain ⟨hk, hp, r⟩ := session_ready hs
  constructor
  · rintro ⟨h1, h2⟩
    unfold LinOpt.setFreeConstraints
    rw [Res.check_of h1, Res.ok_bind, Res.check_of h2, Res.ok_bind]
    exact ⟨_, update_ok (ready_free r free h1) hp.dim_pos h2⟩
  · intro hn
    unfold LinOpt.setFreeConstraints
    by_cases h1 : free.length = o.dimension
    · rw [Res.check_of h1, Res.ok_bind, Res.check_of_not (fun h2 => hn ⟨h1, h2⟩)]
      rfl
    · rw [Res.check_of_not h1]
      rfl

/-- **C109.** An object that was not set up has no constraints and no segments: solving and asking for the trajectory is
refused, the cost is zero. -/
theorem C109_new (solve : (n : ℕ) → Matrix (Fin n) (Fin n) K → (Fin n → K) → Fin n → K) (dim : ℕ) :
    (LinOpt.new dim : LinOpt h K).solveLinear solve = .abort ∧
    (LinOpt.new dim : LinOpt h K).getTrajectory = .abort ∧ (LinOpt.new dim : LinOpt h K).computeCost = .ok 0 ∧
    (LinOpt.new dim : LinOpt h K).nAll = 0 ∧ (LinOpt.new dim : LinOpt h K).nFixed = 0 ∧
    (LinOpt.new dim : LinOpt h K).nFree = 0 ∧ (LinOpt.new dim : LinOpt h K).nVertices = 0 ∧
    (LinOpt.new dim : LinOpt h K).nSegments = 0 ∧ (LinOpt.new dim : LinOpt h K).segmentTimes = [] ∧
    (∀ v ∈ (LinOpt.new dim : LinOpt h K).getFixedConstraints ++ (LinOpt.new dim : LinOpt h K).getFreeConstraints,
      v = []) := by
  refine ⟨?_, rfl, ?_, rfl, rfl, rfl, rfl, rfl, rfl, ?_⟩
  · unfold LinOpt.solveLinear
    rw [Res.check_of_not (by simp [LinOpt.new])]
    rfl
  · unfold LinOpt.computeCost
    rw [Res.check_of (by simp [LinOpt.new])]
    simp [LinOpt.new, Res.ok_bind]
  · intro v hv
    simp only [LinOpt.getFixedConstraints, LinOpt.getFreeConstraints, LinOpt.new, List.mem_append,
      List.mem_replicate] at hv
    tauto

end

/-- Arguments of both kinds. -/
example : (∀ v ∈ (exVertices2 : List (Vertex ℝ)), v.WF) ∧
    (0 ≤ (1 : ℤ) ∧ (1 : ℤ) < (2 : ℕ) ∧ (exVertices2 : List (Vertex ℝ)) ≠ [] ∧
      (exVertices2 : List (Vertex ℝ)).length = [(1 : ℝ), 2].length + 1 ∧
      (∀ v ∈ (exVertices2 : List (Vertex ℝ)), Usable 2 1 v) ∧ ∀ T ∈ [(1 : ℝ), 2], 0 < T) ∧
    ¬ Usable 2 2 (⟨1, [(0, [2])]⟩ : Vertex ℝ) :=
  ⟨fun v hv => (exProblem2.wf v hv).1, ⟨by norm_num, by norm_num, by simp [exVertices2], rfl,
    fun v hv => .inl (exProblem2.wf v hv).2, by simp⟩, by simp [Usable]⟩

theorem isUb_eq {α : Type} {x : Res α} (hx : x.isUb = true) : x = .ub := by
  cases x <;> simp_all [Res.isUb]

/-- **C109 is false** for a single vertex: the setup is accepted, but the matrices of the solution have the wrong sizes if
a derivative is free. Asking for the matrix of the cost multiplies the same matrices. -/
theorem C109_one_vertex_false : ∃ o, (LinOpt.new 1 : LinOpt 1 ℚ).setupFromVertices inv1 [⟨1, []⟩] [] 0 = .ok o ∧
    o.solveLinear solve1 = .ub ∧ o.getR = .ub := by
  have h : ((LinOpt.new 1 : LinOpt 1 ℚ).setupFromVertices inv1 [⟨1, []⟩] [] 0 >>= fun o =>
      .ok ((o.solveLinear solve1).isUb, o.getR.isUb)) = .ok (true, true) := by decide +kernel
  rw [Res.bind_eq_ok] at h
  obtain ⟨o, h1, h⟩ := h
  obtain ⟨h2, h3⟩ := Prod.mk.inj (Res.ok.inj h)
  exact ⟨o, h1, isUb_eq h2, isUb_eq h3⟩

/-- **C109 is false** for dimension zero: everything is accepted, but the segments do not get their times. -/
theorem C109_no_dimension_false : ∃ o o' tr,
    (LinOpt.new 0 : LinOpt 1 ℚ).setupFromVertices inv1 [⟨0, []⟩, ⟨0, []⟩, ⟨0, []⟩] [1, 2] 0 = .ok o ∧
    o.solveLinear solve1 = .ok o' ∧ o'.getTrajectory = .ok tr ∧ o'.segmentTimes = [1, 2] ∧ tr.getSegmentTimes = [0, 0] ∧
    tr.maxTime = 0 := by
  have h : ((LinOpt.new 0 : LinOpt 1 ℚ).setupFromVertices inv1 [⟨0, []⟩, ⟨0, []⟩, ⟨0, []⟩] [1, 2] 0 >>= fun o =>
      o.solveLinear solve1 >>= fun o' => o'.getTrajectory >>= fun tr =>
        .ok (o'.segmentTimes, tr.getSegmentTimes, tr.maxTime)) = .ok ([1, 2], [0, 0], 0) := by decide +kernel
  rw [Res.bind_eq_ok] at h
  obtain ⟨o, h1, h⟩ := h
  rw [Res.bind_eq_ok] at h
  obtain ⟨o', h2, h⟩ := h
  rw [Res.bind_eq_ok] at h
  obtain ⟨tr, h3, h⟩ := h
  simp only [Res.ok.injEq, Prod.mk.injEq] at h
  exact ⟨o, o', tr, h1, h2, h3, h.1, h.2.1, h.2.2⟩

/-- **C109 is false** between `updateSegmentTimes` and the next solution: the cost is computed from the new times and the
old polynomials, it is neither the old nor the new cost. The trajectory is still the old one. -/
theorem C109_stale_false : ∃ o o1 o2 o3 c1 c2 c3, ∃ tr : Trajectory ℚ,
    (LinOpt.new 1 : LinOpt 1 ℚ).setupFromVertices inv1 [⟨1, [(0, [2])]⟩, ⟨1, [(0, [4])]⟩] [1] 0 = .ok o ∧
    o.solveLinear solve1 = .ok o1 ∧ o1.computeCost = .ok c1 ∧ o1.updateSegmentTimes inv1 [2] = .ok o2 ∧
    o2.computeCost = .ok c2 ∧ o2.segmentTimes = [2] ∧ o2.getTrajectory = .ok tr ∧ tr.getSegmentTimes = [1] ∧
    o2.solveLinear solve1 = .ok o3 ∧ o3.computeCost = .ok c3 ∧ c2 ≠ c1 ∧ c2 ≠ c3 := by
  have h : ((LinOpt.new 1 : LinOpt 1 ℚ).setupFromVertices inv1 [⟨1, [(0, [2])]⟩, ⟨1, [(0, [4])]⟩] [1] 0 >>= fun o =>
      o.solveLinear solve1 >>= fun o1 => o1.computeCost >>= fun c1 => o1.updateSegmentTimes inv1 [2] >>= fun o2 =>
      o2.computeCost >>= fun c2 => o2.getTrajectory >>= fun tr => o2.solveLinear solve1 >>= fun o3 =>
      o3.computeCost >>= fun c3 =>
        .ok (o2.segmentTimes, tr.getSegmentTimes, decide (c2 ≠ c1 ∧ c2 ≠ c3))) = .ok ([2], [1], true) := by
    decide +kernel
  rw [Res.bind_eq_ok] at h
  obtain ⟨o, h1, h⟩ := h
  rw [Res.bind_eq_ok] at h
  obtain ⟨o1, h2, h⟩ := h
  rw [Res.bind_eq_ok] at h
  obtain ⟨c1, h3, h⟩ := h
  rw [Res.bind_eq_ok] at h
  obtain ⟨o2, h4, h⟩ := h
  rw [Res.bind_eq_ok] at h
  obtain ⟨c2, h5, h⟩ := h
  rw [Res.bind_eq_ok] at h
  obtain ⟨tr, h6, h⟩ := h
  rw [Res.bind_eq_ok] at h
  obtain ⟨o3, h7, h⟩ := h
  rw [Res.bind_eq_ok] at h
  obtain ⟨c3, h8, h⟩ := h
  simp only [Res.ok.injEq, Prod.mk.injEq, decide_eq_true_eq] at h
  exact ⟨o, o1, o2, o3, c1, c2, c3, tr, h1, h2, h3, h4, h5, h.1, h6, h.2.1, h7, h8, h.2.2.1, h.2.2.2⟩

end Verif
