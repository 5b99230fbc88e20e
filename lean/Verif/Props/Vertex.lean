import Verif.Proofs.VertexMore
import Verif.Props.Trajectory
import Mathlib.Data.Set.Card

/-
Properties C20 and C22 - C24: class `Vertex` and the vertices of a trajectory.

`Spec.VertexOp` lists the calls changing a vertex and `Spec.VertexOp.effect` what each is supposed to
do to a mathematical map from derivative orders to values.
-/
namespace Verif

open Spec

variable {K : Type}

/-! ### C22 vertices are maps -/

/-- **C22.** After any history of calls that returns, the vertex behaves as the map obtained by
performing the updates: `getConstraint`, `hasConstraint`, the flag of `removeConstraint`, the number
of constraints and the dimension. -/
theorem C22_history [Zero K] (D : ℕ) (ops : List (VertexOp K)) (v : Vertex K)
    (h : ops.foldlM VertexOp.run (Vertex.new D) = .ok v) :
    v.D = D ∧
    (∀ k, v.getConstraint k = ops.foldl (VertexOp.effect D) (fun _ => none) k) ∧
    (∀ k, v.hasConstraint k = (ops.foldl (VertexOp.effect D) (fun _ => none) k).isSome) ∧
    (∀ k, (v.removeConstraint k).1 = (ops.foldl (VertexOp.effect D) (fun _ => none) k).isSome) ∧
    v.numberOfConstraints =
      {k | (ops.foldl (VertexOp.effect D) (fun _ => none) k).isSome}.ncard := by
  have main : ∀ (ops : List (VertexOp K)) (v0 : Vertex K), v0.WF → v0.D = D →
      ops.foldlM VertexOp.run v0 = .ok v →
      v.D = D ∧ v.WF ∧ v.getConstraint = ops.foldl (VertexOp.effect D) v0.getConstraint := by
    intro ops
    induction ops with
    | nil =>
      intro v0 h0 hD hr
      simp only [List.foldlM_nil, Res.pure_eq, Res.ok.injEq] at hr
      subst hr
      exact ⟨hD, h0, rfl⟩
    | cons op ops ih =>
      intro v0 h0 hD hr
      rw [List.foldlM_cons, Res.bind_eq_ok] at hr
      obtain ⟨v1, h1, h2⟩ := hr
      obtain ⟨g1, g2⟩ := vertexOp_run v0 h0 op
      by_cases hf : op.Fits v0.D
      · obtain ⟨v', e1, e2, e3, e4⟩ := g1 hf
        rw [e1, Res.ok.injEq] at h1
        subst h1
        obtain ⟨k1, k2, k3⟩ := ih v' e3 (e2.trans hD) h2
        refine ⟨k1, k2, ?_⟩
        rw [k3, List.foldl_cons, e4, hD]
      · rw [g2 hf] at h1; simp at h1
  obtain ⟨h1, h2, h3⟩ := main ops (Vertex.new D) (vertex_new_WF D) rfl h
  have h3' : ∀ k, v.getConstraint k = ops.foldl (VertexOp.effect D) (fun _ => none) k := by
    intro k; rw [h3]; rfl
  have h4 : ∀ k, (mapFind k v.constraints).isSome =
      (ops.foldl (VertexOp.effect D) (fun _ => none) k).isSome := by
    intro k; rw [← h3' k]; rfl
  refine ⟨h1, h3', h4, ?_, ?_⟩
  · intro k
    rw [← h4 k]
    unfold Vertex.removeConstraint
    cases mapFind k v.constraints <;> rfl
  · have hset : {k | (ops.foldl (VertexOp.effect D) (fun _ => none) k).isSome} =
        ((v.constraints.map Prod.fst).toFinset : Set ℤ) := by
      ext k
      simp only [Set.mem_setOf_eq, ← h4 k, mapFind_isSome]
      simp
    rw [hset, Set.ncard_coe_finset, List.toFinset_card_of_nodup (h2.sorted.imp fun h => ne_of_lt h)]
    simp [Vertex.numberOfConstraints]

/-- **C22.** A history returns if every vector passed has the dimension of the vertex, and otherwise
aborts. -/
theorem C22_abort [Zero K] (D : ℕ) (ops : List (VertexOp K)) :
    ((∀ op ∈ ops, op.Fits D) → ∃ v, ops.foldlM VertexOp.run (Vertex.new D) = .ok v) ∧
    ((∃ op ∈ ops, ¬ op.Fits D) → ops.foldlM VertexOp.run (Vertex.new D) = .abort) := by
  have main : ∀ (ops : List (VertexOp K)) (v0 : Vertex K), v0.WF → v0.D = D →
      ((∀ op ∈ ops, op.Fits D) → ∃ v, ops.foldlM VertexOp.run v0 = .ok v) ∧
      ((∃ op ∈ ops, ¬ op.Fits D) → ops.foldlM VertexOp.run v0 = .abort) := by
    intro ops
    induction ops with
    | nil => intro v0 _ _; exact ⟨fun _ => ⟨v0, rfl⟩, by simp⟩
    | cons op ops ih =>
      intro v0 h0 hD
      obtain ⟨g1, g2⟩ := vertexOp_run v0 h0 op
      rw [hD] at g1 g2
      rw [List.foldlM_cons]
      by_cases hf : op.Fits D
      · obtain ⟨v', e1, e2, e3, -⟩ := g1 hf
        rw [e1, Res.ok_bind]
        obtain ⟨k1, k2⟩ := ih v' e3 e2
        refine ⟨fun h => k1 (fun o ho => h o (by simp [ho])), ?_⟩
        rintro ⟨o, ho, hn⟩
        rcases List.mem_cons.mp ho with rfl | ho
        · exact absurd hf hn
        · exact k2 ⟨o, ho, hn⟩
      · rw [g2 hf]
        exact ⟨fun h => absurd (h op (by simp)) hf, fun _ => rfl⟩
  exact main ops _ (vertex_new_WF D) rfl

example : ([.makeStartOrEnd [1, 2] 2, .add 5 [7, 8], .remove 1, .addConst 2 9] :
    List (VertexOp ℚ)).foldlM VertexOp.run (Vertex.new 2) =
    .ok ⟨2, [(0, [1, 2]), (2, [9, 9]), (5, [7, 8])]⟩ := by decide +kernel
example : ¬ (VertexOp.add 3 [1, 2] : VertexOp ℚ).Fits 3 := by simp [VertexOp.Fits]

/-! ### C23 isEqualTol -/

/-- **C23 (partial: both vertices of the same dimension).** `isEqualTol` returns true exactly when the
same orders are constrained and all entries differ by at most `tol`. Missing: different dimensions,
where the claim is false, see `C23_dimension_false` and `C23_dimension_ub_false`. -/
theorem C23_meaning_partial [Field K] [LinearOrder K] [IsStrictOrderedRing K] (v w : Vertex K)
    (hv : v.WF) (hw : w.WF) (hD : v.D = w.D) (tol : K) :
    ∃ b, v.isEqualTol w tol = .ok b ∧
      (b = true ↔ ∀ k, (v.getConstraint k = none ∧ w.getConstraint k = none) ∨
        ∃ c c', v.getConstraint k = some c ∧ w.getConstraint k = some c' ∧
          ∀ i < v.D, |c.getD i 0 - c'.getD i 0| ≤ tol) :=
  isEqualTol_ok v w hv hw hD tol

/-- **C23.** Reflexive for nonnegative tolerances. -/
theorem C23_reflexive [Field K] [LinearOrder K] [IsStrictOrderedRing K] (v : Vertex K) (hv : v.WF)
    (tol : K) (ht : 0 ≤ tol) : v.isEqualTol v tol = .ok true := by
  obtain ⟨b, h1, h2⟩ := isEqualTol_ok v v hv hv rfl tol
  have : b = true := by
    rw [h2]
    intro k
    cases hk : v.getConstraint k with
    | none => exact Or.inl ⟨rfl, rfl⟩
    | some c => exact Or.inr ⟨c, c, rfl, rfl, fun i _ => by simpa using ht⟩
  rw [h1, this]

/-- **C23.** Symmetric. -/
theorem C23_symmetric [Field K] [LinearOrder K] [IsStrictOrderedRing K] (v w : Vertex K)
    (hv : v.WF) (hw : w.WF) (hD : v.D = w.D) (tol : K) :
    v.isEqualTol w tol = w.isEqualTol v tol := by
  obtain ⟨b, h1, h2⟩ := isEqualTol_ok v w hv hw hD tol
  obtain ⟨b', h1', h2'⟩ := isEqualTol_ok w v hw hv hD.symm tol
  rw [h1, h1', Res.ok.injEq, Bool.eq_iff_iff, h2, h2']
  refine forall_congr' fun k => or_congr (and_comm) ?_
  constructor
  · rintro ⟨c, c', a1, a2, a3⟩
    exact ⟨c', c, a2, a1, fun i hi => by rw [abs_sub_comm]; exact a3 i (by omega)⟩
  · rintro ⟨c, c', a1, a2, a3⟩
    exact ⟨c', c, a2, a1, fun i hi => by rw [abs_sub_comm]; exact a3 i (by omega)⟩

/-- **C23.** Monotone in the tolerance. -/
theorem C23_monotone [Field K] [LinearOrder K] [IsStrictOrderedRing K] (v w : Vertex K)
    (hv : v.WF) (hw : w.WF) (hD : v.D = w.D) (tol tol' : K) (ht : tol ≤ tol')
    (h : v.isEqualTol w tol = .ok true) : v.isEqualTol w tol' = .ok true := by
  obtain ⟨b, h1, h2⟩ := isEqualTol_ok v w hv hw hD tol
  obtain ⟨b', h1', h2'⟩ := isEqualTol_ok v w hv hw hD tol'
  rw [h1, Res.ok.injEq] at h
  rw [h1', Res.ok.injEq, h2']
  intro k
  rcases h2.mp h k with g | ⟨c, c', a1, a2, a3⟩
  · exact Or.inl g
  · exact Or.inr ⟨c, c', a1, a2, fun i hi => le_trans (a3 i hi) ht⟩

/-- **C23 is false for different dimensions.** Vertices without constraints are equal whatever their
dimensions. -/
theorem C23_dimension_false [Field K] [LinearOrder K] (D D' : ℕ) (tol : K) :
    (Vertex.new D : Vertex K).isEqualTol (Vertex.new D') tol = .ok true := rfl

/-- **C23 is false for different dimensions.** With a common constraint of different size the vectors
are subtracted all the same: undefined behaviour. -/
theorem C23_dimension_ub_false [Field K] [LinearOrder K] (c c' : List K) (h : c.length ≠ c'.length)
    (k : ℤ) (tol : K) :
    (⟨c.length, [(k, c)]⟩ : Vertex K).isEqualTol ⟨c'.length, [(k, c')]⟩ tol = .ub := by
  simp [Vertex.isEqualTol, isEqualTolLoop, mapFind, vecSub, h]

/-- Two vertices for the examples. -/
def exVertex : Vertex ℚ := ⟨2, [(0, [1, 2]), (1, [0, 0])]⟩

theorem exVertex_wf : exVertex.WF := ⟨by decide, by decide⟩

example : exVertex.WF ∧ (⟨2, [(0, [1, 21/10]), (1, [0, 0])]⟩ : Vertex ℚ).WF :=
  ⟨exVertex_wf, by decide, by decide⟩
example : exVertex.isEqualTol ⟨2, [(0, [1, 21/10]), (1, [0, 0])]⟩ (1/10) = .ok true ∧
    exVertex.isEqualTol ⟨2, [(0, [1, 21/10]), (1, [0, 0])]⟩ (1/11) = .ok false := by decide +kernel
example : ([1] : List ℚ).length ≠ ([1, 2] : List ℚ).length := by decide

/-! ### C24 getSubdimension -/

/-- **C24.** If a requested dimension does not exist, `getSubdimension` returns false with an empty
vertex; otherwise it returns true and a vertex whose constraints are those of order at most `m`, each
with the selected entries in the selected order. -/
theorem C24_projection [Inhabited K] (v : Vertex K) (hv : v.WF) (dims : List ℕ) (m : ℤ) :
    ((∃ d ∈ dims, v.D ≤ d) → v.getSubdimension dims m = .ok (false, ⟨dims.length, []⟩)) ∧
    ((∀ d ∈ dims, d < v.D) → ∃ w, v.getSubdimension dims m = .ok (true, w) ∧ w.D = dims.length ∧
      ∀ k, (m < k ∨ v.getConstraint k = none → w.getConstraint k = none) ∧
        ∀ c, k ≤ m → v.getConstraint k = some c → ∃ c', w.getConstraint k = some c' ∧
          c'.length = dims.length ∧ ∀ i (hi : i < dims.length), c'[i]? = c[dims[i]]? ∧ dims[i] < c.length) := by
  refine ⟨fun h => getSubdimension_fail v dims m h, fun h => ?_⟩
  obtain ⟨w, h1, h2, h3, h4⟩ := getSubdimension_ok v hv dims m h
  refine ⟨w, h1, h2, fun k => ⟨?_, ?_⟩⟩
  · rintro (hk | hk)
    · rw [h4 k, if_neg (by omega)]
    · rw [h4 k, hk]; simp
  · intro c hk hc
    refine ⟨pick dims c, ?_, by simp [pick], ?_⟩
    · rw [h4 k, if_pos hk, hc]; rfl
    · intro i hi
      have hlt : dims[i] < c.length := by
        rw [hv.dims _ (mapFind_mem hc)]; exact h _ (List.getElem_mem hi)
      exact ⟨by simp [pick, hi, List.getD_eq_getElem?_getD, hlt], hlt⟩

example : exVertex.getSubdimension [1, 0, 1] 0 = .ok (true, ⟨3, [(0, [2, 1, 2])]⟩) ∧
    exVertex.getSubdimension [2] 0 = .ok (false, ⟨1, []⟩) := by decide +kernel

/-! ### C20 vertices of a trajectory -/

/-- **C20.** `getVertexAtTime(t, m)` has exactly the constraints `0..m`, and each is what `evaluate`
returns at `t`. -/
theorem C20_vertexAtTime (tr : Trajectory ℝ) (h : tr.WF) (hne : tr.segments ≠ []) (t : ℝ) (m : ℕ) :
    ∃ w, tr.getVertexAtTime t m = .ok w ∧ w.D = tr.D ∧
      (∀ q, w.hasConstraint q = true ↔ 0 ≤ q ∧ q ≤ m) ∧
      ∀ k : ℕ, k ≤ m → ∃ c, tr.evaluate t k = .ok c ∧ w.getConstraint k = some c := by
  choose f hf hlen using fun k => C21_evaluate_partial tr h hne t k
  obtain ⟨w, h1, h2, h3, h4⟩ := getVertexAtTime_ok tr t f hf hlen m
  refine ⟨w, h1, h2, ?_, ?_⟩
  · intro q
    have : w.hasConstraint q = (w.getConstraint q).isSome := rfl
    rw [this, h4 q]
    by_cases hq : 0 ≤ q ∧ q ≤ (m : ℤ) <;> simp [hq]
  · intro k hk
    refine ⟨f k, hf k, ?_⟩
    rw [h4 k, if_pos (by omega)]
    simp

/-- **C20.** `getVertices(m)` returns one vertex for the start of every segment and one for the end. -/
theorem C20_vertices (tr : Trajectory ℝ) (h : tr.WF) (hne : tr.segments ≠ []) (m : ℕ) :
    ∃ vs, tr.getVertices m = .ok (true, vs) ∧ vs.length = tr.segments.length + 1 ∧
      ∀ j (hj : j < vs.length), tr.getVertexAtTime (startTime tr.getSegmentTimes j) m = .ok vs[j] := by
  have hv : ∀ t, ∃ w, tr.getVertexAtTime t m = .ok w := by
    intro t
    obtain ⟨w, h1, -⟩ := C20_vertexAtTime tr h hne t m
    exact ⟨w, h1⟩
  obtain ⟨v0, h0⟩ := hv 0
  obtain ⟨vs, h1, h2, h3⟩ := verticesLoop_ok tr m hv tr.segments 0
  refine ⟨v0 :: vs, ?_, by simp [h2], ?_⟩
  · unfold Trajectory.getVertices Trajectory.getStartVertex
    rw [h0, Res.ok_bind, h1]; rfl
  · intro j hj
    cases j with
    | zero => simpa [startTime] using h0
    | succ j =>
      have := h3 j (by simpa using hj)
      simpa [Trajectory.getSegmentTimes] using this

/-- **C20.** With at least four dimensions the position/yaw form returns, for the start of every
segment and the end, the dimensions 0..2 and the dimension 3 of the values there, up to the
respective orders. -/
theorem C20_position_yaw (tr : Trajectory ℝ) (h : tr.WF) (hne : tr.segments ≠ []) (hD : 4 ≤ tr.D)
    (mPos mYaw : ℤ) (hm : 0 ≤ max mPos mYaw) :
    ∃ ps ys, tr.getPosYawVertices mPos mYaw = .ok (some (ps, ys)) ∧
      ps.length = tr.segments.length + 1 ∧ ys.length = tr.segments.length + 1 ∧
      ∀ j (h1 : j < ps.length) (h2 : j < ys.length), ps[j].D = 3 ∧ ys[j].D = 1 ∧
        (∀ q : ℤ, ps[j].hasConstraint q = true ↔ 0 ≤ q ∧ q ≤ mPos) ∧
        (∀ q : ℤ, ys[j].hasConstraint q = true ↔ 0 ≤ q ∧ q ≤ mYaw) ∧
        ∀ k : ℕ, ∃ c, tr.evaluate (startTime tr.getSegmentTimes j) k = .ok c ∧
          (k ≤ mPos → ps[j].getConstraint k = some (c.take 3)) ∧
          (k ≤ mYaw → ys[j].getConstraint k = some ((c.drop 3).take 1)) := by
  obtain ⟨m, hmm⟩ := Int.eq_ofNat_of_zero_le hm
  let P : ℝ → Vertex ℝ × Vertex ℝ → Prop := fun t py => py.1.D = 3 ∧ py.2.D = 1 ∧
        (∀ q : ℤ, py.1.hasConstraint q = true ↔ 0 ≤ q ∧ q ≤ mPos) ∧
        (∀ q : ℤ, py.2.hasConstraint q = true ↔ 0 ≤ q ∧ q ≤ mYaw) ∧
        ∀ k : ℕ, ∃ c, tr.evaluate t k = .ok c ∧
          (k ≤ mPos → py.1.getConstraint k = some (c.take 3)) ∧
          (k ≤ mYaw → py.2.getConstraint k = some ((c.drop 3).take 1))
  have hv : ∀ t, ∃ w py, tr.getVertexAtTime t (max mPos mYaw) = .ok w ∧
      splitVertex w mPos mYaw = .ok (some py) ∧ P t py := by
    intro t
    choose f hf hlen using fun k => C21_evaluate_partial tr h hne t k
    obtain ⟨w, h1, h2, h3, h4⟩ := getVertexAtTime_ok tr t f hf hlen m
    obtain ⟨p, y, k1, k2, k3, _, _, k4⟩ := splitVertex_ok w h3 (by omega) mPos mYaw
    refine ⟨w, (p, y), by rw [hmm]; exact h1, k1, k2, k3, ?_, ?_, ?_⟩
    · intro q
      have e : p.hasConstraint q = (p.getConstraint q).isSome := rfl
      show p.hasConstraint q = true ↔ _
      rw [e, (k4 q).1, h4 q]
      by_cases hq : q ≤ mPos
      · by_cases hq0 : 0 ≤ q
        · simp [hq, hq0, show q ≤ (m : ℤ) by have := le_max_left mPos mYaw; omega]
        · simp [hq0]
      · simp [hq]
    · intro q
      have e : y.hasConstraint q = (y.getConstraint q).isSome := rfl
      show y.hasConstraint q = true ↔ _
      rw [e, (k4 q).2, h4 q]
      by_cases hq : q ≤ mYaw
      · by_cases hq0 : 0 ≤ q
        · simp [hq, hq0, show q ≤ (m : ℤ) by have := le_max_right mPos mYaw; omega]
        · simp [hq0]
      · simp [hq]
    · intro k
      have hl : 4 ≤ (f k).length := by rw [hlen]; exact hD
      refine ⟨f k, hf k, fun hk => ?_, fun hk => ?_⟩
      · show p.getConstraint k = _
        have := le_max_left mPos mYaw
        rw [(k4 k).1, if_pos hk, h4 k, if_pos (by omega)]
        match hfk : f k, hl with
        | a :: b :: c :: d :: l, _ => simp [pick, hfk]
      · show y.getConstraint k = _
        have := le_max_right mPos mYaw
        rw [(k4 k).2, if_pos hk, h4 k, if_pos (by omega)]
        match hfk : f k, hl with
        | a :: b :: c :: d :: l, _ => simp [pick, hfk]
  obtain ⟨w0, py0, a1, a2, a3⟩ := hv 0
  obtain ⟨vs, b1, b2, b3⟩ := splitVerticesLoop_ok tr mPos mYaw P hv tr.segments 0
  have hP : ∀ j (hj : j < (py0 :: vs).length), P (startTime tr.getSegmentTimes j) (py0 :: vs)[j] := by
    intro j hj
    cases j with
    | zero => simpa [startTime] using a3
    | succ j =>
      have := b3 j (by simpa using hj)
      simpa [Trajectory.getSegmentTimes] using this
  refine ⟨(py0 :: vs).unzip.1, (py0 :: vs).unzip.2, ?_, by simp [b2], by simp [b2], ?_⟩
  · unfold Trajectory.getPosYawVertices Trajectory.getStartVertex
    rw [a1, Res.ok_bind, a2, Res.ok_bind]
    simp only
    rw [b1]; rfl
  · intro j h1 h2
    have := hP j (by simpa using h1)
    have e1 : (py0 :: vs).unzip.1[j] = ((py0 :: vs)[j]'(by simpa using h1)).1 := by
      simp only [List.unzip_eq_map, List.getElem_map]
    have e2 : (py0 :: vs).unzip.2[j] = ((py0 :: vs)[j]'(by simpa using h1)).2 := by
      simp only [List.unzip_eq_map, List.getElem_map]
    rw [e1, e2]
    exact this

/-- **C20.** With fewer than four dimensions the position/yaw form returns false. -/
theorem C20_rejected (tr : Trajectory ℝ) (h : tr.WF) (hne : tr.segments ≠ []) (hD : tr.D < 4)
    (mPos mYaw : ℤ) (hm : 0 ≤ max mPos mYaw) : tr.getPosYawVertices mPos mYaw = .ok none := by
  obtain ⟨m, hmm⟩ := Int.eq_ofNat_of_zero_le hm
  choose f hf hlen using fun k => C21_evaluate_partial tr h hne 0 k
  obtain ⟨w, h1, h2, h3, h4⟩ := getVertexAtTime_ok tr 0 f hf hlen m
  unfold Trajectory.getPosYawVertices Trajectory.getStartVertex
  rw [hmm, show ((m : ℕ) : ℤ) = (m : ℤ) from rfl]
  rw [h1, Res.ok_bind, splitVertex_fail w h3 (by omega)]
  rfl

example : exTr.getVertexAtTime 1 1 = .ok ⟨2, [(0, [1, 2]), (1, [1, 2])]⟩ := by decide +kernel
example : exTr.getVertices 0 = .ok (true, [⟨2, [(0, [0, 1])]⟩, ⟨2, [(0, [2, 5])]⟩, ⟨2, [(0, [3, 9])]⟩]) := by
  decide +kernel
example : exTrR.WF ∧ exTrR.segments ≠ [] ∧ exTrR.D < 4 := ⟨exTrR_wf, by simp [exTrR], by simp [exTrR]⟩
example : (⟨4, 2, 1, [⟨[⟨[0, 1]⟩, ⟨[1, 0]⟩, ⟨[2, 0]⟩, ⟨[0, 2]⟩], 1, 2⟩]⟩ : Trajectory ℚ).getPosYawVertices 1 0 =
    .ok (some ([⟨3, [(0, [0, 1, 2]), (1, [1, 0, 0])]⟩, ⟨3, [(0, [1, 1, 2]), (1, [1, 0, 0])]⟩],
      [⟨1, [(0, [0])]⟩, ⟨1, [(0, [2])]⟩])) := by decide +kernel

end Verif
