import Verif.Props.Times
import Verif.Props.Vertex
import Verif.Props.Trajectory

/-
Properties C20, C25 and C27, continued: trajectories without segments, and vertices without a position.
-/
namespace Verif

open Spec

theorem mapM_some_ub {α β : Type} (f : α → Res β) (l : List α) (h : ∀ a ∈ l, (∃ b, f a = .ok b) ∨ f a = .ub)
    (a : α) (ha : a ∈ l) (hu : f a = .ub) : l.mapM f = .ub := by
  induction l with
  | nil => simp at ha
  | cons x l ih =>
    rw [List.mapM_cons]
    rcases h x (by simp) with ⟨b, hb⟩ | hb
    · rw [hb, Res.ok_bind]
      rcases List.mem_cons.mp ha with rfl | ha'
      · rw [hu] at hb; cases hb
      · rw [ih (fun a ha => h a (by simp [ha])) ha']
        rfl
    · rw [hb]
      rfl

theorem vecSub_or (a b : List ℝ) :
    (∃ c, vecSub a b = .ok c) ∨ vecSub a b = .ub := by
  unfold vecSub
  split
  · exact .inl ⟨_, rfl⟩
  · exact .inr rfl

theorem ramp_or (a b : List ℝ) (vMax aMax : ℝ) :
    (∃ c, computeTimeVelocityRamp Real.sqrt a b vMax aMax = .ok c) ∨
      computeTimeVelocityRamp Real.sqrt a b vMax aMax = .ub := by
  unfold computeTimeVelocityRamp
  rcases vecSub_or a b with ⟨c, h⟩ | h
  · rw [h, Res.ok_bind]
    dsimp only
    split
    · exact .inl ⟨_, rfl⟩
    · exact .inl ⟨_, rfl⟩
  · rw [h]
    exact .inr rfl

theorem zip_tail_mem {α : Type} (l : List α) (i : ℕ) (h : i + 1 < l.length) :
    (l[i]'(by omega), l[i + 1]) ∈ l.zip l.tail := by
  rw [List.mem_iff_getElem]
  refine ⟨i, by simp; omega, ?_⟩
  simp

/-- **C25 is false for vertices without a position.** If of two consecutive vertices only one has a position, vectors of
different sizes are subtracted: undefined behaviour. -/
theorem C25_no_position_false (vs : List (Vertex ℝ)) (i : ℕ) (hi : i + 1 < vs.length) (c : List ℝ) (hc : c ≠ [])
    (h : (vs[i].getConstraint 0 = none ∧ vs[i + 1].getConstraint 0 = some c) ∨
      (vs[i].getConstraint 0 = some c ∧ vs[i + 1].getConstraint 0 = none)) (vMax aMax tf : ℝ) :
    estimateSegmentTimesVelocityRamp Real.sqrt vs vMax aMax tf = .ub := by
  have hl : vs[i].position.length ≠ vs[i + 1].position.length := by
    have := List.length_pos_of_ne_nil hc
    rcases h with ⟨h1, h2⟩ | ⟨h1, h2⟩ <;> simp [Vertex.position, h1, h2] <;> omega
  unfold estimateSegmentTimesVelocityRamp
  rw [Res.check_of (by omega), Res.ok_bind]
  refine mapM_some_ub _ _ ?_ (vs[i], vs[i + 1]) (zip_tail_mem vs i hi) ?_
  · intro p _
    rcases ramp_or p.1.position p.2.position vMax aMax with ⟨c, h⟩ | h
    · exact .inl ⟨_, by rw [h, Res.ok_bind]; rfl⟩
    · exact .inr (by rw [h]; rfl)
  · unfold computeTimeVelocityRamp vecSub
    rw [if_neg hl]
    rfl

/-- **C27 is false for vertices without a position,** for the same reason. -/
theorem C27_no_position_false (vs : List (Vertex ℝ)) (i : ℕ) (hi : i + 1 < vs.length) (c : List ℝ) (hc : c ≠ [])
    (h : (vs[i].getConstraint 0 = none ∧ vs[i + 1].getConstraint 0 = some c) ∨
      (vs[i].getConstraint 0 = some c ∧ vs[i + 1].getConstraint 0 = none)) (vMax aMax magic : ℝ) :
    estimateSegmentTimesNfabian Real.sqrt Real.exp vs vMax aMax magic = .ub := by
  have hl : vs[i + 1].position.length ≠ vs[i].position.length := by
    have := List.length_pos_of_ne_nil hc
    rcases h with ⟨h1, h2⟩ | ⟨h1, h2⟩ <;> simp [Vertex.position, h1, h2] <;> omega
  unfold estimateSegmentTimesNfabian
  rw [Res.check_of (by omega), Res.ok_bind]
  refine mapM_some_ub _ _ ?_ (vs[i], vs[i + 1]) (zip_tail_mem vs i hi) ?_
  · intro p _
    rcases vecSub_or p.2.position p.1.position with ⟨c, h⟩ | h
    · exact .inl ⟨_, by rw [h, Res.ok_bind]; rfl⟩
    · exact .inr (by rw [h]; rfl)
  · unfold vecSub
    rw [if_neg hl]
    rfl

/-- Start and goal with a position, and a vertex between them that only prescribes a velocity. -/
example (vMax aMax : ℝ) :
    estimateSegmentTimesVelocityRamp Real.sqrt [⟨1, [(0, [0])]⟩, ⟨1, [(1, [2])]⟩, ⟨1, [(0, [5])]⟩] vMax aMax 1 = .ub ∧
    estimateSegmentTimesNfabian Real.sqrt Real.exp [⟨1, [(0, [0])]⟩, ⟨1, [(1, [2])]⟩, ⟨1, [(0, [5])]⟩] vMax aMax 6.5 =
      .ub :=
  ⟨C25_no_position_false _ 0 (by simp) [0] (by simp) (.inr ⟨rfl, rfl⟩) _ _ _,
    C27_no_position_false _ 0 (by simp) [0] (by simp) (.inr ⟨rfl, rfl⟩) _ _ _⟩

/-- **C20.** The start and the goal vertex are the first and the last vertex: those at time zero and at the duration of the
trajectory. -/
theorem C20_start_goal (tr : Trajectory ℝ) (h : tr.WF) (hne : tr.segments ≠ []) (m : ℕ) :
    ∃ vs v w, tr.getVertices m = .ok (true, vs) ∧ tr.getStartVertex m = .ok v ∧ tr.getGoalVertex m = .ok w ∧
      vs.head? = some v ∧ vs.getLast? = some w ∧
      ∀ k : ℕ, k ≤ m → ∃ a b, tr.evaluate 0 k = .ok a ∧ tr.evaluate tr.maxTime k = .ok b ∧
        v.getConstraint k = some a ∧ w.getConstraint k = some b := by
  obtain ⟨vs, h1, h2, h3⟩ := C20_vertices tr h hne m
  obtain ⟨v, g1, -, -, g4⟩ := C20_vertexAtTime tr h hne 0 m
  obtain ⟨w, e1, -, -, e4⟩ := C20_vertexAtTime tr h hne tr.maxTime m
  have hs := h3 0 (by omega)
  have hg := h3 tr.segments.length (by omega)
  have z : startTime tr.getSegmentTimes 0 = 0 := by simp [startTime]
  have z' : startTime tr.getSegmentTimes tr.segments.length = tr.maxTime := by
    rw [h.total, startTime, List.take_of_length_le (by simp [Trajectory.getSegmentTimes])]
  rw [z, g1] at hs
  rw [z', e1] at hg
  refine ⟨vs, v, w, h1, g1, e1, ?_, ?_, fun k hk => ?_⟩
  · rw [List.head?_eq_getElem?, List.getElem?_eq_getElem (by omega)]
    exact congrArg some (Res.ok.inj hs).symm
  · rw [List.getLast?_eq_getElem?, h2, Nat.add_sub_cancel, List.getElem?_eq_getElem (by omega)]
    exact congrArg some (Res.ok.inj hg).symm
  · obtain ⟨a, a1, a2⟩ := g4 k hk
    obtain ⟨b, b1, b2⟩ := e4 k hk
    exact ⟨a, b, a1, b1, a2, b2⟩

/-- Position and velocity at the two ends of the sample trajectory (`exTrR`, two segments). -/
example : ∃ vs v w, exTrR.getVertices (1 : ℕ) = .ok (true, vs) ∧ exTrR.getStartVertex (1 : ℕ) = .ok v ∧
    exTrR.getGoalVertex (1 : ℕ) = .ok w ∧ vs.head? = some v ∧ vs.getLast? = some w :=
  let ⟨vs, v, w, h1, h2, h3, h4, h5, _⟩ := C20_start_goal exTrR exTrR_wf (by simp [exTrR]) 1
  ⟨vs, v, w, h1, h2, h3, h4, h5⟩

/-- **C20** does not extend to trajectories without segments, nor to negative maximal orders. -/
theorem C20_unusable (tr : Trajectory ℝ) (m : ℕ) (m' : ℤ) (hm : m' < 0) (t : ℝ) :
    (Trajectory.empty : Trajectory ℝ).getVertices m = .ub ∧ (Trajectory.empty : Trajectory ℝ).getStartVertex m = .ub ∧
    (Trajectory.empty : Trajectory ℝ).getGoalVertex m = .ub ∧
    tr.getVertexAtTime t m' = .hang := by
  have e : (Trajectory.empty : Trajectory ℝ).getVertexAtTime 0 m = .ub := by
    unfold Trajectory.getVertexAtTime vertexAtTimeLoop
    rw [if_neg (by omega)]
    simp only [Int.toNat_natCast, (C21_empty_false 0 _).1 le_rfl]
    rfl
  refine ⟨?_, e, e, ?_⟩
  · unfold Trajectory.getVertices Trajectory.getStartVertex
    rw [e]
    rfl
  · unfold Trajectory.getVertexAtTime
    rw [if_pos hm]

end Verif
