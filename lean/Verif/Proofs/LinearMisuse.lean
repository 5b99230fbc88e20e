import Verif.Props.LinearOptimization
import Verif.Spec.LinearMisuse

/- Helper lemmas: calls of the linear optimiser that it accepts and refuses. -/
namespace Verif

open Spec

set_option linter.unusedSectionVars false

section
variable {K : Type} [Field K] [LinearOrder K] [IsStrictOrderedRing K] {h : ℕ}

theorem allConstraints_true (dim n : ℕ) (vs : List (Vertex K)) (idx : ℕ) {x : Constr K}
    (hx : (true, x) ∈ allConstraints h dim n vs idx) : ∃ v ∈ vs, ∃ m : ℕ, v.getConstraint (m : ℕ) = some x.value := by
  induction vs generalizing idx with
  | nil => simp [allConstraints] at hx
  | cons v vs ih =>
    rw [allConstraints, List.mem_append] at hx
    rcases hx with hx | hx
    · rw [List.mem_flatMap] at hx
      obtain ⟨-, -, hx⟩ := hx
      unfold vertexConstraints at hx
      rw [List.mem_map] at hx
      obtain ⟨m, -, hx⟩ := hx
      refine ⟨v, by simp, m, ?_⟩
      cases hc : v.getConstraint (m : ℕ) with
      | none => rw [hc] at hx; simp at hx
      | some c =>
        rw [hc] at hx
        simp only [Prod.mk.injEq, true_and] at hx
        rw [← hx]
    · obtain ⟨w, hw, m, h1⟩ := ih _ hx
      exact ⟨w, by simp [hw], m, h1⟩

theorem setupReordering_returns (o : LinOpt h K)
    (hv : ∀ v ∈ o.vertices, ∀ e ∈ v.constraints, e.2.length = o.dimension) : ∃ o', o.setupReordering = .ok o' := by
  unfold LinOpt.setupReordering
  dsimp only
  rw [Res.mapM_ok (g := fun d => (constraintSet true (allConstraints h o.dimension o.nSegments o.vertices 0)).map
    fun c => c.value.getD d 0)]
  · exact ⟨_, rfl⟩
  intro d hd
  rw [List.mem_range] at hd
  apply compactFixed_ok
  · intro c hc
    obtain ⟨v, hv1, m, hm⟩ := allConstraints_true _ _ _ _ (constraintSet_sub _ _ c hc)
    rw [hv v hv1 _ (mapFind_mem hm)]
    exact hd
  · intro c hc
    exact ⟨_, constraintSet_sub _ _ c hc, rfl⟩

theorem mapM_abort {α β : Type} {f : α → Res β} {l : List α} (h1 : ∀ x ∈ l, (∃ y, f x = .ok y) ∨ f x = .abort)
    (h2 : ∃ x ∈ l, f x = .abort) : l.mapM f = .abort := by
  induction l with
  | nil => simp at h2
  | cons x l ih =>
    rw [List.mapM_cons]
    rcases h1 x (by simp) with ⟨y, hy⟩ | hx
    · rw [hy, Res.ok_bind, ih (fun z hz => h1 z (by simp [hz]))]
      · rfl
      · obtain ⟨z, hz, h3⟩ := h2
        rcases List.mem_cons.mp hz with rfl | hz
        · rw [hy] at h3
          cases h3
        · exact ⟨z, hz, h3⟩
    · rw [hx]
      rfl

theorem filter_refused {n dim : ℕ} (hn : n ≠ dim) (l : List (ℤ × List K)) (hl : ∀ e ∈ l, e.2.length = n)
    (hk : ∃ e ∈ l, e.1 < h) (tmp : Vertex K) (ht : tmp.D = dim) :
    l.foldlM (fun (tmp : Vertex K) e => if e.1 > (h : ℤ) - 1 then pure tmp else tmp.addConstraint e.1 e.2) tmp =
      (.abort : Res (Vertex K)) := by
  induction l with
  | nil => simp at hk
  | cons e l ih =>
    rw [List.foldlM_cons]
    by_cases he : e.1 > (h : ℤ) - 1
    · rw [if_pos he, Res.pure_eq, Res.ok_bind]
      refine ih (fun x hx => hl x (by simp [hx])) ?_
      obtain ⟨x, hx, h3⟩ := hk
      rcases List.mem_cons.mp hx with rfl | hx
      · omega
      · exact ⟨x, hx, h3⟩
    · rw [if_neg he]
      unfold Vertex.addConstraint
      rw [Res.check_of_not (by rw [hl e (by simp), ht]; exact hn)]
      rfl

theorem filter_high (l : List (ℤ × List K)) (hl : ∀ e ∈ l, (h : ℤ) ≤ e.1) (tmp : Vertex K) :
    l.foldlM (fun (tmp : Vertex K) e => if e.1 > (h : ℤ) - 1 then pure tmp else tmp.addConstraint e.1 e.2) tmp =
      (.ok tmp : Res (Vertex K)) := by
  induction l with
  | nil => rfl
  | cons e l ih =>
    have := hl e (by simp)
    rw [List.foldlM_cons, if_pos (by omega), Res.pure_eq, Res.ok_bind, ih fun x hx => hl x (by simp [hx])]

theorem filterVertex_usable {dim : ℕ} {v : Vertex K} (hv : v.WF) (hu : Usable h dim v) :
    ∃ w, filterVertex h dim v = .ok w ∧ ∀ e ∈ w.constraints, e.2.length = dim := by
  rcases hu with hD | hh
  · obtain ⟨w, h1, h2, h3, -⟩ := filterVertex_ok h dim v hv hD
    exact ⟨w, h1, fun e he => (h2.dims e he).trans h3⟩
  · unfold filterVertex
    rw [filter_high _ hh, Res.ok_bind, Res.pure_eq]
    refine ⟨_, rfl, ?_⟩
    cases hc : v.constraints with
    | nil => simp [hc]
    | cons e l =>
      rw [if_pos (by
        have := hh e (by simp [hc])
        simp only [List.any_cons, Bool.or_eq_true, decide_eq_true_eq]
        left
        omega)]
      simp [Vertex.new]

theorem filterVertex_refused {dim : ℕ} {v : Vertex K} (hv : v.WF) (hu : ¬ Usable h dim v) :
    filterVertex h dim v = .abort := by
  unfold Usable at hu
  push Not at hu
  unfold filterVertex
  rw [filter_refused hu.1 _ hv.dims hu.2 _ rfl]
  rfl

theorem updateTimes_refused (inv : Matrix (Fin h) (Fin h) K → Matrix (Fin h) (Fin h) K) (o : LinOpt h K)
    (times : List K) {k : ℕ} (hk : k < h) (hN : h + h ≤ 22) (hd : o.derivative = k)
    (hbad : times.length ≠ o.nSegments ∨ ∃ T ∈ times, T ≤ 0) : o.updateSegmentTimes inv times = .abort := by
  unfold LinOpt.updateSegmentTimes
  by_cases hl : times.length = o.nSegments
  · rw [Res.check_of hl, Res.ok_bind]
    replace hbad : ∃ T ∈ times, T ≤ 0 := by tauto
    have : (times.mapM fun T => do
        Res.check (0 < T)
        let Q ← computeQuadraticCostJacobian h o.derivative T
        let A ← setupMappingMatrix h T
        pure (Q, invertMappingMatrix inv A) : Res (List (SqMat h K × SqMat h K))) = .abort := by
      clear hl
      induction times with
      | nil => simp at hbad
      | cons T ts ih =>
        rw [List.mapM_cons]
        by_cases hT : 0 < T
        · rw [Res.check_of hT, Res.ok_bind, hd, costJacobian_ok k hk hN, Res.ok_bind, mapMat_ok T hN, Res.ok_bind,
            Res.pure_eq, Res.ok_bind]
          rw [hd] at ih
          rw [ih (by
            obtain ⟨T', h1, h2⟩ := hbad
            rcases List.mem_cons.mp h1 with rfl | h1
            · exact absurd hT (not_lt.mpr h2)
            · exact ⟨T', h1, h2⟩)]
          rfl
        · rw [Res.check_of_not hT]
          rfl
    rw [this]
    rfl
  · rw [Res.check_of_not hl]
    rfl

end
end Verif
