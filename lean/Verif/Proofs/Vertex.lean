import Verif.Spec.Vertex
import Verif.Proofs.Trajectory
import Verif.Proofs.TrajectoryReal

/- Helper lemmas about vertices. -/
set_option linter.unusedSectionVars false

namespace Verif

open Spec

variable {K : Type}

theorem mapFind_insert {V : Type} (k q : ℤ) (v : V) (m : List (ℤ × V)) :
    mapFind q (mapInsert k v m) = if q = k then some v else mapFind q m := by
  induction m with
  | nil => simp [mapInsert, mapFind, eq_comm]
  | cons e m ih =>
    obtain ⟨k', v'⟩ := e
    unfold mapInsert
    by_cases h1 : k < k'
    · simp [h1, mapFind, eq_comm]
    · by_cases h2 : k = k'
      · subst h2
        simp [mapFind, eq_comm]
        by_cases h3 : k = q <;> simp [h3]
      · simp only [h1, h2, if_false, mapFind, ih]
        by_cases h3 : k' = q
        · have : q ≠ k := by rintro rfl; exact h2 h3.symm
          simp [h3, this]
        · simp [h3]

theorem mapFind_erase {V : Type} (k q : ℤ) (m : List (ℤ × V)) :
    mapFind q (mapErase k m) = if q = k then none else mapFind q m := by
  induction m with
  | nil => simp [mapErase, mapFind]
  | cons e m ih =>
    obtain ⟨k', v'⟩ := e
    have ih' : mapFind q (List.filter (fun e => decide (e.1 ≠ k)) m) =
      if q = k then none else mapFind q m := ih
    unfold mapErase
    by_cases h1 : k' = k
    · rw [List.filter_cons_of_neg (by simp [h1]), ih']
      subst h1
      by_cases h2 : q = k'
      · simp [h2]
      · simp [h2, mapFind, Ne.symm h2]
    · rw [List.filter_cons_of_pos (by simp [h1])]
      unfold mapFind
      rw [ih']
      by_cases h3 : k' = q
      · subst h3; simp [h1]
      · simp [h3]

theorem mapInsert_keys {V : Type} (k : ℤ) (v : V) (m : List (ℤ × V)) (x : ℤ) :
    x ∈ (mapInsert k v m).map Prod.fst ↔ x = k ∨ x ∈ m.map Prod.fst := by
  induction m with
  | nil => simp [mapInsert]
  | cons e m ih =>
    obtain ⟨k', v'⟩ := e
    unfold mapInsert
    by_cases h1 : k < k'
    · simp [h1]
    · by_cases h2 : k = k'
      · subst h2; simp
      · simp only [h1, h2, if_false, List.map_cons, List.mem_cons, ih]
        tauto

theorem mapInsert_mem {V : Type} (k : ℤ) (v : V) (m : List (ℤ × V)) (e : ℤ × V)
    (h : e ∈ mapInsert k v m) : e = (k, v) ∨ e ∈ m := by
  induction m with
  | nil => simpa [mapInsert] using h
  | cons e' m ih =>
    obtain ⟨k', v'⟩ := e'
    unfold mapInsert at h
    by_cases h1 : k < k'
    · simpa [h1] using h
    · by_cases h2 : k = k'
      · subst h2
        simp only [lt_irrefl, if_false, if_true, List.mem_cons] at h ⊢
        tauto
      · simp only [h1, h2, if_false, List.mem_cons] at h ⊢
        rcases h with h | h
        · tauto
        · rcases ih h with h | h <;> tauto

theorem mapInsert_sorted {V : Type} (k : ℤ) (v : V) (m : List (ℤ × V))
    (h : (m.map Prod.fst).Pairwise (· < ·)) :
    ((mapInsert k v m).map Prod.fst).Pairwise (· < ·) := by
  induction m with
  | nil => simp [mapInsert]
  | cons e m ih =>
    obtain ⟨k', v'⟩ := e
    simp only [List.map_cons, List.pairwise_cons] at h
    unfold mapInsert
    by_cases h1 : k < k'
    · simp only [h1, if_true, List.map_cons, List.pairwise_cons, List.mem_cons]
      refine ⟨?_, h.1, h.2⟩
      rintro x (rfl | hx)
      · exact h1
      · exact lt_trans h1 (h.1 x hx)
    · by_cases h2 : k = k'
      · subst h2
        simpa using h
      · simp only [h1, h2, if_false, List.map_cons, List.pairwise_cons]
        refine ⟨?_, ih h.2⟩
        intro x hx
        rcases (mapInsert_keys k v m x).mp hx with rfl | hx
        · omega
        · exact h.1 x hx

theorem mapErase_sorted {V : Type} (k : ℤ) (m : List (ℤ × V))
    (h : (m.map Prod.fst).Pairwise (· < ·)) :
    ((mapErase k m).map Prod.fst).Pairwise (· < ·) :=
  List.Pairwise.sublist (List.Sublist.map _ List.filter_sublist) h

theorem mapFind_isSome {V : Type} (k : ℤ) (m : List (ℤ × V)) :
    (mapFind k m).isSome ↔ k ∈ m.map Prod.fst := by
  induction m with
  | nil => simp [mapFind]
  | cons e m ih =>
    obtain ⟨k', v'⟩ := e
    unfold mapFind
    by_cases h : k' = k
    · simp [h]
    · simp only [h, if_false, List.map_cons, List.mem_cons, ih]
      constructor
      · exact Or.inr
      · rintro (rfl | h') <;> tauto

theorem mapFind_mem {V : Type} {k : ℤ} {m : List (ℤ × V)} {v : V} (h : mapFind k m = some v) :
    (k, v) ∈ m := by
  induction m with
  | nil => simp [mapFind] at h
  | cons e m ih =>
    obtain ⟨k', v'⟩ := e
    unfold mapFind at h
    by_cases h1 : k' = k
    · simp only [h1, if_true, Option.some.injEq] at h
      subst h1; subst h; simp
    · simp only [h1, if_false] at h
      exact List.mem_cons_of_mem _ (ih h)

theorem mapFind_of_mem {V : Type} {k : ℤ} {m : List (ℤ × V)} {v : V}
    (hs : (m.map Prod.fst).Pairwise (· < ·)) (h : (k, v) ∈ m) : mapFind k m = some v := by
  induction m with
  | nil => simp at h
  | cons e m ih =>
    obtain ⟨k', v'⟩ := e
    simp only [List.map_cons, List.pairwise_cons] at hs
    unfold mapFind
    rcases List.mem_cons.mp h with h | h
    · simp only [Prod.mk.injEq] at h
      simp [h.1, h.2]
    · have : k' < k := hs.1 k (List.mem_map_of_mem (f := Prod.fst) h)
      rw [if_neg (by omega)]
      exact ih hs.2 h

/-! Well-formedness -/

theorem vertex_new_WF (D : ℕ) : (Vertex.new D : Vertex K).WF := ⟨by simp [Vertex.new], by simp [Vertex.new]⟩

theorem insert_WF {v : Vertex K} (h : v.WF) (k : ℤ) (c : List K) (hc : c.length = v.D) :
    ({ v with constraints := mapInsert k c v.constraints } : Vertex K).WF :=
  ⟨mapInsert_sorted _ _ _ h.sorted, fun e he => by
    rcases mapInsert_mem _ _ _ _ he with rfl | he
    · exact hc
    · exact h.dims e he⟩

theorem addConstraint_ok (v : Vertex K) (k : ℤ) (c : List K) (hc : c.length = v.D) :
    v.addConstraint k c = .ok { v with constraints := mapInsert k c v.constraints } := by
  simp [Vertex.addConstraint, hc]

theorem addConstraint_abort (v : Vertex K) (k : ℤ) (c : List K) (hc : c.length ≠ v.D) :
    v.addConstraint k c = .abort := by
  simp [Vertex.addConstraint, hc]

theorem zeroDerivatives_find [Zero K] (D n : ℕ) (i : ℤ) (m : List (ℤ × List K)) (q : ℤ) :
    mapFind q (zeroDerivatives D n i m) =
      if i ≤ q ∧ q < i + n then some (List.replicate D 0) else mapFind q m := by
  induction n generalizing i m with
  | zero =>
    rw [if_neg (by push_cast; omega)]; rfl
  | succ n ih =>
    unfold zeroDerivatives
    rw [ih, mapFind_insert]
    by_cases h1 : q = i
    · subst h1
      rw [if_neg (by omega), if_pos rfl, if_pos (by push_cast; omega)]
    · by_cases h2 : i ≤ q ∧ q < i + (n + 1 : ℕ)
      · rw [if_pos (by push_cast at h2; omega), if_pos h2]
      · rw [if_neg (by push_cast at h2; omega), if_neg h2, if_neg h1]

theorem zeroDerivatives_WF [Zero K] (D n : ℕ) (i : ℤ) (m : List (ℤ × List K))
    (h : (Vertex.mk D m).WF) : (Vertex.mk D (zeroDerivatives D n i m)).WF := by
  induction n generalizing i m with
  | zero => exact h
  | succ n ih => exact ih (i + 1) _ (insert_WF h i _ (by simp))

theorem makeStartOrEnd_ok [Zero K] (v : Vertex K) (c : List K) (u : ℤ) (hc : c.length = v.D) :
    v.makeStartOrEnd c u =
      .ok ⟨v.D, zeroDerivatives v.D u.toNat 1 (mapInsert 0 c v.constraints)⟩ := by
  simp [Vertex.makeStartOrEnd, addConstraint_ok v 0 c hc]

theorem makeStartOrEnd_abort [Zero K] (v : Vertex K) (c : List K) (u : ℤ) (hc : c.length ≠ v.D) :
    v.makeStartOrEnd c u = .abort := by
  simp [Vertex.makeStartOrEnd, addConstraint_abort v 0 c hc]

theorem removeConstraint_find (v : Vertex K) (k q : ℤ) :
    mapFind q (v.removeConstraint k).2.constraints =
      if q = k then none else mapFind q v.constraints := by
  unfold Vertex.removeConstraint
  cases h : mapFind k v.constraints with
  | some c => simp only [mapFind_erase]
  | none =>
    by_cases hq : q = k
    · subst hq; simp [h]
    · simp [hq]

/-- One call: result, effect, dimension and well-formedness. -/
theorem vertexOp_run [Zero K] (v : Vertex K) (h : v.WF) (op : VertexOp K) :
    (op.Fits v.D → ∃ v', op.run v = .ok v' ∧ v'.D = v.D ∧ v'.WF ∧
      v'.getConstraint = op.effect v.D v.getConstraint) ∧
    (¬ op.Fits v.D → op.run v = .abort) := by
  cases op with
  | add k c =>
    refine ⟨fun hf => ⟨_, addConstraint_ok v k c hf, rfl, insert_WF h k c hf, ?_⟩,
      fun hf => addConstraint_abort v k c hf⟩
    funext q
    simp only [Vertex.getConstraint, mapFind_insert, VertexOp.effect]
  | addConst k x =>
    refine ⟨fun hf => ⟨_, rfl, rfl, insert_WF h k _ (by simp), ?_⟩, fun hf => absurd trivial hf⟩
    funext q
    simp only [Vertex.getConstraint, mapFind_insert, VertexOp.effect, Vertex.addConstraintConst]
  | remove k =>
    refine ⟨fun hf => ⟨_, rfl, ?_, ?_, ?_⟩, fun hf => absurd trivial hf⟩
    · unfold Vertex.removeConstraint; split <;> rfl
    · unfold Vertex.removeConstraint
      split
      · exact ⟨mapErase_sorted _ _ h.sorted, fun e he => h.dims e (List.mem_of_mem_filter he)⟩
      · exact h
    · funext q
      simp only [Vertex.getConstraint, VertexOp.effect]
      exact removeConstraint_find v k q
  | makeStartOrEnd c u =>
    refine ⟨fun hf => ⟨_, makeStartOrEnd_ok v c u hf, rfl, ?_, ?_⟩,
      fun hf => makeStartOrEnd_abort v c u hf⟩
    · exact zeroDerivatives_WF _ _ _ _ (insert_WF h 0 c hf)
    · funext q
      simp only [Vertex.getConstraint, VertexOp.effect, zeroDerivatives_find, mapFind_insert]
      by_cases h0 : q = 0
      · subst h0; simp
      · by_cases h1 : 1 ≤ q ∧ q ≤ u
        · rw [if_pos (by omega), if_neg h0, if_pos h1]
        · rw [if_neg (by omega), if_neg h0, if_neg h0, if_neg h1]

end Verif
