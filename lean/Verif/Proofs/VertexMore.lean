import Verif.Proofs.Vertex

/- Helper lemmas: `isEqualTol`, `getSubdimension`, vertices of a trajectory. -/
set_option linter.unusedSectionVars false

namespace Verif

open Spec

variable {K : Type}

/-! `getSubdimension` -/

theorem mapFind_cons {V : Type} (q k : ℤ) (v : V) (m : List (ℤ × V)) :
    mapFind q ((k, v) :: m) = if k = q then some v else mapFind q m := rfl

/-- The entries `dims` of `c`. -/
def pick [Inhabited K] (dims : List ℕ) (c : List K) : List K := dims.map fun d => c.getD d default

theorem mapM_at' [Inhabited K] (dims : List ℕ) (c : List K) (h : ∀ d ∈ dims, d < c.length) :
    dims.mapM (Res.at' c) = .ok (pick dims c) := by
  apply Res.mapM_ok
  intro d hd
  rw [Res.at'_of_lt (h d hd)]
  simp [List.getD_eq_getElem?_getD, h d hd]

theorem subdimension_fold [Inhabited K] (dims : List ℕ) (m : ℤ) (D : ℕ) (hd : ∀ d ∈ dims, d < D)
    (l : List (ℤ × List K)) (hl : ∀ e ∈ l, e.2.length = D) (o : Vertex K) (ho : o.WF)
    (hoD : o.D = dims.length) (hsort : (l.map Prod.fst).Pairwise (· < ·)) :
    ∃ o', l.foldlM (fun (o : Vertex K) e =>
        if e.1 > m then pure o
        else do
          let c ← dims.mapM (Res.at' e.2)
          o.addConstraint e.1 c) o = Res.ok o' ∧ o'.D = dims.length ∧ o'.WF ∧
      ∀ q, o'.getConstraint q = match mapFind q l with
        | some c => if q ≤ m then some (pick dims c) else o.getConstraint q
        | none => o.getConstraint q := by
  induction l generalizing o with
  | nil => exact ⟨o, rfl, hoD, ho, fun q => rfl⟩
  | cons e l ih =>
    obtain ⟨k, c⟩ := e
    simp only [List.map_cons, List.pairwise_cons] at hsort
    have hnot : mapFind k l = none := by
      cases h : mapFind k l with
      | none => rfl
      | some v =>
        have := (mapFind_isSome k l).mp (by simp [h])
        exact absurd (hsort.1 k this) (lt_irrefl _)
    rw [List.foldlM_cons]
    by_cases hk : k > m
    · obtain ⟨o', h1, h2, h3, h4⟩ := ih (fun e he => hl e (by simp [he])) o ho hoD hsort.2
      refine ⟨o', ?_, h2, h3, ?_⟩
      · simp only [hk, if_true, Res.pure_eq, Res.ok_bind]
        simpa only [Res.pure_eq] using h1
      · intro q
        rw [h4 q, mapFind_cons]
        by_cases hq : k = q
        · subst hq
          rw [hnot]
          simp [not_le.mpr hk]
        · simp [hq]
    · have hc : c.length = D := hl (k, c) (by simp)
      have hmap := mapM_at' dims c (fun d h => by rw [hc]; exact hd d h)
      have hlen : (pick dims c).length = o.D := by simp [pick, hoD]
      obtain ⟨o', h1, h2, h3, h4⟩ := ih (fun e he => hl e (by simp [he]))
        { o with constraints := mapInsert k (pick dims c) o.constraints }
        (insert_WF ho k _ hlen) hoD hsort.2
      refine ⟨o', ?_, h2, h3, ?_⟩
      · simp only [hk, if_false, hmap, Res.ok_bind, addConstraint_ok o k _ hlen]
        simpa only [Res.pure_eq] using h1
      · intro q
        rw [h4 q]
        simp only [Vertex.getConstraint, mapFind_insert]
        by_cases hq : k = q
        · subst hq
          rw [hnot]
          simp [mapFind, not_lt.mp hk]
        · rw [mapFind, if_neg hq, if_neg (Ne.symm hq)]

theorem getSubdimension_ok [Inhabited K] (v : Vertex K) (h : v.WF) (dims : List ℕ) (m : ℤ)
    (hd : ∀ d ∈ dims, d < v.D) :
    ∃ w, v.getSubdimension dims m = .ok (true, w) ∧ w.D = dims.length ∧ w.WF ∧
      ∀ q, w.getConstraint q = if q ≤ m then (v.getConstraint q).map (pick dims) else none := by
  obtain ⟨o', h1, h2, h3, h4⟩ := subdimension_fold dims m v.D hd v.constraints h.dims
    (Vertex.new dims.length) (vertex_new_WF _) rfl h.sorted
  refine ⟨o', ?_, h2, h3, ?_⟩
  · unfold Vertex.getSubdimension
    rw [if_neg]
    · rw [h1]; rfl
    · simp only [List.any_eq_true, decide_eq_true_eq, not_exists, not_and, not_le]
      exact hd
  · intro q
    rw [h4 q]
    cases hq : mapFind q v.constraints <;>
      simp [Vertex.getConstraint, hq, Vertex.new, mapFind]

theorem getSubdimension_fail (v : Vertex K) (dims : List ℕ) (m : ℤ) (hd : ∃ d ∈ dims, v.D ≤ d) :
    v.getSubdimension dims m = .ok (false, Vertex.new dims.length) := by
  unfold Vertex.getSubdimension
  rw [if_pos]
  simpa using hd

/-! `isEqualTol` -/

section Order
variable [Field K] [LinearOrder K] [IsStrictOrderedRing K]

theorem isEqualTolLoop_ok (tol : K) (D : ℕ) (rhs : List (ℤ × List K))
    (hr : ∀ e ∈ rhs, e.2.length = D) (l : List (ℤ × List K)) (hl : ∀ e ∈ l, e.2.length = D) :
    ∃ b, isEqualTolLoop tol rhs l = .ok b ∧
      (b = true ↔ ∀ e ∈ l, ∃ c', mapFind e.1 rhs = some c' ∧ ∀ i < D, |e.2.getD i 0 - c'.getD i 0| ≤ tol) := by
  induction l with
  | nil => exact ⟨true, rfl, by simp⟩
  | cons e l ih =>
    obtain ⟨k, c⟩ := e
    obtain ⟨b, hb, hb2⟩ := ih (fun e he => hl e (by simp [he]))
    unfold isEqualTolLoop
    cases hf : mapFind k rhs with
    | none =>
      refine ⟨false, rfl, ?_⟩
      simp only [Bool.false_eq_true, false_iff]
      intro hall
      obtain ⟨c', hc', _⟩ := hall (k, c) (by simp)
      rw [hf] at hc'; simp at hc'
    | some c' =>
      have hc : c.length = D := hl (k, c) (by simp)
      have hc' : c'.length = D := hr (k, c') (mapFind_mem hf)
      have hsub : vecSub c c' = .ok (List.zipWith (· - ·) c c') := by simp [vecSub, hc, hc']
      have hall : ((List.zipWith (· - ·) c c').all fun x => decide (|x| ≤ tol)) = true ↔
          ∀ i < D, |c.getD i 0 - c'.getD i 0| ≤ tol := by
        simp only [List.all_eq_true, decide_eq_true_eq]
        constructor
        · intro h i hi
          have := h (c[i] - c'[i]) (by
            rw [List.mem_iff_getElem]
            exact ⟨i, by simp [hc, hc', hi], by simp⟩)
          simpa [List.getD_eq_getElem?_getD, hc, hc', hi] using this
        · intro h x hx
          obtain ⟨i, hi, rfl⟩ := List.mem_iff_getElem.mp hx
          have hi' : i < D := by simpa [hc, hc'] using hi
          simpa [List.getD_eq_getElem?_getD, hc, hc', hi'] using h i hi'
      simp only [hsub, Res.ok_bind]
      by_cases hz : ((List.zipWith (· - ·) c c').all fun x => decide (|x| ≤ tol)) = true
      · refine ⟨b, by rw [if_pos hz]; exact hb, ?_⟩
        rw [hb2]
        constructor
        · intro h e he
          rcases List.mem_cons.mp he with rfl | he
          · exact ⟨c', hf, hall.mp hz⟩
          · exact h e he
        · intro h e he
          exact h e (by simp [he])
      · refine ⟨false, by rw [if_neg hz]; rfl, ?_⟩
        simp only [Bool.false_eq_true, false_iff]
        intro h
        obtain ⟨c'', hc'', h2⟩ := h (k, c) (by simp)
        simp only [hf, Option.some.injEq] at hc''
        subst hc''
        exact hz (hall.mpr h2)

/-- Two maps with the same number of keys, the keys of one among those of the other. -/
theorem keys_eq_of_subset {V : Type} {l r : List (ℤ × V)} (hl : (l.map Prod.fst).Pairwise (· < ·))
    (hlen : l.length = r.length)
    (hsub : ∀ k ∈ l.map Prod.fst, k ∈ r.map Prod.fst) :
    ∀ k ∈ r.map Prod.fst, k ∈ l.map Prod.fst := by
  have hnd : (l.map Prod.fst).Nodup := hl.imp (fun h => ne_of_lt h)
  have hsp : (l.map Prod.fst).Subperm (r.map Prod.fst) := List.subperm_of_subset hnd hsub
  have := hsp.perm_of_length_le (by simp [hlen])
  intro k hk
  exact this.mem_iff.mpr hk

theorem isEqualTol_ok (v w : Vertex K) (hv : v.WF) (hw : w.WF) (hD : v.D = w.D) (tol : K) :
    ∃ b, v.isEqualTol w tol = .ok b ∧
      (b = true ↔ ∀ k, (v.getConstraint k = none ∧ w.getConstraint k = none) ∨
        ∃ c c', v.getConstraint k = some c ∧ w.getConstraint k = some c' ∧
          ∀ i < v.D, |c.getD i 0 - c'.getD i 0| ≤ tol) := by
  unfold Vertex.isEqualTol
  by_cases hlen : v.constraints.length = w.constraints.length
  · rw [if_neg (by simpa using hlen)]
    obtain ⟨b, hb, hb2⟩ := isEqualTolLoop_ok tol v.D w.constraints
      (fun e he => by rw [hD]; exact hw.dims e he) v.constraints hv.dims
    refine ⟨b, hb, ?_⟩
    rw [hb2]
    constructor
    · intro h k
      have hsub : ∀ k ∈ v.constraints.map Prod.fst, k ∈ w.constraints.map Prod.fst := by
        intro k hk
        obtain ⟨e, he, rfl⟩ := List.mem_map.mp hk
        obtain ⟨c', hc', _⟩ := h e he
        exact (mapFind_isSome _ _).mp (by simp [hc'])
      have hback := keys_eq_of_subset hv.sorted hlen hsub
      cases hk : v.getConstraint k with
      | none =>
        left
        refine ⟨rfl, ?_⟩
        cases hk' : w.getConstraint k with
        | none => rfl
        | some c' =>
          have := hback k ((mapFind_isSome _ _).mp (by
            unfold Vertex.getConstraint at hk'; simp [hk']))
          have := (mapFind_isSome k _).mpr this
          unfold Vertex.getConstraint at hk
          simp [hk] at this
      | some c =>
        right
        obtain ⟨c', h1, h2⟩ := h (k, c) (mapFind_mem hk)
        exact ⟨c, c', rfl, h1, h2⟩
    · intro h e he
      have hf := mapFind_of_mem (k := e.1) (v := e.2) hv.sorted he
      rcases h e.1 with ⟨h1, _⟩ | ⟨c, c', h1, h2, h3⟩
      · unfold Vertex.getConstraint at h1; simp [hf] at h1
      · unfold Vertex.getConstraint at h1 h2
        rw [hf] at h1
        simp only [Option.some.injEq] at h1
        subst h1
        exact ⟨c', h2, h3⟩
  · rw [if_pos (by simpa using hlen)]
    refine ⟨false, rfl, ?_⟩
    simp only [Bool.false_eq_true, false_iff]
    intro h
    apply hlen
    have key : ∀ k, k ∈ v.constraints.map Prod.fst ↔ k ∈ w.constraints.map Prod.fst := by
      intro k
      rw [← mapFind_isSome, ← mapFind_isSome]
      rcases h k with ⟨h1, h2⟩ | ⟨c, c', h1, h2, _⟩
      · unfold Vertex.getConstraint at h1 h2; simp [h1, h2]
      · unfold Vertex.getConstraint at h1 h2; simp [h1, h2]
    have hnv : (v.constraints.map Prod.fst).Nodup := hv.sorted.imp (fun h => ne_of_lt h)
    have hnw : (w.constraints.map Prod.fst).Nodup := hw.sorted.imp (fun h => ne_of_lt h)
    have := (List.perm_ext_iff_of_nodup hnv hnw).mpr key
    simpa using this.length_eq

/-! Vertices of a trajectory -/

theorem vertexAtTimeLoop_ok (tr : Trajectory K) (t : K) (f : ℕ → List K)
    (hf : ∀ k : ℕ, tr.evaluate t k = .ok (f k)) (hlen : ∀ k, (f k).length = tr.D) (n i : ℕ)
    (v : Vertex K) (hv : v.WF) (hvD : v.D = tr.D) :
    ∃ w, vertexAtTimeLoop tr t n i v = .ok w ∧ w.D = tr.D ∧ w.WF ∧
      ∀ q : ℤ, w.getConstraint q =
        if (i : ℤ) ≤ q ∧ q < i + n then some (f q.toNat) else v.getConstraint q := by
  induction n generalizing i v with
  | zero => exact ⟨v, rfl, hvD, hv, fun q => by rw [if_neg (by push_cast; omega)]⟩
  | succ n ih =>
    have hl : (f i).length = v.D := by rw [hlen, hvD]
    obtain ⟨w, h1, h2, h3, h4⟩ := ih (i + 1) { v with constraints := mapInsert i (f i) v.constraints }
      (insert_WF hv i (f i) hl) hvD
    refine ⟨w, ?_, h2, h3, ?_⟩
    · unfold vertexAtTimeLoop
      rw [hf i, Res.ok_bind, addConstraint_ok v i (f i) hl, Res.ok_bind, h1]
    · intro q
      rw [h4 q]
      simp only [Vertex.getConstraint, mapFind_insert]
      by_cases h5 : q = i
      · subst h5
        rw [if_neg (by push_cast; omega), if_pos rfl, if_pos (by push_cast; omega)]
        simp
      · by_cases h6 : (i : ℤ) ≤ q ∧ q < i + (n + 1 : ℕ)
        · rw [if_pos (by push_cast at h6 ⊢; omega), if_pos h6]
        · rw [if_neg (by push_cast at h6 ⊢; omega), if_neg h5, if_neg h6]

theorem getVertexAtTime_ok (tr : Trajectory K) (t : K) (f : ℕ → List K)
    (hf : ∀ k : ℕ, tr.evaluate t k = .ok (f k)) (hlen : ∀ k, (f k).length = tr.D) (m : ℕ) :
    ∃ w, tr.getVertexAtTime t m = .ok w ∧ w.D = tr.D ∧ w.WF ∧
      ∀ q : ℤ, w.getConstraint q = if 0 ≤ q ∧ q ≤ m then some (f q.toNat) else none := by
  obtain ⟨w, h1, h2, h3, h4⟩ := vertexAtTimeLoop_ok tr t f hf hlen (m + 1) 0 (Vertex.new tr.D)
    (vertex_new_WF _) rfl
  refine ⟨w, ?_, h2, h3, ?_⟩
  · unfold Trajectory.getVertexAtTime
    rw [if_neg (by omega)]
    simpa using h1
  · intro q
    rw [h4 q]
    by_cases h5 : 0 ≤ q ∧ q ≤ (m : ℤ)
    · rw [if_pos (by push_cast; omega), if_pos h5]
    · rw [if_neg (by push_cast; omega), if_neg h5]; rfl

theorem verticesLoop_ok (tr : Trajectory K) (m : ℤ) (hv : ∀ t, ∃ w, tr.getVertexAtTime t m = .ok w)
    (l : List (Segment K)) (t : K) :
    ∃ vs, verticesLoop tr m l t = .ok vs ∧ vs.length = l.length ∧
      ∀ j (hj : j < vs.length),
        tr.getVertexAtTime (t + startTime (l.map (·.time)) (j + 1)) m = .ok vs[j] := by
  induction l generalizing t with
  | nil => exact ⟨[], rfl, rfl, by simp⟩
  | cons s ss ih =>
    obtain ⟨w, hw⟩ := hv (t + s.time)
    obtain ⟨vs, h1, h2, h3⟩ := ih (t + s.time)
    refine ⟨w :: vs, ?_, by simp [h2], ?_⟩
    · unfold verticesLoop
      rw [hw, Res.ok_bind, h1]; rfl
    · intro j hj
      cases j with
      | zero => simpa [startTime] using hw
      | succ j =>
        have := h3 j (by simpa using hj)
        simp only [List.getElem_cons_succ]
        rw [← this]
        congr 1
        simp [startTime, add_assoc]

theorem splitVertex_ok [Inhabited K] (v : Vertex K) (h : v.WF) (hD : 4 ≤ v.D) (mPos mYaw : ℤ) :
    ∃ p y, splitVertex v mPos mYaw = .ok (some (p, y)) ∧ p.D = 3 ∧ y.D = 1 ∧ p.WF ∧ y.WF ∧
      ∀ q, p.getConstraint q = (if q ≤ mPos then (v.getConstraint q).map (pick [0, 1, 2]) else none) ∧
        y.getConstraint q = (if q ≤ mYaw then (v.getConstraint q).map (pick [3]) else none) := by
  obtain ⟨p, h1, h2, h3, h4⟩ := getSubdimension_ok v h [0, 1, 2] mPos (by
    intro d hd; simp at hd; omega)
  obtain ⟨y, k1, k2, k3, k4⟩ := getSubdimension_ok v h [3] mYaw (by
    intro d hd; simp at hd; omega)
  refine ⟨p, y, ?_, h2, k2, h3, k3, fun q => ⟨h4 q, k4 q⟩⟩
  unfold splitVertex
  rw [h1, Res.ok_bind, k1]
  rfl

theorem splitVertex_fail [Inhabited K] (v : Vertex K) (h : v.WF) (hD : v.D < 4) (mPos mYaw : ℤ) :
    splitVertex v mPos mYaw = .ok none := by
  unfold splitVertex
  by_cases h3 : v.D < 3
  · rw [getSubdimension_fail v [0, 1, 2] mPos ⟨2, by simp, by omega⟩]; rfl
  · obtain ⟨p, h1, -⟩ := getSubdimension_ok v h [0, 1, 2] mPos (by
      intro d hd; simp at hd; omega)
    rw [h1, Res.ok_bind, getSubdimension_fail v [3] mYaw ⟨3, by simp, by omega⟩]; rfl

theorem splitVerticesLoop_ok (tr : Trajectory K) (mPos mYaw : ℤ) (P : K → Vertex K × Vertex K → Prop)
    (hv : ∀ t, ∃ w py, tr.getVertexAtTime t (max mPos mYaw) = .ok w ∧
      splitVertex w mPos mYaw = .ok (some py) ∧ P t py)
    (l : List (Segment K)) (t : K) :
    ∃ vs, splitVerticesLoop tr mPos mYaw l t = .ok (some vs) ∧ vs.length = l.length ∧
      ∀ j (hj : j < vs.length), P (t + startTime (l.map (·.time)) (j + 1)) vs[j] := by
  induction l generalizing t with
  | nil => exact ⟨[], rfl, rfl, by simp⟩
  | cons s ss ih =>
    obtain ⟨w, py, hw, hs, hP⟩ := hv (t + s.time)
    obtain ⟨vs, h1, h2, h3⟩ := ih (t + s.time)
    refine ⟨py :: vs, ?_, by simp [h2], ?_⟩
    · unfold splitVerticesLoop
      rw [hw, Res.ok_bind, hs, Res.ok_bind]
      simp only
      rw [h1]; rfl
    · intro j hj
      cases j with
      | zero => simpa [startTime] using hP
      | succ j =>
        have := h3 j (by simpa using hj)
        simp only [List.getElem_cons_succ]
        convert this using 1
        simp [startTime, add_assoc]

end Order

end Verif
