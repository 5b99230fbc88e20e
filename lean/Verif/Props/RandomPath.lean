import Verif.Proofs.RandomPath
import Verif.Props.VertexGenerators

/-
Property C143: the random paths of the timing evaluation.

`Spec.InBox`, `Spec.Waypoint` and `Spec.RestAt` say what the vertices must be (as for C83), `Spec.distance` is
the Euclidean distance. `draw` and `dist` are the random numbers, which are assumed to lie in the intervals
given to their distributions.
-/
namespace Verif

open Spec

/-- The cube from which the program draws. -/
def UnitCube (D : ℕ) (p : List ℝ) : Prop := InBox (List.replicate D (-1)) (List.replicate D 1) p

theorem path_eq {draw : ℕ → List ℝ} {dist : ℕ → ℝ} {fuel D n : ℕ} {average : ℝ} {m : ℤ}
    (h0 : (draw 0).length = D) (h1 : 1 ≤ n) (hm : 0 < m) (ha : 0 ≤ average) :
    ∃ first, RestAt D m (draw 0) first ∧ first.WF ∧
      createRandomVerticesPath Real.sqrt draw dist fuel D n average m = (do
        let steps ← pathSteps Real.sqrt draw dist fuel n 0 1
        let vs ← pathVertices D m (draw 0) steps
        pure (first :: vs)) := by
  obtain ⟨first, g1, g2, g3⟩ := restAt_ok (m := m) (p := draw 0) (p' := []) (v := Vertex.new D) rfl
    (vertex_new_WF _) (fun q _ => rfl) h0
  refine ⟨first, g2, g3, ?_⟩
  unfold createRandomVerticesPath
  rw [Res.check_of h1, Res.ok_bind, Res.check_of hm, Res.ok_bind, if_neg (by linarith), g1, Res.ok_bind]

/-- **C143**, partial. If `createRandomVerticesPath` returns, it returns `n + 1` vertices, the first of them in
the cube `[-1, 1]^D`. The first and the last prescribe zero for the derivatives 1 to `m`, and nothing but
positions is prescribed otherwise. Neighbours are at most `6 * average + √D` apart, the first two have the drawn
distance if there are others, and all but the first two vertices are within `4 * average` of the origin.
Missing: that neighbours are at most `2 * average` apart, which is false (`C143_far_false`, `C143_end_false`). -/
theorem C143_path_partial {draw : ℕ → List ℝ} {dist : ℕ → ℝ} {fuel D n : ℕ} {average : ℝ} {m : ℤ}
    {vs : List (Vertex ℝ)} (hdraw : ∀ i, UnitCube D (draw i))
    (hdist : ∀ j, 0 ≤ dist j ∧ dist j ≤ 2 * average)
    (h : createRandomVerticesPath Real.sqrt draw dist fuel D n average m = .ok vs) :
    1 ≤ n ∧ 0 < m ∧ ∃ ps : List (List ℝ), ps.length = n + 1 ∧ vs.length = n + 1 ∧ (∀ v ∈ vs, v.WF) ∧
      (∀ i v p, vs[i]? = some v → ps[i]? = some p →
        (i = 0 ∨ i = n → RestAt D m p v) ∧ (i ≠ 0 ∧ i ≠ n → Waypoint D p v)) ∧
      ps[0]? = some (draw 0) ∧
      (∀ i a b, ps[i]? = some a → ps[i + 1]? = some b → distance a b ≤ 6 * average + Real.sqrt D) ∧
      (∀ b, 1 < n → ps[1]? = some b → distance (draw 0) b = dist 0) ∧
      ∀ i p, 2 ≤ i → ps[i]? = some p → distance p (List.replicate D 0) ≤ 4 * average := by
  have hlen : ∀ i, (draw i).length = D := fun i => by simpa using (hdraw i).1
  have ha : 0 ≤ average := by linarith [(hdist 0).1, (hdist 0).2]
  have h0 := h
  unfold createRandomVerticesPath at h0
  rw [Res.bind_eq_ok] at h0
  obtain ⟨_, c1, h0⟩ := h0
  rw [Res.bind_eq_ok] at h0
  obtain ⟨_, c2, -⟩ := h0
  rw [Res.check_eq_ok] at c1 c2
  obtain ⟨first, g1, g2, g3⟩ := path_eq (dist := dist) (fuel := fuel) (hlen 0) c1 c2 ha
  rw [g3, Res.bind_eq_ok] at h
  obtain ⟨steps, e1, h⟩ := h
  rw [Res.bind_eq_ok] at h
  obtain ⟨ws, e2, h⟩ := h
  rw [Res.pure_eq, Res.ok.injEq] at h
  subst h
  obtain ⟨s1, s2⟩ := pathSteps_ok hlen (fun j => (hdist j).1) n 0 1 e1
  have sl : ∀ s ∈ steps, s.length = D := fun s hs => by
    obtain ⟨k, hk, rfl⟩ := List.mem_iff_getElem.mp hs
    exact (s2 k _ (List.getElem?_eq_getElem hk)).1
  obtain ⟨ws', b1, b2, b3, b4⟩ := pathVertices_ok (m := m) (draw 0) steps (hlen 0) sl
  rw [e2, Res.ok.injEq] at b1
  subst b1
  -- the vectors of which the positions are sums
  let T : ℕ → EuclideanSpace ℝ (Fin D) := fun i => euc D (((draw 0) :: steps).getD i [])
  have T0 : ‖T 0‖ ≤ Real.sqrt D := box_norm (hdraw 0)
  have TS : ∀ k, k < n → ‖T (k + 1)‖ = dist k := fun k hk => by
    have := (s2 k _ (List.getElem?_eq_getElem (by omega))).2
    rw [Nat.zero_add] at this
    rw [← this]
    show ‖euc D _‖ = _
    rw [List.getD_cons_succ, List.getD_eq_getElem?_getD, List.getElem?_eq_getElem (by omega), Option.getD_some]
  have TB : ∀ k, k < n → ‖T (k + 1)‖ ≤ 2 * average := fun k hk => by rw [TS k hk]; exact (hdist k).2
  have hD : 0 ≤ Real.sqrt D := Real.sqrt_nonneg _
  have TA : ∀ k, k ≤ n → ‖T k‖ ≤ 2 * average + Real.sqrt D := fun k hk => by
    cases k with
    | zero => linarith
    | succ k => linarith [TB k (by omega)]
  have key : ∀ i p, (pathPositions (draw 0) steps)[i]? = some p → i < n ∧ p.length = D ∧
      euc D p = T (i + 1) + if i + 1 < n then T i else 0 := by
    intro i p hp
    rcases pathPositions_get (draw 0) steps i p hp with ⟨a, b⟩ | ⟨a, s, l, b, c, rfl⟩
    · refine ⟨by omega, (s2 i p b).1, ?_⟩
      rw [if_neg (by omega), add_zero]
      show _ = euc D _
      rw [List.getD_cons_succ, List.getD_eq_getElem?_getD, b, Option.getD_some]
    · have hl : l.length = D := by
        cases i with
        | zero =>
          simp only [List.getElem?_cons_zero, Option.some.injEq] at c
          rw [← c]
          exact hlen 0
        | succ i => exact (s2 i l (by simpa using c)).1
      have hs := (s2 i s b).1
      refine ⟨by omega, by simp [hs, hl], ?_⟩
      rw [if_pos (by omega), euc_add hs hl]
      show _ = euc D _ + euc D _
      rw [List.getD_cons_succ, List.getD_eq_getElem?_getD, b, Option.getD_some, List.getD_eq_getElem?_getD, c,
        Option.getD_some]
  refine ⟨c1, c2, draw 0 :: pathPositions (draw 0) steps, by simp [pathPositions_length, s1], by simp [b2, s1],
    ?_, ?_, rfl, ?_, ?_, ?_⟩
  · intro v hv
    rcases List.mem_cons.mp hv with rfl | hv
    · exact g2
    · exact b3 v hv
  · intro i v p hv hp
    cases i with
    | zero =>
      simp only [List.getElem?_cons_zero, Option.some.injEq] at hv hp
      subst hv hp
      exact ⟨fun _ => g1, fun hne => absurd rfl hne.1⟩
    | succ i =>
      simp only [List.getElem?_cons_succ] at hv hp
      obtain ⟨r1, r2⟩ := b4 i v p hv hp
      rw [s1] at r1 r2
      exact ⟨fun hh => r1 (by omega), fun hh => r2 hh.2⟩
  · intro i a b hia hib
    rw [List.getElem?_cons_succ] at hib
    obtain ⟨k1, k2, k3⟩ := key i b hib
    cases i with
    | zero =>
      simp only [List.getElem?_cons_zero, Option.some.injEq] at hia
      subst hia
      rw [distance_euc (hlen 0), k3]
      have e0 : euc D (draw 0) = T 0 := rfl
      rw [e0]
      split
      · rw [show T 0 - (T (0 + 1) + T 0) = -T (0 + 1) by abel, norm_neg]
        linarith [TB 0 k1]
      · rw [add_zero]
        linarith [norm_sub_le (T 0) (T (0 + 1)), TB 0 k1]
    | succ i =>
      rw [List.getElem?_cons_succ] at hia
      obtain ⟨l1, l2, l3⟩ := key i a hia
      rw [distance_euc l2, k3, l3, if_pos (by omega)]
      split
      · rw [show T (i + 1) + T i - (T (i + 1 + 1) + T (i + 1)) = T i - T (i + 1 + 1) by abel]
        linarith [norm_sub_le (T i) (T (i + 1 + 1)), TB (i + 1) k1, TA i (by omega)]
      · rw [add_zero]
        linarith [norm_sub_le (T (i + 1) + T i) (T (i + 1 + 1)), norm_add_le (T (i + 1)) (T i), TB (i + 1) k1,
          TB i l1, TA i (by omega)]
  · intro b hn hb
    rw [List.getElem?_cons_succ] at hb
    obtain ⟨k1, k2, k3⟩ := key 0 b hb
    have e0 : euc D (draw 0) = T 0 := rfl
    rw [distance_euc (hlen 0), k3, e0, if_pos (by omega), show T 0 - (T (0 + 1) + T 0) = -T (0 + 1) by abel,
      norm_neg]
    exact TS 0 k1
  · intro i p hi hp
    obtain ⟨j, rfl⟩ : ∃ j, i = j + 1 + 1 := ⟨i - 2, by omega⟩
    rw [List.getElem?_cons_succ] at hp
    obtain ⟨k1, k2, k3⟩ := key (j + 1) p hp
    rw [distance_euc k2, euc_zero, sub_zero, k3]
    split
    · linarith [norm_add_le (T (j + 1 + 1)) (T (j + 1)), TB (j + 1) k1, TB j (by omega)]
    · rw [add_zero]
      linarith [TB (j + 1) k1]

/-- **C143**, partial. It returns if again and again a vector longer than 0.2 is drawn. Missing: in dimension 0
the arguments are accepted, but it does not return (`C143_dimension_false`). -/
theorem C143_returns_partial {draw : ℕ → List ℝ} {dist : ℕ → ℝ} {D n : ℕ} {average : ℝ} {m : ℤ}
    (hdraw : ∀ i, UnitCube D (draw i)) (h1 : 1 ≤ n) (hm : 0 < m) (ha : 0 ≤ average) (hdist : ∀ j, 0 ≤ dist j)
    (hrec : ∀ i, ∃ j ≥ i, 1 / 5 < distance (draw j) (List.replicate D 0)) :
    ∃ f0, ∀ fuel ≥ f0, ∃ vs, createRandomVerticesPath Real.sqrt draw dist fuel D n average m = .ok vs := by
  have hlen : ∀ i, (draw i).length = D := fun i => by simpa using (hdraw i).1
  obtain ⟨f0, hf⟩ := pathSteps_returns (dist := dist) (fun i => by
    obtain ⟨j, hj, hd⟩ := hrec i
    refine ⟨j, hj, ?_⟩
    rwa [distance_euc (hlen j), euc_zero, sub_zero, ← vecNorm_euc (hlen j)] at hd) n 0 1
  refine ⟨f0, fun fuel hfu => ?_⟩
  obtain ⟨steps, hs⟩ := hf fuel hfu
  obtain ⟨first, -, -, g3⟩ := path_eq (dist := dist) (fuel := fuel) (hlen 0) h1 hm ha
  obtain ⟨-, s2⟩ := pathSteps_ok hlen hdist n 0 1 hs
  obtain ⟨vs, hvs, -⟩ := pathVertices_ok (m := m) (draw 0) steps (hlen 0) fun s hs => by
    obtain ⟨k, hk, rfl⟩ := List.mem_iff_getElem.mp hs
    exact (s2 k _ (List.getElem?_eq_getElem hk)).1
  exact ⟨first :: vs, by rw [g3, hs, Res.ok_bind, hvs, Res.ok_bind, Res.pure_eq]⟩

/-- **C143.** Without a segment, and with orders below 1, it aborts. -/
theorem C143_rejected (draw : ℕ → List ℝ) (dist : ℕ → ℝ) (fuel D n : ℕ) (average : ℝ) (m : ℤ)
    (h : n = 0 ∨ m ≤ 0) : createRandomVerticesPath Real.sqrt draw dist fuel D n average m = .abort := by
  unfold createRandomVerticesPath
  by_cases c1 : 1 ≤ n
  · rw [Res.check_of c1, Res.ok_bind, Res.check_of_not (by omega)]
    rfl
  · rw [Res.check_of_not c1]
    rfl

/-- **C143**, refuted: in dimension 0 no vector is longer than 0.2, and the call never returns. -/
theorem C143_dimension_false {draw : ℕ → List ℝ} (hdraw : ∀ i, UnitCube 0 (draw i)) (dist : ℕ → ℝ) (fuel : ℕ)
    {n : ℕ} (hn : 1 ≤ n) {average : ℝ} (ha : 0 ≤ average) {m : ℤ} (hm : 0 < m) :
    createRandomVerticesPath Real.sqrt draw dist fuel 0 n average m = .hang := by
  obtain ⟨first, -, -, g3⟩ := path_eq (dist := dist) (fuel := fuel) (average := average) (n := n) (D := 0)
    (by simpa using (hdraw 0).1) hn hm ha
  rw [g3]
  obtain ⟨n', rfl⟩ := Nat.exists_eq_succ_of_ne_zero (show n ≠ 0 by omega)
  unfold pathSteps
  rw [drawLong_hang]
  · rfl
  · intro i
    have : draw i = [] := by simpa using (hdraw i).1
    rw [this]
    simp [vecNorm]

/-- **C143**, refuted: a negative average distance is not refused, and the constructor of the distribution is
called with arguments for which its behaviour is undefined. -/
theorem C143_negative_false (draw : ℕ → List ℝ) (dist : ℕ → ℝ) (fuel D : ℕ) {n : ℕ} (hn : 1 ≤ n) {average : ℝ}
    (ha : average < 0) {m : ℤ} (hm : 0 < m) :
    createRandomVerticesPath Real.sqrt draw dist fuel D n average m = .ub := by
  unfold createRandomVerticesPath
  rw [Res.check_of hn, Res.ok_bind, Res.check_of hm, Res.ok_bind, if_pos (by linarith)]

/-- Random numbers for the refutations: the vectors are along the first axis, to the right for the first ones
and to the left from the `k`-th on; all distances are as long as possible. -/
def backAndForth (k : ℕ) (i : ℕ) : List ℝ := if i < k then [1, 0, 0] else [-1, 0, 0]

theorem backAndForth_cube (k i : ℕ) : UnitCube 3 (backAndForth k i) := by
  unfold backAndForth
  split <;> refine ⟨rfl, fun d hd => ?_⟩ <;> simp only [List.length_replicate] at hd <;> interval_cases d <;>
    norm_num

/-- **C143**, refuted, with the arguments of the program (dimension 3, average 5, order 4) and two segments:
the second and the third vertex can be 21 apart, more than the 10 that the largest step allows (line 86 keeps the
step instead of the position). -/
theorem C143_far_false : ∃ (draw : ℕ → List ℝ) (dist : ℕ → ℝ) (vs : List (Vertex ℝ)) (v w : Vertex ℝ) (a b : List ℝ),
    (∀ i, UnitCube 3 (draw i)) ∧ (∀ j, 0 ≤ dist j ∧ dist j ≤ 2 * 5) ∧
    createRandomVerticesPath Real.sqrt draw dist 1 3 2 5 4 = .ok vs ∧ vs[1]? = some v ∧ vs[2]? = some w ∧
    v.getConstraint 0 = some a ∧ w.getConstraint 0 = some b ∧ distance a b = 21 := by
  have hsteps : pathSteps Real.sqrt (backAndForth 2) (fun _ => 10) 1 2 0 1 = .ok [[10, 0, 0], [-10, 0, 0]] := by
    simp only [pathSteps, drawLong, backAndForth]
    norm_num [vecNorm]
  obtain ⟨first, -, -, g3⟩ := path_eq (draw := backAndForth 2) (dist := fun _ => 10) (fuel := 1) (D := 3) (n := 2)
    (average := 5) (m := 4) rfl (by norm_num) (by norm_num) (by norm_num)
  obtain ⟨vs, a1, a2, -, a4⟩ := pathVertices_ok (D := 3) (m := 4) (backAndForth 2 0) [[10, 0, 0], [-10, 0, 0]] rfl
    (by simp)
  rw [hsteps, Res.ok_bind, a1, Res.ok_bind, Res.pure_eq] at g3
  match vs, a2 with
  | [v, w], _ =>
    have b1 := (a4 0 v _ rfl rfl).2 (by simp)
    have b2 := (a4 1 w _ rfl rfl).1 rfl
    refine ⟨_, _, _, v, w, _, _, backAndForth_cube 2, fun _ => by norm_num, g3, rfl, rfl, b1.2.1, b2.2.1, ?_⟩
    unfold distance
    rw [Real.sqrt_eq_iff_eq_sq (Finset.sum_nonneg fun _ _ => sq_nonneg _) (by norm_num)]
    simp [backAndForth, Finset.sum_range_succ]
    norm_num

/-- **C143**, refuted with one segment: the two vertices can be 11 apart. Line 88 puts the last vertex at
the last step, seen from the origin. -/
theorem C143_end_false : ∃ (draw : ℕ → List ℝ) (dist : ℕ → ℝ) (vs : List (Vertex ℝ)) (v w : Vertex ℝ) (a b : List ℝ),
    (∀ i, UnitCube 3 (draw i)) ∧ (∀ j, 0 ≤ dist j ∧ dist j ≤ 2 * 5) ∧
    createRandomVerticesPath Real.sqrt draw dist 1 3 1 5 4 = .ok vs ∧ vs[0]? = some v ∧ vs[1]? = some w ∧
    v.getConstraint 0 = some a ∧ w.getConstraint 0 = some b ∧ distance a b = 11 := by
  have hsteps : pathSteps Real.sqrt (backAndForth 1) (fun _ => 10) 1 1 0 1 = .ok [[-10, 0, 0]] := by
    simp only [pathSteps, drawLong, backAndForth]
    norm_num [vecNorm]
  obtain ⟨first, g1, -, g3⟩ := path_eq (draw := backAndForth 1) (dist := fun _ => 10) (fuel := 1) (D := 3) (n := 1)
    (average := 5) (m := 4) rfl (by norm_num) (by norm_num) (by norm_num)
  obtain ⟨vs, a1, a2, -, a4⟩ := pathVertices_ok (D := 3) (m := 4) (backAndForth 1 0) [[-10, 0, 0]] rfl (by simp)
  rw [hsteps, Res.ok_bind, a1, Res.ok_bind, Res.pure_eq] at g3
  match vs, a2 with
  | [w], _ =>
    have b2 := (a4 0 w _ rfl rfl).1 rfl
    refine ⟨_, _, _, first, w, _, _, backAndForth_cube 1, fun _ => by norm_num, g3, rfl, rfl, g1.2.1, b2.2.1, ?_⟩
    unfold distance
    rw [Real.sqrt_eq_iff_eq_sq (Finset.sum_nonneg fun _ _ => sq_nonneg _) (by norm_num)]
    simp [backAndForth, Finset.sum_range_succ]
    norm_num

/-- The hypotheses of `C143_returns_partial`, and so those of `C143_path_partial`, can be met. -/
example : ∃ f vs, createRandomVerticesPath Real.sqrt (backAndForth 4) (fun _ => 5) f 3 50 5 4 = .ok vs := by
  obtain ⟨f0, hf⟩ := C143_returns_partial (dist := fun _ => 5) (n := 50) (average := 5) (m := 4)
    (backAndForth_cube 4) (by norm_num) (by norm_num) (by norm_num) (fun _ => by norm_num) fun i => by
      refine ⟨i, le_rfl, ?_⟩
      unfold distance backAndForth
      split <;> norm_num [Finset.sum_range_succ]
  obtain ⟨vs, hvs⟩ := hf f0 le_rfl
  exact ⟨f0, vs, hvs⟩

/-- Those of `C143_dimension_false` can be met. -/
example : ∀ i : ℕ, UnitCube 0 ((fun _ => []) i) := fun _ => ⟨rfl, fun d hd => by simp at hd⟩

end Verif
