import Verif.Proofs.VertexGenerators
import Verif.Props.LinearUnique

/-
Properties C83 and C84: the generators of test vertices.

`Spec.InBox`, `Spec.Waypoint`, `Spec.RestAt` and `Spec.corner` say in terms of positions and constraints what
the vertices must be; `Spec.distance` is the Euclidean distance.
-/
set_option linter.unusedSectionVars false

namespace Verif

open Spec

/-! ### C83 random vertices -/

theorem box_ordered {lo hi p : List ℝ} (h : InBox lo hi p) (hl : lo.length = hi.length) :
    (List.zipWith (fun a b => decide (b < a)) lo hi).any id = false := by
  rw [List.any_eq_false]
  intro x hx
  obtain ⟨i, hi', rfl⟩ := List.mem_iff_getElem.mp hx
  simp only [List.length_zipWith] at hi'
  have h1 : i < lo.length := by omega
  have h2 : i < hi.length := by omega
  obtain ⟨a, b⟩ := h.2 i h1
  simp only [List.getD_eq_getElem?_getD, List.getElem?_eq_getElem h1, List.getElem?_eq_getElem h2,
    Option.getD_some] at a b
  simp only [List.getElem_zipWith, id_eq, decide_eq_true_eq, not_lt]
  linarith

/-- What the calls before the drawing loop leave of `createRandomVertices`. -/
theorem createRandomVertices_eq {draw : ℕ → List ℝ} {fuel : ℕ} {m : ℤ} {n : ℕ} {lo hi : List ℝ}
    (hl : lo.length = hi.length) (hbox : InBox lo hi (draw 0)) (h1 : 1 ≤ n) (hm : 0 < m)
    (hdiag : 1 / 5 ≤ distance hi lo) :
    ∃ first, RestAt lo.length m (draw 0) first ∧ first.WF ∧
      createRandomVertices Real.sqrt draw fuel m n lo hi = (do
        let ps ← randomPositions Real.sqrt draw fuel n (draw 0) 1
        let vs ← positionVertices lo.length m ps
        pure (first :: vs)) := by
  obtain ⟨first, g1, g2, g3⟩ := restAt_ok (m := m) (p := draw 0) (p' := []) (v := Vertex.new lo.length) rfl
    (vertex_new_WF _) (fun q _ => rfl) hbox.1
  refine ⟨first, g2, g3, ?_⟩
  unfold createRandomVertices
  rw [Res.check_of h1, Res.ok_bind, Res.check_of hl, Res.ok_bind, vecSub_ok hl.symm, Res.ok_bind,
    vecNorm_sub _ _ hl.symm, Res.check_of hdiag, Res.ok_bind, Res.check_of hm, Res.ok_bind,
    box_ordered hbox hl]
  simp only [Bool.false_eq_true, if_false]
  rw [g1, Res.ok_bind]

/-- **C83.** If the random numbers lie between the given bounds and `createRandomVertices` returns, it returns
`n + 1` vertices with positions in the box, each more than 0.2 from the next one. The first and the last
prescribe zero for the derivatives 1 to `m`, and nothing else is prescribed. -/
theorem C83_vertices {draw : ℕ → List ℝ} {fuel : ℕ} {m : ℤ} {n : ℕ} {lo hi : List ℝ}
    {vs : List (Vertex ℝ)} (hdraw : ∀ i, InBox lo hi (draw i))
    (h : createRandomVertices Real.sqrt draw fuel m n lo hi = .ok vs) :
    1 ≤ n ∧ 0 < m ∧ ∃ ps : List (List ℝ), ps.length = n + 1 ∧ vs.length = n + 1 ∧ (∀ v ∈ vs, v.WF) ∧
      (∀ p ∈ ps, InBox lo hi p) ∧
      (∀ i a b, ps[i]? = some a → ps[i + 1]? = some b → 1 / 5 < distance a b) ∧
      ∀ i v p, vs[i]? = some v → ps[i]? = some p →
        (i = 0 ∨ i = n → RestAt lo.length m p v) ∧ (i ≠ 0 ∧ i ≠ n → Waypoint lo.length p v) := by
  have h0 := h
  unfold createRandomVertices at h0
  rw [Res.bind_eq_ok] at h0
  obtain ⟨_, c1, h0⟩ := h0
  rw [Res.bind_eq_ok] at h0
  obtain ⟨_, c2, h0⟩ := h0
  rw [Res.bind_eq_ok] at h0
  obtain ⟨df, c3, h0⟩ := h0
  rw [Res.bind_eq_ok] at h0
  obtain ⟨_, c4, h0⟩ := h0
  rw [Res.bind_eq_ok] at h0
  obtain ⟨_, c5, -⟩ := h0
  rw [Res.check_eq_ok] at c1 c2 c4 c5
  rw [vecSub_ok c2.symm, Res.ok.injEq] at c3
  rw [← c3, vecNorm_sub _ _ c2.symm] at c4
  obtain ⟨first, g1, g2, g3⟩ := createRandomVertices_eq (fuel := fuel) (n := n) c2 (hdraw 0) c1 c5 c4
  rw [g3, Res.bind_eq_ok] at h
  obtain ⟨ps, e1, h⟩ := h
  rw [Res.bind_eq_ok] at h
  obtain ⟨ws, e2, h⟩ := h
  rw [Res.pure_eq, Res.ok.injEq] at h
  subst h
  obtain ⟨a1, a2, a3⟩ := randomPositions_ok (fun i => (hdraw i).1) n (hdraw 0).1 e1
  have hps : ∀ p ∈ ps, InBox lo hi p := fun p hp => by
    obtain ⟨j, rfl⟩ := a2 p hp
    exact hdraw j
  obtain ⟨ws', b1, b2, b3, b4⟩ := positionVertices_ok (m := m) ps fun p hp => (hps p hp).1
  rw [e2, Res.ok.injEq] at b1
  subst b1
  refine ⟨c1, c5, draw 0 :: ps, by simp [a1], by simp [b2, a1], ?_, ?_, ?_, ?_⟩
  · intro v hv
    rcases List.mem_cons.mp hv with rfl | hv
    · exact g2
    · exact b3 v hv
  · intro p hp
    rcases List.mem_cons.mp hp with rfl | hp
    · exact hdraw 0
    · exact hps p hp
  · intro i a b ha hb
    rw [List.isChain_iff_getElem] at a3
    obtain ⟨x1, x2⟩ := List.getElem?_eq_some_iff.mp ha
    obtain ⟨y1, y2⟩ := List.getElem?_eq_some_iff.mp hb
    have := a3 i y1
    rw [x2, y2] at this
    exact this
  · intro i v p hv hp
    cases i with
    | zero =>
      simp only [List.getElem?_cons_zero, Option.some.injEq] at hv hp
      subst hv hp
      exact ⟨fun _ => g1, fun hne => absurd rfl hne.1⟩
    | succ i =>
      simp only [List.getElem?_cons_succ] at hv hp
      obtain ⟨r1, r2⟩ := b4 i v p hv hp
      rw [a1] at r1 r2
      exact ⟨fun hh => r1 (by omega), fun hh => r2 hh.2⟩

/-- **C83**, partial. With bounds in order, a diagonal of at least 0.2, at least one segment and a positive
order, `createRandomVertices` returns if again and again a position is drawn that is more than 0.2 from each of
those drawn before. Missing: it does not return for every box that passes the checks (`C83_small_box_false`),
and the order of the bounds is not checked (`C83_reversed_false`). -/
theorem C83_returns_partial {draw : ℕ → List ℝ} {m : ℤ} {n : ℕ} {lo hi : List ℝ}
    (hl : lo.length = hi.length) (hdraw : ∀ i, InBox lo hi (draw i)) (h1 : 1 ≤ n) (hm : 0 < m)
    (hdiag : 1 / 5 ≤ distance hi lo)
    (hrec : ∀ i k, ∃ j ≥ i, 1 / 5 < distance (draw k) (draw j)) :
    ∃ f0, ∀ fuel ≥ f0, ∃ vs, createRandomVertices Real.sqrt draw fuel m n lo hi = .ok vs := by
  obtain ⟨f0, hf⟩ := randomPositions_returns (fun i => (hdraw i).1) hrec n 0 1
  refine ⟨f0, fun fuel hfu => ?_⟩
  obtain ⟨first, -, -, g3⟩ := createRandomVertices_eq (fuel := fuel) (n := n) hl (hdraw 0) h1 hm hdiag
  obtain ⟨ps, hps⟩ := hf fuel hfu
  obtain ⟨-, a2, -⟩ := randomPositions_ok (fun i => (hdraw i).1) n (hdraw 0).1 hps
  obtain ⟨vs, hvs, -⟩ := positionVertices_ok (D := lo.length) (m := m) ps fun p hp => by
    obtain ⟨j, rfl⟩ := a2 p hp
    exact (hdraw j).1
  exact ⟨first :: vs, by rw [g3, hps, Res.ok_bind, hvs, Res.ok_bind, Res.pure_eq]⟩

/-- **C83.** Too few segments, bounds of different sizes, a diagonal below 0.2 and orders below 1 abort. -/
theorem C83_rejected (draw : ℕ → List ℝ) (fuel : ℕ) (m : ℤ) (n : ℕ) (lo hi : List ℝ)
    (h : n = 0 ∨ lo.length ≠ hi.length ∨ distance hi lo < 1 / 5 ∨ m ≤ 0) :
    createRandomVertices Real.sqrt draw fuel m n lo hi = .abort := by
  unfold createRandomVertices
  by_cases c1 : 1 ≤ n
  · rw [Res.check_of c1, Res.ok_bind]
    by_cases c2 : lo.length = hi.length
    · rw [Res.check_of c2, Res.ok_bind, vecSub_ok c2.symm, Res.ok_bind, vecNorm_sub _ _ c2.symm]
      by_cases c3 : distance hi lo ≥ 1 / 5
      · rw [Res.check_of c3, Res.ok_bind]
        have c4 : ¬ m > 0 := by
          rcases h with h | h | h | h
          · omega
          · exact absurd c2 h
          · exact absurd c3 (not_le.mpr h)
          · omega
        rw [Res.check_of_not c4]
        rfl
      · rw [Res.check_of_not c3]
        rfl
    · rw [Res.check_of_not c2]
      rfl
  · rw [Res.check_of_not c1]
    rfl

theorem distance_single (a b : ℝ) : distance [a] [b] = |a - b| := by
  unfold distance
  simp [Real.sqrt_sq_eq_abs]

/-- **C83**, refuted: the interval from 0 to 0.3 passes the checks; if the first position drawn is the middle,
the call never returns, whatever is drawn afterwards. -/
theorem C83_small_box_false {draw : ℕ → List ℝ} (h0 : draw 0 = [3 / 20])
    (hdraw : ∀ i, InBox [0] [3 / 10] (draw i)) {m : ℤ} (hm : 0 < m) {n : ℕ} (hn : 1 ≤ n) (fuel : ℕ) :
    createRandomVertices Real.sqrt draw fuel m n [0] [3 / 10] = .hang := by
  obtain ⟨first, -, -, g3⟩ := createRandomVertices_eq (fuel := fuel) (n := n) (lo := [0]) (hi := [3 / 10]) rfl
    (hdraw 0) hn hm (by rw [distance_single]; norm_num)
  rw [g3]
  obtain ⟨n', rfl⟩ := Nat.exists_eq_succ_of_ne_zero (show n ≠ 0 by omega)
  unfold randomPositions
  rw [drawFar_hang (fun i => (hdraw i).1) (hdraw 0).1]
  · rfl
  · intro i
    have hb := hdraw i
    rw [h0]
    match hd : draw i with
    | [] => rw [hd] at hb; simp [InBox] at hb
    | [x] =>
      rw [hd] at hb
      have := hb.2 0 (by simp)
      simp only [List.getD_cons_zero] at this
      rw [distance_single, abs_le]
      constructor <;> linarith
    | x :: y :: l => rw [hd] at hb; simp [InBox] at hb

/-- **C83**, refuted: with the bounds of one dimension in the wrong order the checks pass and the constructor of
the distribution is called with arguments for which its behaviour is undefined. -/
theorem C83_reversed_false (draw : ℕ → List ℝ) {m : ℤ} (hm : 0 < m) {n : ℕ} (hn : 1 ≤ n) (fuel : ℕ) :
    createRandomVertices Real.sqrt draw fuel m n [0, 1] [1, 0] = .ub := by
  unfold createRandomVertices
  rw [Res.check_of hn, Res.ok_bind, Res.check_of (show [(0 : ℝ), 1].length = [(1 : ℝ), 0].length from rfl),
    Res.ok_bind, vecSub_ok (show [(1 : ℝ), 0].length = [(0 : ℝ), 1].length from rfl), Res.ok_bind,
    vecNorm_sub _ _ (show [(1 : ℝ), 0].length = [(0 : ℝ), 1].length from rfl), Res.check_of, Res.ok_bind, Res.check_of hm, Res.ok_bind]
  · simp
  · unfold distance
    have : (1 : ℝ) ≤ Real.sqrt 2 := by
      rw [show (1 : ℝ) = Real.sqrt 1 by simp]
      exact Real.sqrt_le_sqrt (by norm_num)
    simp [Finset.sum_range_succ]
    norm_num
    linarith

/-- **C83.** The vertices are a problem that can be given to the optimiser: with the estimated segment times,
and a derivative of order at most `m + 1`, setting up and solving succeed, and there is exactly one optimum. -/
theorem C83_optimisable {h : ℕ} {inv : Matrix (Fin h) (Fin h) ℝ → Matrix (Fin h) (Fin h) ℝ} {solve}
    {draw : ℕ → List ℝ} {fuel : ℕ} {m : ℤ} {n : ℕ} {lo hi : List ℝ} {vs : List (Vertex ℝ)}
    (hdraw : ∀ i, InBox lo hi (draw i))
    (hr : createRandomVertices Real.sqrt draw fuel m n lo hi = .ok vs) (hlo : lo ≠ [])
    {vMax aMax tf : ℝ} (hv : 0 < vMax) (ha : 0 < aMax) (h22 : h + h ≤ 22) {k : ℕ} (hk : k < h)
    (hkm : (k : ℤ) ≤ m + 1) :
    ∃ times o o', estimateSegmentTimesVelocityRamp Real.sqrt vs vMax aMax tf = .ok times ∧
      Problem h lo.length vs times ∧ Pinned k vs ∧
      (LinOpt.new lo.length : LinOpt h ℝ).setupFromVertices inv vs times k = .ok o ∧
      Session inv solve vs k times o ∧ o.solveLinear solve = .ok o' := by
  obtain ⟨h1, hm, ps, p1, p2, p3, p4, -, p6⟩ := C83_vertices hdraw hr
  have hget : ∀ i (hi' : i < vs.length), ∃ p, ps[i]? = some p ∧ vs[i].D = lo.length ∧
      vs[i].getConstraint 0 = some p ∧ p.length = lo.length := by
    intro i hi'
    have hi2 : i < ps.length := by omega
    have hx := List.getElem?_eq_getElem hi2
    obtain ⟨a, b⟩ := p6 i vs[i] ps[i] (List.getElem?_eq_getElem hi') hx
    have hlen := (p4 ps[i] (List.getElem_mem _)).1
    by_cases hc : i = 0 ∨ i = n
    · exact ⟨_, hx, (a hc).1, (a hc).2.1, hlen⟩
    · push Not at hc
      exact ⟨_, hx, (b hc).1, (b hc).2.1, hlen⟩
  obtain ⟨times, t1, t2, t3⟩ := C25_times_partial lo.length vs (by omega) (fun v hv' => by
    obtain ⟨i, hi', rfl⟩ := List.mem_iff_getElem.mp hv'
    obtain ⟨p, -, -, q2, q3⟩ := hget i hi'
    exact ⟨p, q2, q3⟩) vMax aMax tf hv ha
  have hp : Problem h lo.length vs times := by
    refine ⟨by omega, by omega, ?_, ?_, List.length_pos_of_ne_nil hlo, h22⟩
    · intro T hT
      obtain ⟨i, hi', rfl⟩ := List.mem_iff_getElem.mp hT
      obtain ⟨a, -, -, qa, -⟩ := hget i (by omega)
      obtain ⟨b, -, -, qb, -⟩ := hget (i + 1) (by omega)
      have := (t3 i hi' (by omega) a b qa qb).1
      refine le_trans ?_ this
      norm_num
    · intro v hv'
      refine ⟨p3 v hv', ?_⟩
      obtain ⟨i, hi', rfl⟩ := List.mem_iff_getElem.mp hv'
      obtain ⟨-, -, q, -⟩ := hget i hi'
      exact q
  obtain ⟨o, o', r1, r2, -, r4⟩ := C30_returns (inv := inv) (solve := solve) hp k hk
  refine ⟨times, o, o', t1, hp, ?_, r1, r2, r4⟩
  have h0 : 0 < vs.length := by omega
  obtain ⟨p, q0, -, q2, -⟩ := hget 0 h0
  obtain ⟨a, -⟩ := p6 0 vs[0] p (List.getElem?_eq_getElem h0) q0
  refine ⟨vs[0], List.getElem_mem _, fun j hj => ?_⟩
  obtain ⟨-, -, a3, -⟩ := a (.inl rfl)
  rcases Nat.eq_zero_or_pos j with rfl | hj0
  · exact ⟨p, q2⟩
  · exact ⟨_, a3 j (by omega) (by omega)⟩

/-- Draws that alternate between the ends of an interval meet the hypotheses of `C83_returns_partial`. -/
example : (∀ i, InBox [0] [1] (if i % 2 = 0 then [(0 : ℝ)] else [1])) ∧ (1 : ℝ) / 5 ≤ distance [1] [0] ∧
    ∀ i k : ℕ, ∃ j ≥ i, (1 : ℝ) / 5 <
      distance (if k % 2 = 0 then [(0 : ℝ)] else [1]) (if j % 2 = 0 then [(0 : ℝ)] else [1]) := by
  refine ⟨fun i => ?_, by rw [distance_single]; norm_num, fun i k => ?_⟩
  · split <;> exact ⟨rfl, fun d hd => by
      have : d = 0 := by simpa using hd
      subst this
      norm_num⟩
  · by_cases hk : k % 2 = 0
    · refine ⟨2 * i + 1, by omega, ?_⟩
      rw [if_pos hk, if_neg (by omega), distance_single]
      norm_num
    · refine ⟨2 * i, by omega, ?_⟩
      rw [if_neg hk, if_pos (by omega), distance_single]
      norm_num

/-- ... and a concrete call that returns, so that those of `C83_vertices` and `C83_optimisable` can be met. -/
example : ∃ vs, createRandomVertices Real.sqrt (fun i => if i % 2 = 0 then [(0 : ℝ)] else [1]) 1 4 2 [0] [1] =
    .ok vs := by
  obtain ⟨first, -, -, g⟩ := createRandomVertices_eq (draw := fun i => if i % 2 = 0 then [(0 : ℝ)] else [1])
    (fuel := 1) (m := 4) (n := 2) (lo := [0]) (hi := [1]) rfl
    ⟨rfl, fun d hd => by
      have : d = 0 := by simpa using hd
      subst this
      norm_num⟩ (by norm_num) (by norm_num) (by rw [distance_single]; norm_num)
  have e : randomPositions Real.sqrt (fun i => if i % 2 = 0 then [(0 : ℝ)] else [1]) 1 2 [0] 1 =
      .ok [[1], [0]] := by
    simp only [randomPositions, drawFar]
    norm_num [vecSub, vecNorm]
  obtain ⟨vs, hvs, -⟩ := positionVertices_ok (D := 1) (m := 4) [[(1 : ℝ)], [0]] (by simp)
  refine ⟨first :: vs, ?_⟩
  rw [g]
  have e' := e
  simp only [Nat.zero_mod, if_true] at *
  rw [e, Res.ok_bind]
  exact congrArg (fun r => Res.bind r _) hvs |>.trans (by rfl)

/-! ### C84 square vertices -/

theorem corner_length {K : Type} [Field K] (cx cy cz side : K) (i : ℕ) : (corner cx cy cz side i).length = 3 := by
  unfold corner
  split <;> rfl

theorem corner_add_four {K : Type} [Field K] (cx cy cz side : K) (i : ℕ) :
    corner cx cy cz side (i + 4) = corner cx cy cz side i := by
  unfold corner
  rw [Nat.add_mod_right]

theorem rounds_flatten {A : Type} (V : ℕ → A) (hV : ∀ i, V (i + 4) = V i) (r : ℕ) :
    (List.replicate r [V 1, V 2, V 3, V 4]).flatten = (List.range (4 * r)).map fun i => V (i + 1) := by
  have hV' : ∀ q i, V (i + 4 * q) = V i := by
    intro q
    induction q with
    | zero => simp
    | succ q ih =>
      intro i
      rw [show i + 4 * (q + 1) = (i + 4 * q) + 4 by ring, hV, ih]
  induction r with
  | zero => rfl
  | succ r ih =>
    rw [List.replicate_succ', List.flatten_append, ih, show 4 * (r + 1) = 4 * r + 1 + 1 + 1 + 1 by ring,
      List.range_succ, List.range_succ, List.range_succ, List.range_succ]
    have a1 := hV' r 1
    have a2 := hV' r 2
    have a3 := hV' r 3
    have a4 := hV' r 4
    simp only [List.flatten_cons, List.flatten_nil, List.append_nil, List.map_append, List.map_cons, List.map_nil,
      List.append_assoc, List.cons_append, List.nil_append]
    rw [show 4 * r + 1 = 1 + 4 * r by ring, show 1 + 4 * r + 1 = 2 + 4 * r by ring,
      show 4 * r + 2 + 1 = 3 + 4 * r by ring, show 3 + 4 * r + 1 = 4 + 4 * r by ring, a1, a2, a3, a4]

theorem corner_distance (cx cy cz side : ℝ) (i : ℕ) :
    distance (corner cx cy cz side i) (corner cx cy cz side (i + 1)) = |side| := by
  have h4 : i % 4 = 0 ∨ i % 4 = 1 ∨ i % 4 = 2 ∨ i % 4 = 3 := by omega
  unfold corner
  rcases h4 with h | h | h | h
  · rw [h, show (i + 1) % 4 = 1 by omega]
    simp only [distance, List.length_cons, List.length_nil, Finset.sum_range_succ, Finset.sum_range_zero,
      List.getD_cons_zero, List.getD_cons_succ]
    rw [← Real.sqrt_sq_eq_abs]
    congr 1
    ring
  · rw [h, show (i + 1) % 4 = 2 by omega]
    simp only [distance, List.length_cons, List.length_nil, Finset.sum_range_succ, Finset.sum_range_zero,
      List.getD_cons_zero, List.getD_cons_succ]
    rw [← Real.sqrt_sq_eq_abs]
    congr 1
    ring
  · rw [h, show (i + 1) % 4 = 3 by omega]
    simp only [distance, List.length_cons, List.length_nil, Finset.sum_range_succ, Finset.sum_range_zero,
      List.getD_cons_zero, List.getD_cons_succ]
    rw [← Real.sqrt_sq_eq_abs]
    congr 1
    ring
  · rw [h, show (i + 1) % 4 = 0 by omega]
    simp only [distance, List.length_cons, List.length_nil, Finset.sum_range_succ, Finset.sum_range_zero,
      List.getD_cons_zero, List.getD_cons_succ]
    rw [← Real.sqrt_sq_eq_abs]
    congr 1
    ring

theorem square_vertices {K : Type} [Field K] (m : ℤ) (cx cy cz side : K) (rounds : ℕ) (hr : 1 ≤ rounds) :
    ∃ vs, createSquareVertices m cx cy cz side rounds = .ok vs ∧ vs.length = 4 * rounds + 1 ∧
      (∀ v ∈ vs, v.WF) ∧ ∀ i v, vs[i]? = some v →
        (i = 0 ∨ i = 4 * rounds → RestAt 3 m (corner cx cy cz side i) v) ∧
        (i ≠ 0 ∧ i ≠ 4 * rounds → Waypoint 3 (corner cx cy cz side i) v) := by
  choose V hV1 hV2 hV3 using fun i => waypoint_ok (corner_length cx cy cz side i)
  have hVp : ∀ i, V (i + 4) = V i := by
    intro i
    have a := hV1 (i + 4)
    rw [corner_add_four, hV1 i, Res.ok.injEq] at a
    exact a.symm
  obtain ⟨front, f1, f2, f3⟩ := restAt_ok (m := m) (p' := []) (hV2 0).1 (hV3 0) (hV2 0).2.2
    (corner_length cx cy cz side 0)
  obtain ⟨r', rfl⟩ := Nat.exists_eq_succ_of_ne_zero (show rounds ≠ 0 by omega)
  unfold createSquareVertices
  dsimp only
  rw [if_neg (by omega)]
  have e1 := hV1 0
  have e2 := hV1 1
  have e3 := hV1 2
  have e4 := hV1 3
  have e0 : corner cx cy cz side 0 = [cx - side / 2, cy - side / 2, cz] := rfl
  have c1 : corner cx cy cz side 1 = [cx - side / 2, cy + side / 2, cz] := rfl
  have c2 : corner cx cy cz side 2 = [cx + side / 2, cy + side / 2, cz] := rfl
  have c3 : corner cx cy cz side 3 = [cx + side / 2, cy - side / 2, cz] := rfl
  rw [← e0, ← c1, ← c2, ← c3, e1, Res.ok_bind, e2, Res.ok_bind, e3, Res.ok_bind, e4, Res.ok_bind, f1,
    Res.ok_bind]
  have hlast : ∀ i, (hh : i % 4 = 0) → corner cx cy cz side i = corner cx cy cz side 0 := by
    intro i hh
    unfold corner
    rw [hh]
  have h40 : V 4 = V 0 := hVp 0
  rw [← h40, Int.toNat_natCast, rounds_flatten V hVp, show 4 * r'.succ = (4 * r' + 3) + 1 by
    rw [Nat.succ_eq_add_one]; ring, List.range_succ, List.map_append]
  have hV4 : V (4 * r' + 3 + 1) = V 0 := by
    have a := hV1 (4 * r' + 3 + 1)
    rw [hlast _ (by omega), hV1 0, Res.ok.injEq] at a
    exact a.symm
  have hsplit : front :: (List.map (fun i => V (i + 1)) (List.range (4 * r' + 3)) ++
      List.map (fun i => V (i + 1)) [4 * r' + 3]) =
      (front :: List.map (fun i => V (i + 1)) (List.range (4 * r' + 3))) ++ [V 0] := by
    simp [hV4]
  rw [hsplit, List.getLast?_append, List.dropLast_append_of_ne_nil (by simp)]
  simp only [List.getLast?_singleton, Option.some_or, List.dropLast_singleton, List.append_nil]
  rw [f1, Res.ok_bind, Res.pure_eq]
  refine ⟨_, rfl, by simp, ?_, ?_⟩
  · intro v hv
    simp only [List.cons_append, List.mem_cons, List.mem_append, List.mem_map, List.not_mem_nil, or_false] at hv
    rcases hv with rfl | ⟨i, -, rfl⟩ | rfl
    · exact f3
    · exact hV3 _
    · exact f3
  · intro i v hv
    cases i with
    | zero =>
      simp only [List.cons_append, List.getElem?_cons_zero, Option.some.injEq] at hv
      subst hv
      exact ⟨fun _ => f2, fun hh => absurd rfl hh.1⟩
    | succ i =>
      simp only [List.cons_append, List.getElem?_cons_succ] at hv
      by_cases hi : i < 4 * r' + 3
      · rw [List.getElem?_append_left (by simpa using hi)] at hv
        simp only [List.getElem?_map, List.getElem?_range hi, Option.map_some, Option.some.injEq] at hv
        subst hv
        exact ⟨fun hh => by omega, fun _ => hV2 _⟩
      · rw [List.getElem?_append_right (by simpa using hi)] at hv
        obtain ⟨hlt, -⟩ := List.getElem?_eq_some_iff.mp hv
        have hi' : i = 4 * r' + 3 := by simp at hlt; omega
        subst hi'
        simp only [List.length_map, List.length_range, Nat.sub_self, List.getElem?_cons_zero,
          Option.some.injEq] at hv
        subst hv
        refine ⟨fun _ => ?_, fun hh => absurd rfl hh.2⟩
        rw [hlast _ (by omega)]
        exact f2

/-- **C84.** For every number of rounds of at least 1, `createSquareVertices` returns four vertices per round
and the start again: the corners of the square in turn at constant height, with neighbours a side apart. The
first and the last are the same corner, with zero for the derivatives 1 to `m`; nothing else is prescribed. -/
theorem C84_square (m : ℤ) (cx cy cz side : ℝ) (rounds : ℕ) (hr : 1 ≤ rounds) :
    ∃ vs, createSquareVertices m cx cy cz side rounds = .ok vs ∧ vs.length = 4 * rounds + 1 ∧
      (∀ v ∈ vs, v.WF) ∧
      (∀ i v, vs[i]? = some v →
        (i = 0 ∨ i = 4 * rounds → RestAt 3 m (corner cx cy cz side 0) v) ∧
        (i ≠ 0 ∧ i ≠ 4 * rounds → Waypoint 3 (corner cx cy cz side i) v)) ∧
      ∀ i v w a b, vs[i]? = some v → vs[i + 1]? = some w → v.getConstraint 0 = some a →
        w.getConstraint 0 = some b → distance a b = |side| ∧ a.getLast? = some cz := by
  obtain ⟨vs, h1, h2, h3, h4⟩ := square_vertices m cx cy cz side rounds hr
  refine ⟨vs, h1, h2, h3, fun i v hv => ⟨fun hi => ?_, (h4 i v hv).2⟩, ?_⟩
  · have := (h4 i v hv).1 hi
    have e : corner cx cy cz side i = corner cx cy cz side 0 := by
      unfold corner
      rw [show i % 4 = 0 by omega]
    rw [e] at this
    exact this
  · intro i v w a b hv hw ha hb
    have key : ∀ j u c, vs[j]? = some u → u.getConstraint 0 = some c → c = corner cx cy cz side j := by
      intro j u c hu hc
      obtain ⟨x, y⟩ := h4 j u hu
      by_cases hj : j = 0 ∨ j = 4 * rounds
      · rw [(x hj).2.1, Option.some.injEq] at hc
        exact hc.symm
      · push Not at hj
        rw [(y hj).2.1, Option.some.injEq] at hc
        exact hc.symm
    rw [key _ _ _ hv ha, key _ _ _ hw hb]
    refine ⟨corner_distance _ _ _ _ _, ?_⟩
    unfold corner
    split <;> rfl

/-- **C84.** With zero rounds there is one vertex, with a negative number an exception is thrown. -/
theorem C84_degenerate (m : ℤ) (cx cy cz side : ℝ) :
    (∃ v, createSquareVertices m cx cy cz side 0 = .ok [v] ∧ RestAt 3 m (corner cx cy cz side 0) v) ∧
    ∀ rounds < 0, createSquareVertices m cx cy cz side rounds = .throws := by
  refine ⟨?_, fun r hr => by unfold createSquareVertices; simp [hr]⟩
  choose V hV1 hV2 hV3 using fun i => waypoint_ok (corner_length cx cy cz side i)
  obtain ⟨front, f1, f2, f3⟩ := restAt_ok (m := m) (p' := []) (hV2 0).1 (hV3 0) (hV2 0).2.2
    (corner_length cx cy cz side 0)
  obtain ⟨front', g1, g2, g3⟩ : ∃ v', front.makeStartOrEnd (corner cx cy cz side 0) m = .ok v' ∧
      RestAt 3 m (corner cx cy cz side 0) v' ∧ v'.WF := by
    obtain ⟨v', a1, a2, a3, a4⟩ := (vertexOp_run front f3
      (.makeStartOrEnd (corner cx cy cz side 0) m)).1 (by
        show _ = _
        rw [f2.1]
        exact corner_length _ _ _ _ _)
    refine ⟨v', a1, ⟨a2.trans f2.1, ?_, fun q q1 q2 => ?_, fun q hq => ?_⟩, a3⟩
    · rw [a4]; simp [VertexOp.effect]
    · rw [a4]
      simp only [VertexOp.effect]
      rw [if_neg (by omega), if_pos ⟨q1, q2⟩, f2.1]
    · rw [a4]
      simp only [VertexOp.effect]
      rw [if_neg (by omega), if_neg (by omega)]
      exact f2.2.2.2 q hq
  refine ⟨front', ?_, g2⟩
  unfold createSquareVertices
  dsimp only
  rw [if_neg (by omega)]
  have e1 := hV1 0
  have e2 := hV1 1
  have e3 := hV1 2
  have e4 := hV1 3
  have e0 : corner cx cy cz side 0 = [cx - side / 2, cy - side / 2, cz] := rfl
  have c1 : corner cx cy cz side 1 = [cx - side / 2, cy + side / 2, cz] := rfl
  have c2 : corner cx cy cz side 2 = [cx + side / 2, cy + side / 2, cz] := rfl
  have c3 : corner cx cy cz side 3 = [cx + side / 2, cy - side / 2, cz] := rfl
  rw [← e0, ← c1, ← c2, ← c3, e1, Res.ok_bind, e2, Res.ok_bind, e3, Res.ok_bind, e4, Res.ok_bind, f1,
    Res.ok_bind]
  simp only [Int.toNat_zero, List.replicate_zero, List.flatten_nil, List.getLast?_singleton,
    List.dropLast_singleton, List.nil_append]
  rw [g1, Res.ok_bind, Res.pure_eq]

end Verif
