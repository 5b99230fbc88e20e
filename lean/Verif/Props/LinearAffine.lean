import Verif.Proofs.LinOptImage

/-
The result of the linear optimiser depends linearly on the vertices.
-/
namespace Verif

open Spec Set

set_option linter.unusedSectionVars false

section
variable {h : ℕ} {k : ℕ} {times : List ℝ}

/-! ### C88 images of a problem -/

/-- **C88.** Two problems with the same times, the second of which prescribes at every vertex the image of what
the first prescribes under `x ↦ A x + b` (for example moved, rotated, mirrored, magnified, or restricted to
some coordinates): the second trajectory is the image of the first, with all derivatives. If the position
itself is what is optimised (`k = 0`) there must be no offset. -/
theorem C88_image {inv solve inv' solve'} (hinv : IsInverse inv) (hsolve : IsSolver solve)
    (hinv' : IsInverse inv') (hsolve' : IsSolver solve')
    {vs vs' : List (Vertex ℝ)} {o1 o1' o2 o2' : LinOpt h ℝ}
    (hs1 : Session inv solve vs k times o1) (ho1 : o1.solveLinear solve = .ok o1')
    (hs2 : Session inv' solve' vs' k times o2) (ho2 : o2.solveLinear solve' = .ok o2')
    {n m : ℕ} (hn : o1.dimension = n) (hm : o2.dimension = m)
    {A : Fin m → Fin n → ℝ} {b : Fin m → ℝ} (hb : k = 0 → b = 0)
    (hpin : Pinned k vs) (him : List.Forall₂ (Image A b) vs vs') :
    ∃ tr1 tr2, o1'.getTrajectory = .ok tr1 ∧ o2'.getTrajectory = .ok tr2 ∧
      tr2.getSegmentTimes = tr1.getSegmentTimes ∧ ∀ t ≤ tr1.maxTime, ∀ q : ℕ,
        ∃ w, tr1.evaluate t q = .ok w ∧ tr2.evaluate t q = .ok (affineAt A b q w) := by
  subst hn hm
  have s1 := solved_of_session hinv hsolve hs1 ho1
  have s2 := solved_of_session hinv' hsolve' hs2 ho2
  obtain ⟨hpos, hne⟩ := problem_pos s1.prob
  obtain ⟨tr1, t1, w1, d1, m1, g1, e1⟩ := shape_trajectory s1.shape s1.coeffs hne s1.prob.times_pos s1.prob.small
  obtain ⟨tr2, t2, w2, d2, m2, g2, e2⟩ := shape_trajectory s2.shape s2.coeffs hne s2.prob.times_pos s2.prob.small
  refine ⟨tr1, tr2, t1, t2, by rw [e1, e2], fun t ht q => ?_⟩
  rw [m1] at ht
  obtain ⟨i, hi, x, hx⟩ := evaluate_index hne ht
  obtain ⟨x1, hx1, v1⟩ := hx tr1 w1 e1 q
  obtain ⟨x2, hx2, v2⟩ := hx tr2 w2 e2 q
  rw [g1] at hx1
  rw [g2] at hx2
  refine ⟨_, v1, ?_⟩
  rw [v2, segValue_cf s1.shape hx1, segValue_cf s2.shape hx2]
  congr 1
  unfold affineAt affine
  apply List.ext_getElem (by simp)
  intro d h1 h2
  have hd : d < o2.dimension := by simpa using h1
  have key := solved_affine hb s1 s2 hpin him i hi ⟨d, hd⟩ q x
  simp only [List.getElem_map, List.getElem_range, List.getElem_ofFn]
  rw [key]
  congr 1
  · refine Finset.sum_congr rfl fun j _ => ?_
    simp [List.getD_eq_getElem?_getD]
  · split <;> rfl

/-! ### C89 superposition -/

/-- **C89.** If the values prescribed at every vertex are `α w₁ + β w₂` for the values `w₁`, `w₂` prescribed by
two other problems with the same times, so are those of the trajectory, for all derivatives. -/
theorem C89_superposition {inv solve} (hinv : IsInverse inv) (hsolve : IsSolver solve)
    {vs₁ vs₂ vs : List (Vertex ℝ)} {o1 o1' o2 o2' o3 o3' : LinOpt h ℝ}
    (hs1 : Session inv solve vs₁ k times o1) (ho1 : o1.solveLinear solve = .ok o1')
    (hs2 : Session inv solve vs₂ k times o2) (ho2 : o2.solveLinear solve = .ok o2')
    (hs3 : Session inv solve vs k times o3) (ho3 : o3.solveLinear solve = .ok o3')
    (hd1 : o1.dimension = o3.dimension) (hd2 : o2.dimension = o3.dimension) (hpin : Pinned k vs) {α β : ℝ}
    (hc : ∀ (i : ℕ) v₁ v₂ v, vs₁[i]? = some v₁ → vs₂[i]? = some v₂ → vs[i]? = some v → Combines α β v₁ v₂ v) :
    ∃ tr1 tr2 tr3, o1'.getTrajectory = .ok tr1 ∧ o2'.getTrajectory = .ok tr2 ∧ o3'.getTrajectory = .ok tr3 ∧
      ∀ t ≤ tr3.maxTime, ∀ q : ℕ, ∃ w₁ w₂, tr1.evaluate t q = .ok w₁ ∧ tr2.evaluate t q = .ok w₂ ∧
        tr3.evaluate t q = .ok (List.zipWith (fun x y => α * x + β * y) w₁ w₂) := by
  have s1 := solved_of_session hinv hsolve hs1 ho1
  have s2 := solved_of_session hinv hsolve hs2 ho2
  have s3 := solved_of_session hinv hsolve hs3 ho3
  rw [hd1] at s1
  rw [hd2] at s2
  obtain ⟨hpos, hne⟩ := problem_pos s1.prob
  obtain ⟨tr1, t1, w1, d1, m1, g1, e1⟩ := shape_trajectory s1.shape s1.coeffs hne s1.prob.times_pos s1.prob.small
  obtain ⟨tr2, t2, w2, d2, m2, g2, e2⟩ := shape_trajectory s2.shape s2.coeffs hne s2.prob.times_pos s2.prob.small
  obtain ⟨tr3, t3, w3, d3, m3, g3, e3⟩ := shape_trajectory s3.shape s3.coeffs hne s3.prob.times_pos s3.prob.small
  refine ⟨tr1, tr2, tr3, t1, t2, t3, fun t ht q => ?_⟩
  rw [m3] at ht
  obtain ⟨i, hi, x, hx⟩ := evaluate_index hne ht
  obtain ⟨x1, hx1, v1⟩ := hx tr1 w1 e1 q
  obtain ⟨x2, hx2, v2⟩ := hx tr2 w2 e2 q
  obtain ⟨x3, hx3, v3⟩ := hx tr3 w3 e3 q
  rw [g1] at hx1
  rw [g2] at hx2
  rw [g3] at hx3
  refine ⟨_, _, v1, v2, ?_⟩
  rw [v3, segValue_cf s1.shape hx1, segValue_cf s2.shape hx2, segValue_cf s3.shape hx3]
  congr 1
  apply List.ext_getElem (by simp)
  intro d h1 h2
  have hd : d < o3.dimension := by simpa using h1
  have c1 := s1.prob.count
  have c2 := s2.prob.count
  have c3 := s3.prob.count
  have key := solved_combines s1 s2 s3 hpin (by omega) (by omega) hc i hi d hd q x
  simpa using key

/-! ### C90 coordinates -/

/-- **C90.** A coordinate of the trajectory depends only on what is prescribed for this coordinate (and on the
times and on which orders are prescribed): two problems that agree in coordinate `d`, whatever the others and
however many, have trajectories that agree in coordinate `d` with all derivatives. -/
theorem C90_coordinate {inv solve inv' solve'} (hinv : IsInverse inv) (hsolve : IsSolver solve)
    (hinv' : IsInverse inv') (hsolve' : IsSolver solve')
    {vs vs' : List (Vertex ℝ)} {o1 o1' o2 o2' : LinOpt h ℝ}
    (hs1 : Session inv solve vs k times o1) (ho1 : o1.solveLinear solve = .ok o1')
    (hs2 : Session inv' solve' vs' k times o2) (ho2 : o2.solveLinear solve' = .ok o2')
    {d : ℕ} (hd1 : d < o1.dimension) (hd2 : d < o2.dimension) (hpin : Pinned k vs)
    (hag : List.Forall₂ (AgreesAt d) vs vs') :
    ∃ tr1 tr2, o1'.getTrajectory = .ok tr1 ∧ o2'.getTrajectory = .ok tr2 ∧ ∀ t ≤ tr1.maxTime, ∀ q : ℕ,
      ∃ w w' x, tr1.evaluate t q = .ok w ∧ tr2.evaluate t q = .ok w' ∧ w[d]? = some x ∧ w'[d]? = some x := by
  have s1 := solved_of_session hinv hsolve hs1 ho1
  have s2 := solved_of_session hinv' hsolve' hs2 ho2
  set u : Fin o1.dimension → ℝ := fun j => if (j : ℕ) = d then 1 else 0 with hu
  set u' : Fin o2.dimension → ℝ := fun j => if (j : ℕ) = d then 1 else 0 with hu'
  have dot : ∀ (n : ℕ) (hn : d < n) (f : Fin n → ℝ),
      ∑ j : Fin n, (if (j : ℕ) = d then (1 : ℝ) else 0) * f j = f ⟨d, hn⟩ := by
    intro n hn f
    rw [Finset.sum_eq_single ⟨d, hn⟩]
    · simp
    · intro j _ hj
      rw [if_neg (fun h0 => hj (Fin.ext h0)), zero_mul]
    · simp
  obtain ⟨o3, s3⟩ := solved_exists s1.k_lt (dot_problem u s1.prob)
  have hpin' : Pinned k vs' := by
    obtain ⟨v, hv, hc⟩ := hpin
    obtain ⟨i, hi⟩ := List.getElem?_of_mem hv
    rcases pinAt_forall₂ hag i with ⟨h1, -⟩ | ⟨w, w', h1, h2, h3⟩
    · rw [h1] at hi; cases hi
    · rw [h1, Option.some.injEq] at hi
      subst hi
      refine ⟨w', List.mem_of_getElem? h2, fun q hq => ?_⟩
      obtain ⟨c, hc⟩ := hc q hq
      have := h3 q
      rw [hc] at this
      obtain ⟨c', hc', -⟩ := Option.map_eq_some_iff.mp this.symm
      exact ⟨c', hc'⟩
  have im1 : List.Forall₂ (Image (fun _ : Fin 1 => u) 0) vs (vs.map (dotVertex u)) := by
    refine forall₂_map_right fun v hv q => ?_
    rw [dotVertex_get]
    unfold affineAt affine
    simp
  have im2 : List.Forall₂ (Image (fun _ : Fin 1 => u') 0) vs' (vs.map (dotVertex u)) := by
    rw [List.forall₂_map_right_iff]
    refine hag.flip.imp fun v' v hvv q => ?_
    rw [dotVertex_get]
    unfold affineAt affine
    have e1 : ∀ w : List ℝ, ∑ j, u j * w.getD j 0 = w.getD d 0 := fun w =>
      dot _ hd1 fun j => w.getD j 0
    have e2 : ∀ w : List ℝ, ∑ j, u' j * w.getD j 0 = w.getD d 0 := fun w =>
      dot _ hd2 fun j => w.getD j 0
    have h1 := hvv q
    simp only [e1, e2, ite_self, Pi.zero_apply, add_zero, List.ofFn_succ, List.ofFn_zero]
    have := congrArg (Option.map fun x : ℝ => [x]) h1
    simpa [Option.map_map, Function.comp_def] using this
  obtain ⟨hpos, hne⟩ := problem_pos s1.prob
  obtain ⟨tr1, t1, w1, d1, m1, g1, e1⟩ := shape_trajectory s1.shape s1.coeffs hne s1.prob.times_pos s1.prob.small
  obtain ⟨tr2, t2, w2, d2, m2, g2, e2⟩ := shape_trajectory s2.shape s2.coeffs hne s2.prob.times_pos s2.prob.small
  refine ⟨tr1, tr2, t1, t2, fun t ht q => ?_⟩
  rw [m1] at ht
  obtain ⟨i, hi, x, hx⟩ := evaluate_index hne ht
  obtain ⟨x1, hx1, v1⟩ := hx tr1 w1 e1 q
  obtain ⟨x2, hx2, v2⟩ := hx tr2 w2 e2 q
  rw [g1] at hx1
  rw [g2] at hx2
  have k1 := solved_affine (fun _ => rfl) s1 s3 hpin im1 i hi 0 q x
  have k2 := solved_affine (fun _ => rfl) s2 s3 hpin' im2 i hi 0 q x
  rw [k1] at k2
  have r1 := dot _ hd1 fun j => dvL (h + h) q x (cf o1'.segments i j)
  have r2 := dot _ hd2 fun j => dvL (h + h) q x (cf o2'.segments i j)
  simp only [Pi.zero_apply, ite_self, add_zero, hu, hu'] at k2
  rw [r1, r2] at k2
  refine ⟨_, _, dvL (h + h) q x (cf o1'.segments i d), v1, v2, ?_, ?_⟩
  · rw [segValue_cf s1.shape hx1]
    simp [hd1]
  · rw [segValue_cf s2.shape hx2]
    simp [hd2, k2]

/-! ### C91 planes -/

/-- **C91.** If everything prescribed lies in a plane `u · p = c` (a constant altitude, say), so does the whole
trajectory, and its derivatives are parallel to the plane. (If the position itself is minimised the plane must
contain the origin.) -/
theorem C91_plane {inv solve} (hinv : IsInverse inv) (hsolve : IsSolver solve)
    {vs : List (Vertex ℝ)} {o o' : LinOpt h ℝ}
    (hs : Session inv solve vs k times o) (ho : o.solveLinear solve = .ok o') (hpin : Pinned k vs)
    {n : ℕ} (hn : o.dimension = n) {u : Fin n → ℝ} {c : ℝ} (hc : k = 0 → c = 0) (hpl : ∀ v ∈ vs, InPlane u c v) :
    ∃ tr, o'.getTrajectory = .ok tr ∧ ∀ t ≤ tr.maxTime, ∀ q : ℕ,
      ∃ w, tr.evaluate t q = .ok w ∧ w.length = n ∧ ∑ j, u j * w.getD j 0 = if q = 0 then c else 0 := by
  subst hn
  have s1 := solved_of_session hinv hsolve hs ho
  obtain ⟨o3, s3⟩ := solved_exists s1.k_lt (dot_problem u s1.prob)
  have im1 : List.Forall₂ (Image (fun _ : Fin 1 => u) 0) vs (vs.map (dotVertex u)) := by
    refine forall₂_map_right fun v hv q => ?_
    rw [dotVertex_get]
    unfold affineAt affine
    simp
  have im2 : List.Forall₂ (Image (fun _ : Fin 1 => (0 : Fin o.dimension → ℝ)) fun _ => c) vs
      (vs.map (dotVertex u)) := by
    refine forall₂_map_right fun v hv q => ?_
    rw [dotVertex_get]
    unfold affineAt affine
    cases hq : v.getConstraint q with
    | none => rfl
    | some w =>
      simp only [Option.map_some, Pi.zero_apply, zero_mul, Finset.sum_const_zero, zero_add, List.ofFn_succ,
        List.ofFn_zero]
      rw [hpl v hv q w hq]
      split <;> rfl
  obtain ⟨hpos, hne⟩ := problem_pos s1.prob
  obtain ⟨tr1, t1, w1, d1, m1, g1, e1⟩ := shape_trajectory s1.shape s1.coeffs hne s1.prob.times_pos s1.prob.small
  refine ⟨tr1, t1, fun t ht q => ?_⟩
  rw [m1] at ht
  obtain ⟨i, hi, x, hx⟩ := evaluate_index hne ht
  obtain ⟨x1, hx1, v1⟩ := hx tr1 w1 e1 q
  rw [g1] at hx1
  have k1 := solved_affine (fun _ => rfl) s1 s3 hpin im1 i hi 0 q x
  have k2 := solved_affine (fun h0 => by rw [hc h0]; rfl) s1 s3 hpin im2 i hi 0 q x
  rw [k1] at k2
  simp only [Pi.zero_apply, ite_self, add_zero, zero_mul, Finset.sum_const_zero, zero_add] at k2
  refine ⟨_, v1, ?_, ?_⟩
  · rw [segValue_cf s1.shape hx1]; simp
  · rw [segValue_cf s1.shape hx1, ← k2]
    refine Finset.sum_congr rfl fun j _ => ?_
    simp [List.getD_eq_getElem?_getD]

/-! ### Examples -/

/-- Three vertices in the plane: at rest at `p`, through `q`, at rest at `r`. -/
def exThree (p q r : ℝ × ℝ) : List (Vertex ℝ) :=
  [⟨2, [(0, [p.1, p.2]), (1, [0, 0])]⟩, ⟨2, [(0, [q.1, q.2])]⟩, ⟨2, [(0, [r.1, r.2]), (1, [0, 0])]⟩]

theorem exThree_problem (p q r : ℝ × ℝ) : Problem 2 2 (exThree p q r) [1, 2] where
  count := rfl
  two := by simp [exThree]
  times_pos := by
    intro T hT
    simp only [List.mem_cons, List.not_mem_nil, or_false] at hT
    rcases hT with rfl | rfl <;> norm_num
  wf := by
    intro v hv
    simp only [exThree, List.mem_cons, List.not_mem_nil, or_false] at hv
    rcases hv with rfl | rfl | rfl <;> exact ⟨⟨by simp, by simp⟩, rfl⟩
  dim_pos := by norm_num
  small := by norm_num

theorem exThree_pinned (p q r : ℝ × ℝ) : Pinned 1 (exThree p q r) := by
  refine ⟨⟨2, [(0, [p.1, p.2]), (1, [0, 0])]⟩, by simp [exThree], fun m hm => ⟨[p.1, p.2], ?_⟩⟩
  have : m = 0 := by omega
  subst this
  rfl

theorem exThree_session (p q r : ℝ × ℝ) : ∃ o o' : LinOpt 2 ℝ,
    Session (exLib 2).inv (exLib 2).solve (exThree p q r) 1 [1, 2] o ∧ o.dimension = 2 ∧
    o.solveLinear (exLib 2).solve = .ok o' := by
  obtain ⟨o, o', -, h2, h3, h4⟩ := C30_returns (inv := (exLib 2).inv) (solve := (exLib 2).solve)
    (exThree_problem p q r) 1 (by norm_num)
  exact ⟨o, o', h2, h3, h4⟩

theorem mapFind_two {V : Type} (a b : V) (q : ℕ) :
    mapFind (q : ℤ) [((0 : ℤ), a), (1, b)] = if q = 0 then some a else if q = 1 then some b else none := by
  simp only [mapFind]
  rcases q with _ | _ | q
  · rfl
  · rfl
  · rw [if_neg (by push_cast; omega), if_neg (by push_cast; omega), if_neg (by omega), if_neg (by omega)]

theorem mapFind_one {V : Type} (a : V) (q : ℕ) :
    mapFind (q : ℤ) [((0 : ℤ), a)] = if q = 0 then some a else none := by
  simp only [mapFind]
  rcases q with _ | q
  · rfl
  · rw [if_neg (by push_cast; omega), if_neg (by omega)]

/-- A quarter turn about the origin, then a shift by (1, 2). -/
theorem exThree_image (p q r : ℝ × ℝ) : List.Forall₂ (Image ![![0, -1], ![1, 0]] ![1, 2]) (exThree p q r)
    (exThree (1 - p.2, 2 + p.1) (1 - q.2, 2 + q.1) (1 - r.2, 2 + r.1)) := by
  have two : ∀ x : ℝ × ℝ, Image ![![0, -1], ![1, 0]] ![1, 2] ⟨2, [(0, [x.1, x.2]), (1, [0, 0])]⟩
      ⟨2, [(0, [1 - x.2, 2 + x.1]), (1, [0, 0])]⟩ := by
    intro x m
    unfold Vertex.getConstraint
    rw [mapFind_two, mapFind_two]
    unfold affineAt affine
    split
    · simp [Fin.sum_univ_two]; constructor <;> ring
    · split
      · simp [Fin.sum_univ_two]
      · rfl
  have one : ∀ x : ℝ × ℝ, Image ![![0, -1], ![1, 0]] ![1, 2] ⟨2, [(0, [x.1, x.2])]⟩
      ⟨2, [(0, [1 - x.2, 2 + x.1])]⟩ := by
    intro x m
    unfold Vertex.getConstraint
    rw [mapFind_one, mapFind_one]
    unfold affineAt affine
    split
    · simp [Fin.sum_univ_two]; constructor <;> ring
    · rfl
  exact .cons (two p) (.cons (one q) (.cons (two r) .nil))

/-- The hypotheses of C88 are met by the quarter turn of a path from (0, 0) by (1, 1) to (3, 0). -/
example : ∃ o1 o1' o2 o2' : LinOpt 2 ℝ, IsInverse (exLib 2).inv ∧ IsSolver (exLib 2).solve ∧
    Session (exLib 2).inv (exLib 2).solve (exThree (0, 0) (1, 1) (3, 0)) 1 [1, 2] o1 ∧ o1.dimension = 2 ∧
    o1.solveLinear (exLib 2).solve = .ok o1' ∧
    Session (exLib 2).inv (exLib 2).solve (exThree (1 - 0, 2 + 0) (1 - 1, 2 + 1) (1 - 0, 2 + 3)) 1 [1, 2] o2 ∧
    o2.dimension = 2 ∧ o2.solveLinear (exLib 2).solve = .ok o2' ∧
    Pinned 1 (exThree (0, 0) (1, 1) (3, 0)) ∧
    List.Forall₂ (Image ![![0, -1], ![1, 0]] ![1, 2]) (exThree (0, 0) (1, 1) (3, 0))
      (exThree (1 - 0, 2 + 0) (1 - 1, 2 + 1) (1 - 0, 2 + 3)) := by
  obtain ⟨o1, o1', a1, a2, a3⟩ := exThree_session (0, 0) (1, 1) (3, 0)
  obtain ⟨o2, o2', b1, b2, b3⟩ := exThree_session (1 - 0, 2 + 0) (1 - 1, 2 + 1) (1 - 0, 2 + 3)
  exact ⟨o1, o1', o2, o2', exLib_spec.inv, exLib_spec.solve, a1, a2, a3, b1, b2, b3, exThree_pinned _ _ _,
    exThree_image _ _ _⟩

/-- Those of C89 by twice one path minus another. -/
example : Pinned 1 (exThree (1, 0) (1, 2) (5, 0)) ∧ ∀ (i : ℕ) v₁ v₂ v,
    (exThree (1, 1) (2, 2) (3, 0))[i]? = some v₁ → (exThree (1, 2) (3, 2) (1, 0))[i]? = some v₂ →
    (exThree (1, 0) (1, 2) (5, 0))[i]? = some v → Combines 2 (-1) v₁ v₂ v := by
  refine ⟨exThree_pinned _ _ _, ?_⟩
  have two : ∀ x y : ℝ × ℝ, Combines 2 (-1) ⟨2, [(0, [x.1, x.2]), (1, [0, 0])]⟩
      ⟨2, [(0, [y.1, y.2]), (1, [0, 0])]⟩
      ⟨2, [(0, [2 * x.1 + -1 * y.1, 2 * x.2 + -1 * y.2]), (1, [0, 0])]⟩ := by
    intro x y m
    unfold Vertex.getConstraint
    rw [mapFind_two, mapFind_two, mapFind_two]
    split
    · simp
    · split
      · simp
      · simp
  have one : ∀ x y : ℝ × ℝ, Combines 2 (-1) ⟨2, [(0, [x.1, x.2])]⟩ ⟨2, [(0, [y.1, y.2])]⟩
      ⟨2, [(0, [2 * x.1 + -1 * y.1, 2 * x.2 + -1 * y.2])]⟩ := by
    intro x y m
    unfold Vertex.getConstraint
    rw [mapFind_one, mapFind_one, mapFind_one]
    split
    · simp
    · simp
  intro i v₁ v₂ v h1 h2 h3
  rcases i with _ | _ | _ | i
  · simp only [exThree, List.getElem?_cons_zero, Option.some.injEq] at h1 h2 h3
    subst h1 h2 h3
    have := two (1, 1) (1, 2)
    norm_num at this ⊢
    exact this
  · simp only [exThree, List.getElem?_cons_succ, List.getElem?_cons_zero, Option.some.injEq] at h1 h2 h3
    subst h1 h2 h3
    have := one (2, 2) (3, 2)
    norm_num at this ⊢
    exact this
  · simp only [exThree, List.getElem?_cons_succ, List.getElem?_cons_zero, Option.some.injEq] at h1 h2 h3
    subst h1 h2 h3
    have := two (3, 0) (1, 0)
    norm_num at this ⊢
    exact this
  · simp [exThree] at h1

/-- Those of C90 by two paths with the same second coordinate. -/
example : List.Forall₂ (AgreesAt 1) (exThree (1, 1) (2, 2) (3, 0)) (exThree (7, 1) (8, 2) (9, 0)) := by
  refine .cons ?_ (.cons ?_ (.cons ?_ .nil)) <;> intro m <;> unfold Vertex.getConstraint
  · rw [mapFind_two, mapFind_two]
    split
    · simp
    · rfl
  · rw [mapFind_one, mapFind_one]
    split
    · simp
    · rfl
  · rw [mapFind_two, mapFind_two]
    split
    · simp
    · rfl

/-- Those of C91 by a path on the line `x + y = 4`. -/
example : ∀ v ∈ exThree (1, 3) (2, 2) (4, 0), InPlane ![1, 1] 4 v := by
  intro v hv m w hw
  simp only [exThree, List.mem_cons, List.not_mem_nil, or_false] at hv
  unfold Vertex.getConstraint at hw
  rcases hv with rfl | rfl | rfl
  · rw [mapFind_two] at hw
    split at hw
    · rename_i h0
      simp only [Option.some.injEq] at hw
      subst hw
      norm_num [h0, Fin.sum_univ_two]
    · rename_i h0
      split at hw
      · simp only [Option.some.injEq] at hw
        subst hw
        simp [h0, Fin.sum_univ_two]
      · cases hw
  · rw [mapFind_one] at hw
    split at hw
    · rename_i h0
      simp only [Option.some.injEq] at hw
      subst hw
      norm_num [h0, Fin.sum_univ_two]
    · cases hw
  · rw [mapFind_two] at hw
    split at hw
    · rename_i h0
      simp only [Option.some.injEq] at hw
      subst hw
      norm_num [h0, Fin.sum_univ_two]
    · rename_i h0
      split at hw
      · simp only [Option.some.injEq] at hw
        subst hw
        simp [h0, Fin.sum_univ_two]
      · cases hw

end
end Verif
