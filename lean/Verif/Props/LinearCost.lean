import Verif.Proofs.LinOptInsert
import Verif.Props.LinearReverse
import Verif.Props.LinearUnique
import Verif.Spec.LinearCost

/-
How the cost of the linear optimiser's result depends on the problem.
-/
namespace Verif

open Spec Set

set_option linter.unusedSectionVars false

section
variable {h k : ℕ}

theorem meets_of_extends {dim : ℕ} {vs vs' : List (Vertex ℝ)} {segs : List (Segment ℝ)}
    (hext : List.Forall₂ Extends vs vs') (hm : MeetsConstraints h dim vs' segs) : MeetsConstraints h dim vs segs := by
  intro i v hv q hq c hc d hd
  rcases pinAt_forall₂ hext i with ⟨h1, -⟩ | ⟨w, w', h1, h2, h3⟩
  · rw [h1] at hv; cases hv
  · rw [h1, Option.some.injEq] at hv
    subst hv
    exact hm i w' h2 q hq c (h3 q c hc) d hd

theorem solved_in {vs : List (Vertex ℝ)} {dim : ℕ} {times : List ℝ} {o' : LinOpt h ℝ} (s : Solved vs k dim times o')
    {tr : Trajectory ℝ} (ht : o'.getTrajectory = .ok tr) {i q : ℕ} (hi : i < times.length) (hq : q < h) {x : ℝ}
    (h0 : 0 ≤ x) (h1 : x ≤ times.getD i 0) :
    tr.evaluate (startTime times i + x) q = .ok ((List.range dim).map fun d => dvL (h + h) q x (cf o'.segments i d)) := by
  obtain ⟨hpos, hne⟩ := problem_pos s.prob
  obtain ⟨tr', t1, w1, d1, m1, g1, e1⟩ := shape_trajectory s.shape s.coeffs hne s.prob.times_pos s.prob.small
  rw [ht, Res.ok.injEq] at t1
  subst t1
  have l1 : tr.segments.length = times.length := by rw [← getSegmentTimes_length, e1]
  have hsome : o'.segments[i]? = some (tr.segments[i]'(by omega)) := by
    rw [← g1]; exact List.getElem?_eq_getElem _
  rw [← e1, evaluate_in tr w1 (joins_of_continuous s.shape s.cont g1 hq) (by omega : i < tr.segments.length) h0
    (by rw [shape_time_getD s.shape hsome]; exact h1), segValue_cf s.shape hsome]

theorem meets_of_attains {vs vs' : List (Vertex ℝ)} {dim : ℕ} {times : List ℝ} {o' : LinOpt h ℝ}
    (s : Solved vs k dim times o') {tr : Trajectory ℝ} (ht : o'.getTrajectory = .ok tr) (ha : Attains h times tr vs') :
    MeetsConstraints h dim vs' o'.segments := by
  obtain ⟨hpos, hne⟩ := problem_pos s.prob
  rw [meets_iff s.shape]
  intro i q hq c hc d hd
  unfold pinAt at hc
  obtain ⟨v, hv, hc⟩ := Option.bind_eq_some_iff.mp hc
  have key : tr.evaluate (startTime times i) q = .ok c := ha i v hv q hq c hc
  have fin : ∀ f : ℕ → ℝ, (Res.ok ((List.range dim).map f) : Res (List ℝ)) = .ok c → f d = c.getD d 0 := by
    intro f hf
    rw [Res.ok.injEq] at hf
    rw [← hf]
    simp [List.getD_eq_getElem?_getD, hd]
  refine ⟨fun hi => ?_, fun j hj hjl => ?_⟩
  · have hT : 0 ≤ times.getD i 0 := by
      simp only [List.getD_eq_getElem?_getD, List.getElem?_eq_getElem hi, Option.getD_some]
      exact (hpos _ (List.getElem_mem hi)).le
    have := solved_in s ht hi hq le_rfl hT
    rw [add_zero, key] at this
    exact fin _ this.symm
  · subst hj
    have hT : 0 ≤ times.getD j 0 := by
      simp only [List.getD_eq_getElem?_getD, List.getElem?_eq_getElem hjl, Option.getD_some]
      exact (hpos _ (List.getElem_mem hjl)).le
    have := solved_in s ht hjl hq hT le_rfl
    have e : startTime times j + times.getD j 0 = startTime times (j + 1) := by
      rw [startTime_succ times j hjl]
      simp [List.getD_eq_getElem?_getD, List.getElem?_eq_getElem hjl]
    rw [e, key] at this
    exact fin _ this.symm

/-! ### C106 asking for more costs more -/

/-- **C106.** Two problems with the same times and dimension, the second of which prescribes at every vertex what
the first prescribes and possibly more: the cost reported for the second is not smaller. -/
theorem C106_more_constraints {inv solve inv' solve'} (hinv : IsInverse inv) (hsolve : IsSolver solve)
    (hinv' : IsInverse inv') {vs vs' : List (Vertex ℝ)} {times : List ℝ}
    {o1 o1' o2 o2' : LinOpt h ℝ} (hs1 : Session inv solve vs k times o1) (ho1 : o1.solveLinear solve = .ok o1')
    (hs2 : Session inv' solve' vs' k times o2)
    (ho2 : o2.solveLinear solve' = .ok o2' ∨ ∃ free, o2.setFreeConstraints free = .ok o2')
    (hd : o2.dimension = o1.dimension) (hext : List.Forall₂ Extends vs vs') :
    ∃ c1 c2, o1'.computeCost = .ok c1 ∧ o2'.computeCost = .ok c2 ∧ c1 ≤ c2 := by
  refine ⟨_, _, C32_computeCost hinv hs1 (.inl ho1), C32_computeCost hinv' hs2 ho2, ?_⟩
  obtain ⟨b1, b2, b3, -, -, -⟩ := session_result hinv' hs2 ho2
  rw [hd] at b1 b2 b3
  exact (solved_of_session hinv hsolve hs1 ho1).min _ b2 (meets_of_extends hext b1) b3

/-- **C106.** Prescribing in addition what the trajectory does anyway changes nothing: if the first trajectory has
all the values that the second problem prescribes, both problems have the same trajectory. -/
theorem C106_already_attained {inv solve inv' solve'} (hinv : IsInverse inv) (hsolve : IsSolver solve)
    (hinv' : IsInverse inv') (hsolve' : IsSolver solve') {vs vs' : List (Vertex ℝ)} {times : List ℝ}
    {o1 o1' o2 o2' : LinOpt h ℝ} (hs1 : Session inv solve vs k times o1) (ho1 : o1.solveLinear solve = .ok o1')
    (hs2 : Session inv' solve' vs' k times o2) (ho2 : o2.solveLinear solve' = .ok o2')
    (hd : o2.dimension = o1.dimension) (hpin : Pinned k vs) (hext : List.Forall₂ Extends vs vs')
    {tr : Trajectory ℝ} (ht : o1'.getTrajectory = .ok tr) (ha : Attains h times tr vs') :
    o2'.getTrajectory = .ok tr := by
  have s1 := solved_of_session hinv hsolve hs1 ho1
  have s2 := solved_of_session hinv' hsolve' hs2 ho2
  rw [hd] at s2
  have he := C81_unique hinv hsolve hs1 ho1 hpin s2.shape (meets_of_extends hext s2.meets) s2.cont
    (s2.min _ s1.shape (meets_of_attains s1 ht ha) s1.cont)
  have hseg : o2'.segments = o1'.segments := segments_ext s2.shape s1.shape s2.coeffs s1.coeffs he
  rw [← ht]
  unfold LinOpt.getTrajectory
  rw [hseg]

/-- **C106.** Inserting a vertex that prescribes nothing, or only what the trajectory does there anyway, does not
raise the cost: one segment of duration `T₁ + T₂` is replaced by two of durations `T₁` and `T₂`. -/
theorem C106_inserted_vertex {inv solve inv' solve'} (hinv : IsInverse inv) (hsolve : IsSolver solve)
    (hinv' : IsInverse inv') (hsolve' : IsSolver solve') {va vb : List (Vertex ℝ)} {v : Vertex ℝ}
    {ta tb : List ℝ} {T₁ T₂ : ℝ} (hva : va.length = ta.length + 1) {o1 o1' o2 o2' : LinOpt h ℝ}
    (hs1 : Session inv solve (va ++ vb) k (ta ++ (T₁ + T₂) :: tb) o1) (ho1 : o1.solveLinear solve = .ok o1')
    (hs2 : Session inv' solve' (va ++ v :: vb) k (ta ++ T₁ :: T₂ :: tb) o2) (ho2 : o2.solveLinear solve' = .ok o2')
    (hd : o2.dimension = o1.dimension) {tr : Trajectory ℝ} (ht : o1'.getTrajectory = .ok tr)
    (hv : ∀ q < h, ∀ c, v.getConstraint (q : ℕ) = some c → tr.evaluate (ta.sum + T₁) (q : ℕ) = .ok c) :
    ∃ c1 c2, o1'.computeCost = .ok c1 ∧ o2'.computeCost = .ok c2 ∧ c2 ≤ c1 := by
  refine ⟨_, _, C32_computeCost hinv hs1 (.inl ho1), C32_computeCost hinv' hs2 (.inl ho2), ?_⟩
  have s1 := solved_of_session hinv hsolve hs1 ho1
  have s2 := solved_of_session hinv' hsolve' hs2 ho2
  rw [hd] at s2
  obtain ⟨p2, -⟩ := problem_pos s2.prob
  have hn : 0 < h + h := by have := s1.k_lt; omega
  rw [← split_cost hn k s1.shape (T₁ := T₁) (T₂ := T₂)]
  refine s2.min _ split_shape (split_meets hn hva s1.shape s1.meets ?_) (split_continuous hn s1.shape s1.cont)
  intro q hq c hc d hdd
  have hT1 : 0 < T₁ := p2 _ (by simp)
  have hT2 : 0 < T₂ := p2 _ (by simp)
  have := solved_in s1 ht (i := ta.length) (by simp) hq hT1.le (by rw [split_time_m']; linarith)
  have e : startTime (ta ++ (T₁ + T₂) :: tb) ta.length = ta.sum := by
    unfold startTime
    simp
  rw [e, hv q hq c hc, Res.ok.injEq] at this
  rw [this]
  simp [List.getD_eq_getElem?_getD, hdd]

/-- **C106.** With all segment times multiplied by `c` the cost of a problem without prescribed motion is divided by
`c^(2k-1)`, where `k` is the order of the optimised derivative. -/
theorem C106_slower {inv solve inv' solve'} (hinv : IsInverse inv) (hsolve : IsSolver solve)
    (hinv' : IsInverse inv') (hsolve' : IsSolver solve') {c : ℝ} (hc : 0 < c)
    {vertices : List (Vertex ℝ)} {times : List ℝ} {o1 o1' o2 o2' : LinOpt h ℝ}
    (hs1 : Session inv solve vertices k times o1) (ho1 : o1.solveLinear solve = .ok o1')
    (hs2 : Session inv' solve' vertices k (times.map (· * c)) o2)
    (ho2 : o2.solveLinear solve' = .ok o2')
    (hd : o1.dimension = o2.dimension) (hpin : Pinned k vertices) (hrest : AtRest h vertices) :
    ∃ c1 c2, o1'.computeCost = .ok c1 ∧ o2'.computeCost = .ok c2 ∧ c2 * c ^ (2 * k) = c1 * c := by
  refine ⟨_, _, C32_computeCost hinv hs1 (.inl ho1), C32_computeCost hinv' hs2 (.inl ho2), ?_⟩
  have s1 := solved_of_session hinv hsolve hs1 ho1
  have s2 := solved_of_session hinv' hsolve' hs2 ho2
  rw [← hd] at s2
  obtain ⟨hpos, hne⟩ := problem_pos s1.prob
  have he := optimum_scaled s1.k_lt hpos hne s1.prob.count hpin hrest hc s1.shape s2.shape s1.meets s2.meets
    s1.cont s2.cont s1.min s2.min
  have hseg : o2'.segments = o1'.segments.map fun s => s.scaleTime c := by
    refine segments_ext s2.shape (scaleTime_shape s1.shape c) s2.coeffs ?_ he
    intro s hs
    obtain ⟨x, hx, rfl⟩ := List.mem_map.mp hs
    exact s1.coeffs x hx
  rw [hseg, cost_scaleTime k _ hc.ne']
  have : (1 / c) ^ k * c ^ k = 1 := by rw [← mul_pow, one_div, inv_mul_cancel₀ hc.ne', one_pow]
  rw [pow_mul']
  linear_combination (c * cost k o1'.segments) * ((1 / c) ^ k * c ^ k + 1) * this

/-! ### Examples -/

/-- As `exThree`, at rest in the middle as well. -/
def exThreeRest (p q r : ℝ × ℝ) : List (Vertex ℝ) :=
  [⟨2, [(0, [p.1, p.2]), (1, [0, 0])]⟩, ⟨2, [(0, [q.1, q.2]), (1, [0, 0])]⟩, ⟨2, [(0, [r.1, r.2]), (1, [0, 0])]⟩]

theorem exThreeRest_problem (p q r : ℝ × ℝ) : Problem 2 2 (exThreeRest p q r) [1, 2] where
  count := rfl
  two := by simp [exThreeRest]
  times_pos := by
    intro T hT
    simp only [List.mem_cons, List.not_mem_nil, or_false] at hT
    rcases hT with rfl | rfl <;> norm_num
  wf := by
    intro v hv
    simp only [exThreeRest, List.mem_cons, List.not_mem_nil, or_false] at hv
    rcases hv with rfl | rfl | rfl <;> exact ⟨⟨by simp, by simp⟩, rfl⟩
  dim_pos := by norm_num
  small := by norm_num

theorem exThreeRest_extends (p q r : ℝ × ℝ) : List.Forall₂ Extends (exThree p q r) (exThreeRest p q r) := by
  refine .cons (fun m c hc => hc) (.cons (fun m c hc => ?_) (.cons (fun m c hc => hc) .nil))
  unfold Vertex.getConstraint at hc ⊢
  rw [mapFind_one] at hc
  rw [mapFind_two]
  split_ifs at hc ⊢
  exact hc

/-- Stopping at the middle vertex is such an additional demand. -/
example : ∃ o1 o1' o2 o2' : LinOpt 2 ℝ, IsInverse (exLib 2).inv ∧ IsSolver (exLib 2).solve ∧
    Session (exLib 2).inv (exLib 2).solve (exThree (0, 0) (1, 1) (3, 0)) 1 [1, 2] o1 ∧
    o1.solveLinear (exLib 2).solve = .ok o1' ∧
    Session (exLib 2).inv (exLib 2).solve (exThreeRest (0, 0) (1, 1) (3, 0)) 1 [1, 2] o2 ∧
    o2.solveLinear (exLib 2).solve = .ok o2' ∧ o2.dimension = o1.dimension ∧
    List.Forall₂ Extends (exThree (0, 0) (1, 1) (3, 0)) (exThreeRest (0, 0) (1, 1) (3, 0)) := by
  obtain ⟨o1, o1', a1, a2, a3⟩ := exThree_session (0, 0) (1, 1) (3, 0)
  obtain ⟨o2, o2', -, b1, b2, b3⟩ := C30_returns (inv := (exLib 2).inv) (solve := (exLib 2).solve)
    (exThreeRest_problem (0, 0) (1, 1) (3, 0)) 1 (by norm_num)
  exact ⟨o1, o1', o2, o2', exLib_spec.inv, exLib_spec.solve, a1, a3, b1, b3, by rw [a2, b2],
    exThreeRest_extends _ _ _⟩

/-- The result has the values that are prescribed. -/
theorem attains_self {vs : List (Vertex ℝ)} {dim : ℕ} {times : List ℝ} {o' : LinOpt h ℝ} (s : Solved vs k dim times o')
    {tr : Trajectory ℝ} (ht : o'.getTrajectory = .ok tr)
    (hl : ∀ v ∈ vs, ∀ (q : ℕ) c, v.getConstraint q = some c → c.length = dim) : Attains h times tr vs := by
  obtain ⟨hpos, hne⟩ := problem_pos s.prob
  intro i v hv q hq c hc
  have hil : i < vs.length := (List.getElem?_eq_some_iff.mp hv).1
  have hcount := s.prob.count
  have htl : 0 < times.length := List.length_pos_iff.mpr hne
  have hlc := hl v (List.mem_of_getElem? hv) q c hc
  have hpc : pinAt vs i q = some c := by unfold pinAt; rw [hv]; exact hc
  have mm := (meets_iff s.shape).mp s.meets i q hq c hpc
  have nonneg : ∀ j, j < times.length → 0 ≤ times.getD j 0 := by
    intro j hj
    simp only [List.getD_eq_getElem?_getD, List.getElem?_eq_getElem hj, Option.getD_some]
    exact (hpos _ (List.getElem_mem hj)).le
  have fin : ∀ f : ℕ → ℝ, (∀ d < dim, f d = c.getD d 0) → (List.range dim).map f = c := by
    intro f hf
    apply List.ext_getElem (by simp [hlc])
    intro d h1 h2
    rw [List.getElem_map, List.getElem_range, hf d (by simpa using h1)]
    simp [List.getD_eq_getElem?_getD, h2]
  change tr.evaluate (startTime times i) q = .ok c
  rcases Nat.lt_or_ge i times.length with hi | hi
  · have := solved_in s ht hi hq le_rfl (nonneg i hi)
    rw [add_zero] at this
    rw [this, fin _ fun d hd => (mm d hd).1 hi]
  · obtain ⟨j, rfl⟩ : ∃ j, i = j + 1 := ⟨i - 1, by omega⟩
    have hj : j < times.length := by omega
    have := solved_in s ht hj hq (nonneg j hj) le_rfl
    have e : startTime times j + times.getD j 0 = startTime times (j + 1) := by
      rw [startTime_succ times j hj]
      simp [List.getD_eq_getElem?_getD, List.getElem?_eq_getElem hj]
    rw [e] at this
    rw [this, fin _ fun d hd => (mm d hd).2 j rfl hj]

/-- As `exThree`, with the velocity in the middle prescribed as well. -/
def exThreeVel (p q r : ℝ × ℝ) (w : List ℝ) : List (Vertex ℝ) :=
  [⟨2, [(0, [p.1, p.2]), (1, [0, 0])]⟩, ⟨2, [(0, [q.1, q.2]), (1, w)]⟩, ⟨2, [(0, [r.1, r.2]), (1, [0, 0])]⟩]

/-- The velocity with which the middle vertex is passed is a further constraint that the trajectory attains
anyway. -/
example : ∃ (o1 o1' o2 o2' : LinOpt 2 ℝ) (tr : Trajectory ℝ) (w : List ℝ),
    IsInverse (exLib 2).inv ∧ IsSolver (exLib 2).solve ∧
    Session (exLib 2).inv (exLib 2).solve (exThree (0, 0) (1, 1) (3, 0)) 1 [1, 2] o1 ∧
    o1.solveLinear (exLib 2).solve = .ok o1' ∧
    Session (exLib 2).inv (exLib 2).solve (exThreeVel (0, 0) (1, 1) (3, 0) w) 1 [1, 2] o2 ∧
    o2.solveLinear (exLib 2).solve = .ok o2' ∧ o2.dimension = o1.dimension ∧ Pinned 1 (exThree (0, 0) (1, 1) (3, 0)) ∧
    List.Forall₂ Extends (exThree (0, 0) (1, 1) (3, 0)) (exThreeVel (0, 0) (1, 1) (3, 0) w) ∧
    o1'.getTrajectory = .ok tr ∧ Attains 2 [1, 2] tr (exThreeVel (0, 0) (1, 1) (3, 0) w) := by
  obtain ⟨o1, o1', a1, a2, a3⟩ := exThree_session (0, 0) (1, 1) (3, 0)
  have s1 := solved_of_session exLib_spec.inv exLib_spec.solve a1 a3
  rw [a2] at s1
  obtain ⟨hpos, hne⟩ := problem_pos s1.prob
  obtain ⟨tr, t1, -⟩ := shape_trajectory s1.shape s1.coeffs hne s1.prob.times_pos s1.prob.small
  have hw := solved_in s1 t1 (i := 1) (q := 1) (by simp) (by norm_num) le_rfl (by norm_num : (0 : ℝ) ≤ [1, 2].getD 1 0)
  set w : List ℝ := (List.range 2).map fun d => dvL (2 + 2) 1 0 (cf o1'.segments 1 d) with hwd
  have hwl : w.length = 2 := by simp [hwd]
  have hp : Problem 2 2 (exThreeVel (0, 0) (1, 1) (3, 0) w) [1, 2] :=
    { exThree_problem (0, 0) (1, 1) (3, 0) with
      count := rfl
      two := by simp [exThreeVel]
      wf := by
        intro v hv
        simp only [exThreeVel, List.mem_cons, List.not_mem_nil, or_false] at hv
        rcases hv with rfl | rfl | rfl <;> exact ⟨⟨by simp, by simp [hwl]⟩, rfl⟩ }
  obtain ⟨o2, o2', -, b1, b2, b3⟩ := C30_returns (inv := (exLib 2).inv) (solve := (exLib 2).solve) hp 1 (by norm_num)
  refine ⟨o1, o1', o2, o2', tr, w, exLib_spec.inv, exLib_spec.solve, a1, a3, b1, b3, by rw [a2, b2],
    exThree_pinned _ _ _, ?_, t1, ?_⟩
  · refine .cons (fun m c hc => hc) (.cons (fun m c hc => ?_) (.cons (fun m c hc => hc) .nil))
    unfold Vertex.getConstraint at hc ⊢
    rw [mapFind_one] at hc
    rw [mapFind_two]
    split_ifs at hc ⊢
    exact hc
  · have hself := attains_self s1 t1 (by
      intro v hv q c hc
      unfold Vertex.getConstraint at hc
      simp only [exThree, List.mem_cons, List.not_mem_nil, or_false] at hv
      rcases hv with rfl | rfl | rfl
      · rw [mapFind_two] at hc
        split_ifs at hc <;> (cases hc; rfl)
      · rw [mapFind_one] at hc
        split_ifs at hc; (cases hc; rfl)
      · rw [mapFind_two] at hc
        split_ifs at hc <;> (cases hc; rfl))
    intro i v hv q hq c hc
    match i, hv with
    | 0, hv => exact hself 0 v hv q hq c hc
    | 2, hv => exact hself 2 v hv q hq c hc
    | 1, hv =>
      have hv' : (⟨2, [(0, [1, 1]), (1, w)]⟩ : Vertex ℝ) = v := by simpa [exThreeVel] using hv
      subst hv'
      rcases q with _ | _ | q
      · exact hself 1 ⟨2, [(0, [1, 1])]⟩ rfl 0 hq c (by
          unfold Vertex.getConstraint at hc ⊢
          rw [mapFind_two] at hc
          rw [mapFind_one]
          exact hc)
      · unfold Vertex.getConstraint at hc
        rw [mapFind_two] at hc
        have hc' : w = c := by simpa using hc
        subst hc'
        rw [add_zero] at hw
        exact hw
      · omega
    | (j + 3), hv => simp [exThreeVel] at hv

/-- A vertex that prescribes nothing, in the middle of the first segment. -/
example : ∃ (o1 o1' o2 o2' : LinOpt 2 ℝ) (tr : Trajectory ℝ), ∃ (va vb : List (Vertex ℝ)) (v : Vertex ℝ),
    va.length = ([] : List ℝ).length + 1 ∧
    Session (exLib 2).inv (exLib 2).solve (va ++ vb) 1 ([] ++ (1 / 4 + 3 / 4) :: [2]) o1 ∧
    o1.solveLinear (exLib 2).solve = .ok o1' ∧
    Session (exLib 2).inv (exLib 2).solve (va ++ v :: vb) 1 ([] ++ (1 / 4) :: (3 / 4) :: [2]) o2 ∧
    o2.solveLinear (exLib 2).solve = .ok o2' ∧ o2.dimension = o1.dimension ∧ o1'.getTrajectory = .ok tr ∧
    ∀ q < 2, ∀ c, v.getConstraint (q : ℕ) = some c → tr.evaluate (([] : List ℝ).sum + 1 / 4) (q : ℕ) = .ok c := by
  obtain ⟨o1, o1', a1, a2, a3⟩ := exThree_session (0, 0) (1, 1) (3, 0)
  have s1 := solved_of_session exLib_spec.inv exLib_spec.solve a1 a3
  rw [a2] at s1
  obtain ⟨hpos, hne⟩ := problem_pos s1.prob
  obtain ⟨tr, t1, -⟩ := shape_trajectory s1.shape s1.coeffs hne s1.prob.times_pos s1.prob.small
  have hp : Problem 2 2 ([⟨2, [(0, [0, 0]), (1, [0, 0])]⟩] ++ (⟨2, []⟩ : Vertex ℝ) ::
      [⟨2, [(0, [1, 1])]⟩, ⟨2, [(0, [3, 0]), (1, [0, 0])]⟩]) ([] ++ (1 / 4) :: (3 / 4) :: [2]) :=
    { count := rfl
      two := by simp
      times_pos := by
        intro T hT
        simp only [List.nil_append, List.mem_cons, List.not_mem_nil, or_false] at hT
        rcases hT with rfl | rfl | rfl <;> norm_num
      wf := by
        intro v hv
        simp only [List.cons_append, List.nil_append, List.mem_cons, List.not_mem_nil, or_false] at hv
        rcases hv with rfl | rfl | rfl | rfl <;> exact ⟨⟨by simp, by simp⟩, rfl⟩
      dim_pos := by norm_num
      small := by norm_num }
  obtain ⟨o2, o2', -, b1, b2, b3⟩ := C30_returns (inv := (exLib 2).inv) (solve := (exLib 2).solve) hp 1 (by norm_num)
  refine ⟨o1, o1', o2, o2', tr, [⟨2, [(0, [0, 0]), (1, [0, 0])]⟩], [⟨2, [(0, [1, 1])]⟩, ⟨2, [(0, [3, 0]), (1, [0, 0])]⟩],
    ⟨2, []⟩, rfl, ?_, a3, b1, b3, by rw [a2, b2], t1, ?_⟩
  · have e : ([] ++ (1 / 4 + 3 / 4) :: [2] : List ℝ) = [1, 2] := by norm_num
    rw [e]
    exact a1
  · intro q _ c hc
    cases hc

/-- The hypotheses of `C106_slower` are those of `C81_time_scaling`, which has its example. -/
example {c : ℝ} (hc : 0 < c) {vertices : List (Vertex ℝ)} {times : List ℝ} {inv solve} (hinv : IsInverse inv)
    (hsolve : IsSolver solve) {o1 o1' o2 o2' : LinOpt h ℝ} (hs1 : Session inv solve vertices k times o1)
    (ho1 : o1.solveLinear solve = .ok o1') (hs2 : Session inv solve vertices k (times.map (· * c)) o2)
    (ho2 : o2.solveLinear solve = .ok o2') (hd : o1.dimension = o2.dimension) (hpin : Pinned k vertices)
    (hrest : AtRest h vertices) := And.intro (C81_time_scaling hinv hsolve hinv hsolve hc hs1 ho1 hs2 ho2 hd hpin hrest)
      (C106_slower hinv hsolve hinv hsolve hc hs1 ho1 hs2 ho2 hd hpin hrest)

end

end Verif
