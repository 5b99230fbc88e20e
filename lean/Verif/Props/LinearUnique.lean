import Verif.Proofs.LinOptUnique
import Verif.Props.NonlinearOptimization

/-
The result of the linear optimiser is the only one, and scales with the times.
-/
namespace Verif

open Spec Set

set_option linter.unusedSectionVars false

section
variable {h : ℕ}

theorem problem_pos {dim : ℕ} {vertices : List (Vertex ℝ)} {times : List ℝ}
    (hp : Problem h dim vertices times) : (∀ T ∈ times, 0 < T) ∧ times ≠ [] := by
  refine ⟨fun T hT => lt_of_lt_of_le (by positivity) (hp.times_pos T hT), ?_⟩
  intro h0
  have h1 := hp.count
  have h2 := hp.two
  rw [h0] at h1
  simp at h1
  omega

theorem segments_ext {n dim : ℕ} {times : List ℝ} {a b : List (Segment ℝ)} (ha : Shape n dim times a)
    (hb : Shape n dim times b) (na : ∀ s ∈ a, s.N = n) (nb : ∀ s ∈ b, s.N = n)
    (hp : a.map Segment.polys = b.map Segment.polys) : a = b := by
  have hl : a.length = b.length := by rw [shape_length ha, shape_length hb]
  apply List.ext_getElem hl
  intro i h1 h2
  have e1 := shape_time ha hb (List.getElem?_eq_getElem h1) (List.getElem?_eq_getElem h2)
  have e2 := na _ (List.getElem_mem h1)
  have e3 := nb _ (List.getElem_mem h2)
  have e4 : a[i].polys = b[i].polys := by
    have := congrArg (fun l => l[i]?) hp
    simpa [h1, h2] using this
  cases hx : a[i] with
  | mk p t n =>
    cases hy : b[i] with
    | mk p' t' n' =>
      rw [hx] at e1 e2 e4
      rw [hy] at e1 e3 e4
      simp only at e1 e2 e3 e4
      rw [e1, e2, e3, e4]

theorem evaluate_of_scaled {tr1 tr2 : Trajectory ℝ} (w1 : tr1.WF) {c : ℝ} (hc : 0 < c)
    (hD : tr2.D = tr1.D) (hs : tr2.segments = tr1.segments.map fun s => s.scaleTime c) (t : ℝ) (m : ℕ) :
    tr2.evaluate (c * t) m = (fun v => v.map (· / c ^ m)) <$> tr1.evaluate t m := by
  have hsc : tr2.segments = (tr1.scaleCore c).segments := by
    rw [hs]
    rfl
  rw [← evaluate_scaleCore tr1 w1.wf c hc t m]
  unfold Trajectory.evaluate
  have hD : tr2.D = (tr1.scaleCore c).D := hD
  simp only [hsc, hD]

/-! ### C81 the optimum is unique -/

/-- **C81.** If some vertex prescribes all derivatives of order below the optimised one, nothing but the
result of `solveLinear()` meets the constraints at its cost: every trajectory of piecewise polynomials that
meets them, is as smooth and costs no more has the same polynomials. -/
theorem C81_unique {inv solve} (hinv : IsInverse inv) (hsolve : IsSolver solve)
    {vertices : List (Vertex ℝ)} {k : ℕ} {times : List ℝ} {o o' : LinOpt h ℝ}
    (hs : Session inv solve vertices k times o) (ho : o.solveLinear solve = .ok o')
    (hpin : Pinned k vertices) {segs : List (Segment ℝ)} (h1 : Shape (h + h) o.dimension times segs)
    (h2 : MeetsConstraints h o.dimension vertices segs) (h3 : Spec.Continuous h o.dimension segs)
    (hc : cost k segs ≤ cost k o'.segments) :
    segs.map Segment.polys = o'.segments.map Segment.polys := by
  obtain ⟨hk, hp, -⟩ := session_ready hs
  obtain ⟨hpos, hne⟩ := problem_pos hp
  obtain ⟨⟨a1, a2, a3⟩, a4⟩ := C33_optimal hinv hsolve hs ho
  exact (optimum_unique hk hpos hne hp.count hpin a1 h1 a2 h2 a3 h3 a4 hc).symm

/-- **C81.** Two optimisers set up with the same vertices, times and derivative hand out the same trajectory,
whatever was done with them before and however the linear systems are solved. -/
theorem C81_same_result {inv solve inv' solve'} (hinv : IsInverse inv) (hsolve : IsSolver solve)
    (hinv' : IsInverse inv') (hsolve' : IsSolver solve')
    {vertices : List (Vertex ℝ)} {k : ℕ} {times : List ℝ} {o1 o1' o2 o2' : LinOpt h ℝ}
    (hs1 : Session inv solve vertices k times o1) (ho1 : o1.solveLinear solve = .ok o1')
    (hs2 : Session inv' solve' vertices k times o2) (ho2 : o2.solveLinear solve' = .ok o2')
    (hd : o1.dimension = o2.dimension) (hpin : Pinned k vertices) :
    ∃ tr, o1'.getTrajectory = .ok tr ∧ o2'.getTrajectory = .ok tr := by
  obtain ⟨hk, hp, -⟩ := session_ready hs1
  obtain ⟨hpos, hne⟩ := problem_pos hp
  obtain ⟨b1, b2, b3, nb, -, -⟩ := session_result hinv' hs2 (.inl ho2)
  obtain ⟨a1, a2, a3, na, -, -⟩ := session_result hinv hs1 (.inl ho1)
  rw [← hd] at b1 b2 b3
  have hmin := (C33_optimal hinv' hsolve' hs2 ho2).2
  rw [← hd] at hmin
  have he := C81_unique hinv hsolve hs1 ho1 hpin b2 b1 b3 (hmin _ a2 a1 a3)
  have hseg : o2'.segments = o1'.segments := segments_ext b2 a2 nb na he
  obtain ⟨tr, ht, -⟩ := shape_trajectory a2 na hne hp.times_pos hp.small
  refine ⟨tr, ht, ?_⟩
  rw [← ht]
  unfold LinOpt.getTrajectory
  rw [hseg]

/-- **C81.** If moreover no vertex prescribes a nonzero derivative, multiplying all segment times by `c` gives
the same path run slower by `c`: the derivative of order `m` at `c * t` is the original one at `t` divided
by `c^m`. -/
theorem C81_time_scaling {inv solve inv' solve'} (hinv : IsInverse inv) (hsolve : IsSolver solve)
    (hinv' : IsInverse inv') (hsolve' : IsSolver solve') {c : ℝ} (hc : 0 < c)
    {vertices : List (Vertex ℝ)} {k : ℕ} {times : List ℝ} {o1 o1' o2 o2' : LinOpt h ℝ}
    (hs1 : Session inv solve vertices k times o1) (ho1 : o1.solveLinear solve = .ok o1')
    (hs2 : Session inv' solve' vertices k (times.map (· * c)) o2)
    (ho2 : o2.solveLinear solve' = .ok o2')
    (hd : o1.dimension = o2.dimension) (hpin : Pinned k vertices) (hrest : AtRest h vertices) :
    ∃ tr1 tr2, o1'.getTrajectory = .ok tr1 ∧ o2'.getTrajectory = .ok tr2 ∧
      tr2.getSegmentTimes = tr1.getSegmentTimes.map (· * c) ∧ tr2.maxTime = tr1.maxTime * c ∧
      ∀ t (m : ℕ), tr2.evaluate (c * t) m = (fun v => v.map (· / c ^ m)) <$> tr1.evaluate t m := by
  obtain ⟨hk, hp, -⟩ := session_ready hs1
  obtain ⟨-, hp2, -⟩ := session_ready hs2
  obtain ⟨hpos, hne⟩ := problem_pos hp
  obtain ⟨-, hne2⟩ := problem_pos hp2
  obtain ⟨b1, b2, b3, nb, -, -⟩ := session_result hinv' hs2 (.inl ho2)
  obtain ⟨a1, a2, a3, na, -, -⟩ := session_result hinv hs1 (.inl ho1)
  have minb := (C33_optimal hinv' hsolve' hs2 ho2).2
  have mina := (C33_optimal hinv hsolve hs1 ho1).2
  rw [← hd] at b1 b2 b3 minb
  have he := optimum_scaled hk hpos hne hp.count hpin hrest hc a2 b2 a1 b1 a3 b3 mina minb
  have hseg : o2'.segments = o1'.segments.map fun s => s.scaleTime c := by
    refine segments_ext b2 (scaleTime_shape a2 c) nb ?_ he
    intro s hs
    obtain ⟨x, hx, rfl⟩ := List.mem_map.mp hs
    exact na x hx
  obtain ⟨tr1, t1, w1, d1, m1, s1, g1⟩ := shape_trajectory a2 na hne hp.times_pos hp.small
  obtain ⟨tr2, t2, w2, d2, m2, s2, g2⟩ := shape_trajectory b2 nb hne2 hp2.times_pos hp2.small
  refine ⟨tr1, tr2, t1, t2, by rw [g1, g2], ?_, fun t m => ?_⟩
  · rw [m1, m2, List.sum_map_mul_right]
    simp
  · exact evaluate_of_scaled w1 hc (by rw [d2, d1]) (by rw [s2, hseg, s1]) t m

theorem exVertices2_pinned : Pinned 1 (exVertices2 : List (Vertex ℝ)) := by
  refine ⟨⟨1, [(0, [2]), (1, [0])]⟩, by simp [exVertices2], fun m hm => ⟨[2], ?_⟩⟩
  have : m = 0 := by omega
  subst this
  rfl

theorem exVertices2_rest : AtRest 2 (exVertices2 : List (Vertex ℝ)) := by
  intro v hv m h0 h2 c hc x hx
  have : m = 1 := by omega
  subst this
  simp only [exVertices2, List.mem_cons, List.not_mem_nil, or_false] at hv
  rcases hv with rfl | rfl | rfl
  · have : c = [0] := by
      have e : (⟨1, [(0, [2]), (1, [0])]⟩ : Vertex ℝ).getConstraint ((1 : ℕ) : ℤ) = some [0] := rfl
      rw [e, Option.some.injEq] at hc
      exact hc.symm
    rw [this] at hx
    simpa using hx
  · have e : (⟨1, [(0, [3])]⟩ : Vertex ℝ).getConstraint ((1 : ℕ) : ℤ) = none := rfl
    rw [e] at hc
    cases hc
  · have : c = [0] := by
      have e : (⟨1, [(0, [5]), (1, [0])]⟩ : Vertex ℝ).getConstraint ((1 : ℕ) : ℤ) = some [0] := rfl
      rw [e, Option.some.injEq] at hc
      exact hc.symm
    rw [this] at hx
    simpa using hx

/-- The example with three vertices and with all times doubled meets the hypotheses. -/
example : ∃ o1 o1' o2 o2' : LinOpt 2 ℝ, IsInverse (exLib 2).inv ∧ IsSolver (exLib 2).solve ∧
    Session (exLib 2).inv (exLib 2).solve exVertices2 1 [1, 2] o1 ∧ o1.solveLinear (exLib 2).solve = .ok o1' ∧
    Session (exLib 2).inv (exLib 2).solve exVertices2 1 ([1, 2].map (· * 2)) o2 ∧
    o2.solveLinear (exLib 2).solve = .ok o2' ∧ o1.dimension = o2.dimension ∧
    Pinned 1 (exVertices2 : List (Vertex ℝ)) ∧ AtRest 2 (exVertices2 : List (Vertex ℝ)) := by
  obtain ⟨o1, o1', -, h2, h3, h4⟩ := C30_returns (inv := (exLib 2).inv) (solve := (exLib 2).solve)
    (exProblem2 (K := ℝ)) 1 (by norm_num)
  have hp : Problem 2 1 (exVertices2 : List (Vertex ℝ)) ([1, 2].map (· * 2)) :=
    { exProblem2 with
      count := rfl
      times_pos := by
        intro T hT
        simp only [List.map_cons, List.map_nil, List.mem_cons, List.not_mem_nil, or_false] at hT
        rcases hT with rfl | rfl <;> norm_num }
  obtain ⟨o2, o2', -, a2, a3, a4⟩ := C30_returns (inv := (exLib 2).inv) (solve := (exLib 2).solve)
    hp 1 (by norm_num)
  exact ⟨o1, o1', o2, o2', exLib_spec.inv, exLib_spec.solve, h2, h4, a2, a4, by rw [h3, a3],
    exVertices2_pinned, exVertices2_rest⟩

end
end Verif
