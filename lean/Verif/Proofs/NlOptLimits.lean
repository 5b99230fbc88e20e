import Verif.Props.LinearUnique
import Verif.Props.NonlinearDetails
import Verif.Props.Magnitude

/-
Limits after the scaling of the segment times.
-/
namespace Verif

open Spec Set

set_option linter.unusedSectionVars false

section
variable {h : ℕ}

theorem limitOf_last {d : ℤ} {v : ℝ} {limits : List (Limit ℝ)} (hl : LastLimit d v limits) :
    limitOf d limits = v := by
  obtain ⟨pre, post, rfl, hp⟩ := hl
  unfold limitOf
  rw [List.foldl_append, List.foldl_cons, if_pos rfl]
  induction post using List.reverseRecOn with
  | nil => rfl
  | append_singleton l c ih =>
    rw [List.foldl_append, List.foldl_cons, List.foldl_nil, if_neg (hp c (by simp))]
    exact ih fun c hc => hp c (by simp [hc])

/-- The trajectory that is scaled, the factor, and the trajectory that is solved for afterwards. -/
theorem scale_detail {lib : NlLib h ℝ} (hl : LibSpec lib) {vertices : List (Vertex ℝ)} {k : ℕ}
    {o o' : NlOpt h ℝ} (hs : LinSolved lib vertices k o.lin) (hh : 2 ≤ h)
    (ho : o.scaleWithViolation lib = .ok o')
    (hv : 0 < limitOf 1 o.constraints) (ha : 0 < limitOf 2 o.constraints)
    (hfin : Moderate o.lin.dimension o.lin.segments) :
    ∃ (tr r : Trajectory ℝ) (c : ℝ) (l1 : LinOpt h ℝ), o.lin.getTrajectory = .ok tr ∧ tr.WF ∧
      tr.D = o.lin.dimension ∧ tr.segments = o.lin.segments ∧ 1 ≤ c ∧ r.WF ∧ r.segments ≠ [] ∧ r.D = tr.D ∧
      r.maxTime = tr.maxTime * c ∧
      (∀ t (m : ℕ), r.evaluate (c * t) m = (fun v => v.map (· / c ^ m)) <$> tr.evaluate t m) ∧
      (∀ s ∈ r.segments, ∀ t ∈ Icc 0 s.time,
        magnitude s.polys (List.range tr.D) 1 t ≤ (1 + 1 / 1000) * limitOf 1 o.constraints ∧
        magnitude s.polys (List.range tr.D) 2 t ≤ (1 + 1 / 1000) * limitOf 2 o.constraints) ∧
      (c = 1 ∨ (∃ s ∈ tr.segments, ∃ t ∈ Icc 0 s.time,
          magnitude s.polys (List.range tr.D) 1 t = c * limitOf 1 o.constraints) ∨
        ∃ s ∈ tr.segments, ∃ t ∈ Icc 0 s.time,
          magnitude s.polys (List.range tr.D) 2 t = c ^ 2 * limitOf 2 o.constraints) ∧
      Session lib.inv lib.solve vertices k (o.lin.segmentTimes.map (· * c)) l1 ∧
      l1.dimension = o.lin.dimension ∧ l1.solveLinear lib.solve = .ok o'.lin ∧
      o'.lin.segmentTimes = o.lin.segmentTimes.map (· * c) := by
  obtain ⟨tr, htr, w1, d1, n1, s1, g1⟩ := hs.trajectory hl.inv
  have hp := (session_ready hs.session).2.1
  have hne : tr.segments ≠ [] := by
    rw [s1]
    exact (hs.good hl.inv).2.1
  obtain ⟨r, c, q1, q2, q3, q4, q5, q6, q7, q8, q9, q10⟩ := scaleToMeet_ok lib.rf hl.rf tr w1 hne
    (by rw [d1]; exact hp.dim_pos) (by rw [n1]; omega) (by
      unfold FiniteVA
      rw [s1, d1]
      exact hfin) _ _ hv ha
  unfold NlOpt.scaleWithViolation at ho
  rw [htr, Res.ok_bind] at ho
  dsimp only at ho
  rw [if_neg (by rintro (h0 | h0) <;> linarith), hl.sq, q1, Res.ok_bind, Res.bind_eq_ok] at ho
  obtain ⟨l1, b1, ho⟩ := ho
  rw [Res.bind_eq_ok] at ho
  obtain ⟨l2, b2, ho⟩ := ho
  rw [Res.pure_eq, Res.ok.injEq] at ho
  subst ho
  dsimp only at b1
  rw [q6, g1] at b1
  obtain ⟨t1, t2, t3, -⟩ := lin_update hs.session (by
    intro T hT
    obtain ⟨T0, h3, rfl⟩ := List.mem_map.mp hT
    have h4 := hp.times_pos T0 h3
    have h5 : (0 : ℝ) ≤ T0 := le_trans (by positivity) h4
    exact h4.trans (le_mul_of_one_le_right h5 q2)) b1
  obtain ⟨-, u2, -⟩ := lin_solve t1 b2
  have t1' : Session lib.inv lib.solve vertices k (o.lin.segmentTimes.map (· * c)) l1 := by
    have := t1
    unfold LinSession at this
    rwa [t2] at this
  exact ⟨tr, r, c, l1, htr, w1, d1, s1, q2, q3, q4, q5, q7, q8, q9, q10, t1', t3, b2, u2.trans t2⟩

theorem within_of_magnitude {tr : Trajectory ℝ} (hw : tr.WF) (hne : tr.segments ≠ []) (m : ℕ) (bound : ℝ)
    (hb : ∀ s ∈ tr.segments, ∀ t ∈ Icc 0 s.time, magnitude s.polys (List.range tr.D) m t ≤ bound) :
    WithinLimit tr m bound := by
  intro t ht
  obtain ⟨s, hs, x, hx, e⟩ := evaluate_local tr hw hne m t ht.1 ht.2
  have hlen : (valuesAt s.polys m x).length = tr.D := by
    rw [← hw.dims s hs]; simp [valuesAt, Segment.D]
  refine ⟨_, e, hlen, ?_⟩
  have := hb s hs x hx
  unfold magnitude at this
  rwa [map_range_getD _ _ hlen] at this

end
end Verif
