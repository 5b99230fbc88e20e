import Verif.Proofs.Visualization
import Verif.Props.Sampling
import Verif.Props.Vertex

/-
Properties C93 to C98: drawing.
-/
namespace Verif

open Spec
open scoped Quaternion

set_option linter.unusedSectionVars false

/-! ### C93 the path -/

/-- **C93.** `drawMavSampledTrajectoryWithMavMarker` (and `drawMavSampledTrajectory`, where there are no
additional markers) ends the array with a line through the positions of all points in order. All markers have
the given frame, are added for good, and are numbered from 0, so that none replaces another. -/
theorem C93_path {conv : TPoint ℝ → Vec3 ℝ} (hconv : ∀ p, conv p = p.position) (now : ℝ)
    (ps : List (TPoint ℝ)) (hu : ∀ p ∈ ps, UnitQuat p.orientation) (distance : ℝ) (frame : String)
    (extra : List (Marker ℝ)) :
    ∃ ms strip, drawSampledWithMarker Real.sqrt conv now ps distance frame extra = .ok (ms ++ [strip]) ∧
      Shown frame now (ms ++ [strip]) ∧ Line "path" (ps.map TPoint.position) strip := by
  obtain ⟨ms, marks, blocks, strip, h1, h2, h3, h4, -⟩ :=
    drawSampledWithMarker_ok hconv now ps hu distance frame extra
  subst h3
  exact ⟨_, strip, h1, h2, h4⟩

theorem vec3Of_ok {l : List ℝ} (h : l.length = 3) : ∃ p : Vec3 ℝ, vec3Of l = .ok p ∧ [p.x, p.y, p.z] = l := by
  match l, h with
  | [x, y, z], _ => exact ⟨⟨x, y, z⟩, rfl, rfl⟩

theorem pointOf_ok (att : Attitude ℝ → Quat ℝ) (hatt : ∀ a, UnitQuat (att a)) {s : State ℝ}
    (h1 : s.position.length = 3) (h2 : s.velocity.length = 3) (h3 : s.acceleration.length = 3) :
    ∃ p : TPoint ℝ, pointOf att s = .ok p ∧ UnitQuat p.orientation ∧
      [p.position.x, p.position.y, p.position.z] = s.position := by
  obtain ⟨a, a1, a2⟩ := vec3Of_ok h1
  obtain ⟨b, b1, b2⟩ := vec3Of_ok h2
  obtain ⟨c, c1, c2⟩ := vec3Of_ok h3
  refine ⟨⟨a, b, c, att s.attitude, s.timeNs⟩, ?_, hatt _, a2⟩
  unfold pointOf
  rw [a1, Res.ok_bind, b1, Res.ok_bind, c1, Res.ok_bind]
  rfl

/-- **C93.** `drawMavTrajectoryWithMavMarker` (and `drawMavTrajectory`) for a trajectory in at least three
dimensions whose segments agree: the line goes through the positions at the times 0, 0.1, 0.2, ... before the
end. -/
theorem C93_trajectory_partial {conv : TPoint ℝ → Vec3 ℝ} (hconv : ∀ p, conv p = p.position)
    {att : Attitude ℝ → Quat ℝ} (hatt : ∀ a, UnitQuat (att a)) (now : ℝ) (tr : Trajectory ℝ) (h : tr.WF)
    (hD : 3 ≤ tr.D) (hj : ∀ k ≤ 4, tr.JoinsAt k) (hpos : 0 < tr.maxTime) (hns : tr.maxTime * 10 ^ 9 < 2 ^ 63)
    (distance : ℝ) (frame : String) (extra old : List (Marker ℝ)) :
    ∃ ms strip ps, (∃ F, ∀ fuel, F ≤ fuel →
        drawTrajectory fuel Real.sqrt conv att now tr distance frame extra old = .ok (ms ++ [strip])) ∧
      Shown frame now (ms ++ [strip]) ∧ Line "path" ps strip ∧
      (∀ j : ℕ, j < ps.length ↔ j * (1 / 10) < tr.maxTime) ∧
      ∀ (j : ℕ) p, ps[j]? = some p → ∃ w, tr.evaluate (j * (1 / 10)) 0 = .ok w ∧ [p.x, p.y, p.z] = w.take 3 := by
  obtain ⟨L, ⟨F, hF⟩, hcount, hst⟩ := C55_whole tr h hD hj hpos hns (1 / 10) (by norm_num)
  have hne : tr.segments ≠ [] := by
    rintro h0
    have := h.total
    rw [Trajectory.getSegmentTimes, h0] at this
    simp at this
    linarith
  have hstate : ∀ j (hjL : j < L.length), ∃ v : ℕ → List ℝ,
      (∀ k : ℕ, k ≤ 4 → tr.evaluate (j * (1 / 10)) k = .ok (v k) ∧ (v k).length = tr.D) ∧
      IsState tr.D v (j * (1 / 10)) L[j] := by
    intro j hjL
    have hle : (j : ℝ) * (1 / 10) ≤ tr.maxTime := ((hcount j).mp hjL).le
    obtain ⟨st, v, hs, hv, hstate⟩ := C38_at_time tr h hne hD (j * (1 / 10)) (by positivity) hle
      (lt_of_le_of_lt (mul_le_mul_of_nonneg_right hle (by positivity)) hns)
    rw [hst j hjL, Res.ok.injEq, Option.some.injEq] at hs
    exact ⟨v, hv, by rw [hs]; exact hstate⟩
  have hpt : ∀ s ∈ L, ∃ p : TPoint ℝ, pointOf att s = .ok p ∧ UnitQuat p.orientation ∧
      [p.position.x, p.position.y, p.position.z] = s.position := by
    intro s hs
    obtain ⟨j, hjL, rfl⟩ := List.getElem_of_mem hs
    obtain ⟨v, hv, hstate⟩ := hstate j hjL
    have hl : ∀ k ≤ 4, ((v k).take 3).length = 3 := by
      intro k hk
      rw [List.length_take, (hv k hk).2]
      omega
    exact pointOf_ok att hatt (by rw [hstate.position, hl 0 (by omega)]) (by rw [hstate.velocity, hl 1 (by omega)])
      (by rw [hstate.acceleration, hl 2 (by omega)])
  have hm : ∀ l : List (State ℝ), (∀ s ∈ l, s ∈ L) → ∃ pts : List (TPoint ℝ), l.mapM (pointOf att) = .ok pts ∧
      List.Forall₂ (fun s p => pointOf att s = .ok p) l pts := by
    intro l
    induction l with
    | nil => intro _; exact ⟨[], rfl, .nil⟩
    | cons s l ih =>
      intro hl
      obtain ⟨pts, h1, h2⟩ := ih fun s hs => hl s (List.mem_cons_of_mem _ hs)
      obtain ⟨p, hp, -⟩ := hpt s (hl s (by simp))
      refine ⟨p :: pts, ?_, .cons hp h2⟩
      rw [List.mapM_cons, hp, Res.ok_bind, h1, Res.ok_bind]
      rfl
  obtain ⟨pts, hmap, hfor⟩ := hm L fun s hs => hs
  have hget : ∀ (j : ℕ) p, pts[j]? = some p → ∃ hjL : j < L.length, pointOf att L[j] = .ok p := by
    intro j p hp
    have hjp : j < pts.length := (List.getElem?_eq_some_iff.mp hp).1
    have hjL : j < L.length := by rw [hfor.length_eq]; exact hjp
    refine ⟨hjL, ?_⟩
    have := hfor.get hjL hjp
    rw [List.getElem?_eq_getElem hjp, Option.some.injEq] at hp
    rw [← hp]
    exact this
  have hu : ∀ p ∈ pts, UnitQuat p.orientation := by
    intro p hp
    obtain ⟨j, hj⟩ := List.getElem?_of_mem hp
    obtain ⟨hjL, e⟩ := hget j p hj
    obtain ⟨p', e', hu, -⟩ := hpt L[j] (List.getElem_mem _)
    rw [e, Res.ok.injEq] at e'
    rw [e']
    exact hu
  obtain ⟨ms, strip, h1, h2, h3⟩ := C93_path hconv now pts hu distance frame extra
  refine ⟨ms, strip, _, ⟨F, fun fuel hfuel => ?_⟩, h2, h3, ?_, ?_⟩
  · unfold drawTrajectory
    rw [hF fuel hfuel, Res.ok_bind]
    dsimp only
    rw [hmap, Res.ok_bind, h1]
  · intro j
    rw [List.length_map, ← hfor.length_eq]
    exact hcount j
  · intro j p hp
    rw [List.getElem?_map, Option.map_eq_some_iff] at hp
    obtain ⟨r, hr, rfl⟩ := hp
    obtain ⟨hjL, e⟩ := hget j r hr
    obtain ⟨p', e', -, hq⟩ := hpt L[j] (List.getElem_mem _)
    rw [e, Res.ok.injEq] at e'
    rw [← e'] at hq
    obtain ⟨v, hv, hstate⟩ := hstate j hjL
    refine ⟨v 0, (hv 0 (by omega)).1, ?_⟩
    rw [hq, hstate.position]

/-- **C93.** With fewer than three dimensions nothing is drawn: the array is left as it was. -/
theorem C93_rejected (fuel : ℕ) (sq : ℝ → ℝ) (conv : TPoint ℝ → Vec3 ℝ) (att : Attitude ℝ → Quat ℝ) (now : ℝ)
    (tr : Trajectory ℝ) (hD : tr.D < 3) (distance : ℝ) (frame : String) (extra old : List (Marker ℝ)) :
    drawTrajectory fuel sq conv att now tr distance frame extra old = .ok old := by
  unfold drawTrajectory sampleWholeTrajectory sampleTrajectoryInRange
  split <;> simp

/-- One segment of duration 1/4 along the first axis at speed 4. -/
noncomputable def exDraw : Trajectory ℝ :=
  ⟨3, 2, 1 / 4, [⟨[⟨[0, 4]⟩, ⟨[0, 0]⟩, ⟨[1, 0]⟩], 1 / 4, 2⟩]⟩

theorem exDraw_wf : exDraw.WF := by
  refine ⟨?_, ?_, ?_, ?_, ?_⟩
  · simp [exDraw, Segment.D]
  · simp [exDraw]
  · norm_num [exDraw, Trajectory.getSegmentTimes]
  · intro s hs
    simp only [exDraw, List.mem_cons, List.not_mem_nil, or_false] at hs
    subst hs
    exact ⟨by simp [Poly.N], by simp⟩
  · simp [exDraw]

theorem exDraw_joins (k : ℕ) : exDraw.JoinsAt k := by
  intro i hi
  simp [exDraw] at hi

example : exDraw.WF ∧ 3 ≤ exDraw.D ∧ (∀ k ≤ 4, exDraw.JoinsAt k) ∧ 0 < exDraw.maxTime ∧
    exDraw.maxTime * 10 ^ 9 < 2 ^ 63 ∧ (∀ _ : Attitude ℝ, UnitQuat ⟨1, 0, 0, 0⟩) :=
  ⟨exDraw_wf, by simp [exDraw], fun k _ => exDraw_joins k, by norm_num [exDraw], by norm_num [exDraw],
    fun _ => by norm_num [UnitQuat]⟩

/-- **C93**, what is missing: the line does not reach the end of the trajectory. For a duration of 0.25 it ends
at the position of time 0.2, 20 cm before the goal at this speed. -/
theorem C93_end_false : ¬ ∀ (tr : Trajectory ℝ), tr.WF → 3 ≤ tr.D → (∀ k ≤ 4, tr.JoinsAt k) → 0 < tr.maxTime →
    tr.maxTime * 10 ^ 9 < 2 ^ 63 → ∀ (old ms : List (Marker ℝ)) (strip : Marker ℝ) (F : ℕ),
    (∀ fuel, F ≤ fuel → drawTrajectory fuel Real.sqrt TPoint.position (fun _ => ⟨1, 0, 0, 0⟩) 0 tr 0 "world" []
      old = .ok (ms ++ [strip])) → ∃ (p : Vec3 ℝ) (w : List ℝ), strip.points.getLast? = some p ∧
        tr.evaluate tr.maxTime 0 = .ok w ∧ [p.x, p.y, p.z] = w.take 3 := by
  intro hall
  obtain ⟨ms, strip, ps, ⟨F, hF⟩, -, hl, hcount, hval⟩ := C93_trajectory_partial (conv := TPoint.position)
    (fun _ => rfl) (att := fun _ => ⟨1, 0, 0, 0⟩) (fun _ => by norm_num [UnitQuat]) 0 exDraw exDraw_wf
    (by simp [exDraw]) (fun k _ => exDraw_joins k) (by norm_num [exDraw]) (by norm_num [exDraw]) 0 "world" [] []
  obtain ⟨p, w, h1, h2, h3⟩ := hall exDraw exDraw_wf
    (by simp [exDraw]) (fun k _ => exDraw_joins k) (by norm_num [exDraw]) (by norm_num [exDraw]) [] ms strip F hF
  have hlen : ps.length = 3 := by
    have a := (hcount 2).mpr (by norm_num [exDraw])
    have b : ¬ 3 < ps.length := fun h0 => by
      have := (hcount 3).mp h0
      norm_num [exDraw] at this
    omega
  rw [hl.points, List.getLast?_eq_getElem?, hlen] at h1
  obtain ⟨w', h4, h5⟩ := hval 2 p h1
  have i0 : 0 < exDraw.segments.length := by simp [exDraw]
  have e1 := evaluate_inside exDraw exDraw_wf 0 i0 ((2 : ℕ) * (1 / 10)) (by norm_num [startTime])
    (by norm_num [startTime, exDraw, Trajectory.getSegmentTimes]) ((0 : ℕ) : ℤ)
  have e2 := evaluate_end exDraw exDraw_wf i0 ((0 : ℕ) : ℤ)
  rw [segment_evaluate_ok _ (exDraw_wf.wf _ (List.getElem_mem _))] at e1 e2
  have g1 := h4.symm.trans e1
  have g2 := h2.symm.trans e2
  rw [Res.ok.injEq] at g1 g2
  rw [h3, g1, g2] at h5
  norm_num [segValue, derivAt, ofCoeffs, exDraw, startTime, Finset.sum_range_succ] at h5

/-! ### C94 markers along the path -/

/-- **C94**, partial. Besides the line, the array holds groups of markers at some of the points: the axes of the
body, the acceleration, the velocity and the additional markers moved to the pose of the vehicle. Along the
path, from the first marked point on, these are spaced by `distance`: more than `distance` apart, and as soon as
the way from the last one is longer there is another one. Missing from the full statement: that 0 disables
them (`C94_disable_false`), and where the first one is (`C94_origin_false`). -/
theorem C94_spacing_partial {conv : TPoint ℝ → Vec3 ℝ} (hconv : ∀ p, conv p = p.position) (now : ℝ)
    (ps : List (TPoint ℝ)) (hu : ∀ p ∈ ps, UnitQuat p.orientation) (distance : ℝ) (frame : String)
    (extra : List (Marker ℝ)) :
    ∃ marks blocks strip, drawSampledWithMarker Real.sqrt conv now ps distance frame extra =
        .ok (List.flatten blocks ++ [strip]) ∧
      List.Forall₂ (fun i ms => ∃ p, ps[i]? = some p ∧ DrawnAt extra p ms) marks blocks ∧
      Spaced distance (ps.map TPoint.position) marks ∧
      -- the first one: the distance is counted from the origin of the frame
      (∀ p0, ps.head? = some p0 → ∀ j < ps.length, ((∃ k ∈ marks, k ≤ j) ↔
        distance < dist3 ⟨0, 0, 0⟩ p0.position + pathLength (ps.map TPoint.position) 0 j)) := by
  obtain ⟨ms, marks, blocks, strip, h1, h2, h3, h4, h5, h6, h7, h8⟩ :=
    drawSampledWithMarker_ok hconv now ps hu distance frame extra
  subst h3
  refine ⟨marks, blocks, strip, h1, h5, h6, fun p0 hp0 j hj => ?_⟩
  obtain ⟨tl, rfl⟩ : ∃ tl, ps = p0 :: tl := by
    cases ps with
    | nil => simp at hp0
    | cons p tl =>
      simp only [List.head?_cons, Option.some.injEq] at hp0
      exact ⟨tl, by rw [hp0]⟩
  simp only [List.map_cons] at h7 h8 ⊢
  simp only [pathLength_zero] at h7 h8
  refine ⟨fun ⟨k, hk, hkj⟩ => ?_, fun hd => h8 j hj hd⟩
  have a := h7 k hk
  have b := pathLength_split (p0.position :: tl.map TPoint.position) (Nat.zero_le k) hkj
  have c := pathLength_nonneg (p0.position :: tl.map TPoint.position) k j
  linarith

theorem drawnAt_length {extra : List (Marker ℝ)} {p : TPoint ℝ} {ms : List (Marker ℝ)}
    (h : DrawnAt extra p ms) : ms.length = 5 + extra.length := by
  obtain ⟨x, y, z, a, v, rest, -, -, -, -, -, rfl, -, -, -, -, -, -, -, -, -, -, hr⟩ := h
  rw [hr.length_eq]
  simp
  omega

/-- A point at rest, level, at `x` on the first axis at time `t`. -/
def exPoint (x : ℝ) (t : ℤ) : TPoint ℝ := ⟨⟨x, 0, 0⟩, ⟨0, 0, 0⟩, ⟨0, 0, 0⟩, ⟨1, 0, 0, 0⟩, t⟩

theorem exPoint_unit (x : ℝ) (t : ℤ) : UnitQuat (exPoint x t).orientation := by norm_num [UnitQuat, exPoint]

theorem dist3_axis (x y : ℝ) : dist3 ⟨x, 0, 0⟩ ⟨y, 0, 0⟩ = |x - y| := by
  unfold dist3
  simp [Real.sqrt_sq_eq_abs]

/-- The hypotheses are met, and the claim is not about nothing: three points one apart, a distance of 3/2, the
first point one away from the origin. The second point is marked. -/
example : (∀ p ∈ [exPoint 1 0, exPoint 2 0, exPoint 3 0], UnitQuat p.orientation) ∧
    Spaced (3 / 2) ([exPoint 1 0, exPoint 2 0, exPoint 3 0].map TPoint.position) [1] := by
  refine ⟨by simp [exPoint_unit], ⟨by simp, by simp, by simp, ?_⟩⟩
  intro i hi j hij hj hd
  simp only [List.mem_cons, List.not_mem_nil, or_false] at hi
  subst hi
  have : j = 2 := by simp at hj; omega
  subst this
  norm_num [pathLength, exPoint, dist3_axis] at hd

/-- **C94**, what is missing: a distance of 0 does not disable the additional markers. One point off the origin
suffices. -/
theorem C94_disable_false : ¬ ∀ (now : ℝ) (ps : List (TPoint ℝ)), (∀ p ∈ ps, UnitQuat p.orientation) →
    ∀ (frame : String) (extra ms : List (Marker ℝ)),
    drawSampledWithMarker Real.sqrt TPoint.position now ps 0 frame extra = .ok ms → ms.length = 1 := by
  intro hall
  have hu : ∀ p ∈ [exPoint 1 0], UnitQuat p.orientation := by simp [exPoint_unit]
  obtain ⟨marks, blocks, strip, h1, h2, -, h3⟩ :=
    C94_spacing_partial (conv := TPoint.position) (fun _ => rfl) 0 [exPoint 1 0] hu 0 "world" []
  have := hall 0 _ hu "world" [] _ h1
  obtain ⟨k, hk, -⟩ := (h3 (exPoint 1 0) rfl 0 (by simp)).mpr (by
    norm_num [pathLength, exPoint, dist3_axis])
  cases h2 with
  | nil => simp at hk
  | cons h4 _ =>
    obtain ⟨p, -, hd⟩ := h4
    have := drawnAt_length hd
    simp_all
    omega

/-- **C94**, what is missing: which points are marked depends on where the origin of the frame is. A path that
consists of the origin has no markers, the same path shifted by 1 has. -/
theorem C94_origin_false : ¬ ∀ (now : ℝ) (ps ps' : List (TPoint ℝ)) (shift : Vec3 ℝ),
    (∀ p ∈ ps, UnitQuat p.orientation) → ps' = ps.map (fun p => { p with position := p.position.add shift }) →
    ∀ (distance : ℝ) (frame : String) (ms ms' : List (Marker ℝ)),
    drawSampled Real.sqrt TPoint.position now ps distance frame = .ok ms →
    drawSampled Real.sqrt TPoint.position now ps' distance frame = .ok ms' → ms.length = ms'.length := by
  intro hall
  have hu : ∀ p ∈ [exPoint 0 0], UnitQuat p.orientation := by simp [exPoint_unit]
  have hu' : ∀ p ∈ [exPoint 1 0], UnitQuat p.orientation := by simp [exPoint_unit]
  obtain ⟨marks, blocks, strip, h1, h2, h0, h3⟩ :=
    C94_spacing_partial (conv := TPoint.position) (fun _ => rfl) 0 [exPoint 0 0] hu (1 / 2) "world" []
  obtain ⟨marks', blocks', strip', h1', h2', h0', h3'⟩ :=
    C94_spacing_partial (conv := TPoint.position) (fun _ => rfl) 0 [exPoint 1 0] hu' (1 / 2) "world" []
  have heq := hall 0 [exPoint 0 0] [exPoint 1 0] ⟨1, 0, 0⟩ hu (by simp [exPoint, Vec3.add]) (1 / 2) "world" _ _ h1 h1'
  obtain ⟨k, hk, -⟩ := (h3' (exPoint 1 0) rfl 0 (by simp)).mpr (by
    norm_num [pathLength, exPoint, dist3_axis])
  have hn := (h3 (exPoint 0 0) rfl 0 (by simp)).not.mpr (by
    norm_num [pathLength, exPoint, dist3_axis])
  have hm : marks = [] := by
    rw [List.eq_nil_iff_forall_not_mem]
    intro j hj
    have := h0.inRange j hj
    exact hn ⟨j, hj, by simpa using this⟩
  subst hm
  cases h2
  cases h2' with
  | nil => simp at hk
  | cons h4 _ =>
    obtain ⟨p, -, hd⟩ := h4
    have := drawnAt_length hd
    simp only [List.flatten_nil, List.flatten_cons, List.length_append, List.length_cons, List.length_nil] at heq
    simp only [List.length_nil] at this
    omega

theorem pureQuat_inj {a b : Vec3 ℝ} (h : pureQuat a = pureQuat b) : a = b := by
  have e1 := congrArg QuaternionAlgebra.imI h
  have e2 := congrArg QuaternionAlgebra.imJ h
  have e3 := congrArg QuaternionAlgebra.imK h
  cases a; cases b
  simp only [pureQuat] at e1 e2 e3
  subst e1 e2 e3
  rfl

theorem quat_inj {a b : Quat ℝ} (h : quat a = quat b) : a = b := by
  have e0 := congrArg QuaternionAlgebra.re h
  have e1 := congrArg QuaternionAlgebra.imI h
  have e2 := congrArg QuaternionAlgebra.imJ h
  have e3 := congrArg QuaternionAlgebra.imK h
  cases a; cases b
  simp only [quat] at e0 e1 e2 e3
  subst e0 e1 e2 e3
  rfl

/-! ### C95 groups of markers -/

/-- **C95.** `transform(t, q)` with a unit quaternion turns every marker of the group by `q` and shifts it by
`t`; nothing else changes. -/
theorem C95_moved (t : Vec3 ℝ) {q : Quat ℝ} (hq : UnitQuat q) (g : List (Marker ℝ)) :
    List.Forall₂ (fun e m => MovedMarker t q e m ∧ m.header = e.header ∧ m.id = e.id ∧ m.action = e.action ∧
      m.lifetime = e.lifetime ∧ m.meshMaterials = e.meshMaterials) g (transformGroup t q g) := by
  unfold transformGroup
  rw [List.forall₂_map_right_iff]
  exact List.forall₂_same.mpr fun e _ => ⟨movedMarker_transform t hq e, rfl, rfl, rfl, rfl, rfl⟩

/-- **C95.** The distances within the group stay the same. -/
theorem C95_rigid (t : Vec3 ℝ) {q : Quat ℝ} (hq : UnitQuat q) (g : List (Marker ℝ)) (i j : ℕ)
    {a b a' b' : Marker ℝ} (ha : g[i]? = some a) (hb : g[j]? = some b)
    (ha' : (transformGroup t q g)[i]? = some a') (hb' : (transformGroup t q g)[j]? = some b') :
    dist3 a'.position b'.position = dist3 a.position b.position := by
  unfold transformGroup at ha' hb'
  rw [List.getElem?_map, ha, Option.map_some, Option.some.injEq] at ha'
  rw [List.getElem?_map, hb, Option.map_some, Option.some.injEq] at hb'
  subst ha' hb'
  unfold UnitQuat at hq
  unfold dist3 transformMarker Quat.rotate Vec3.add Vec3.smul Vec3.cross
  congr 1
  simp only
  have h : q.w ^ 2 + q.x ^ 2 + q.y ^ 2 + q.z ^ 2 - 1 = 0 := by linarith
  linear_combination (4 * ((q.y * (a.position.z - b.position.z) - q.z * (a.position.y - b.position.y)) ^ 2 +
    (q.z * (a.position.x - b.position.x) - q.x * (a.position.z - b.position.z)) ^ 2 +
    (q.x * (a.position.y - b.position.y) - q.y * (a.position.x - b.position.x)) ^ 2)) * h

/-- **C95.** Orientations stay of norm 1. -/
theorem C95_unit (t : Vec3 ℝ) {q : Quat ℝ} (hq : UnitQuat q) {m : Marker ℝ} (hm : UnitQuat m.orientation) :
    UnitQuat (transformMarker t q m).orientation := by
  unfold UnitQuat transformMarker Quat.mul at *
  simp only
  have : ∀ a b : ℝ, a = 1 → b = 1 → a * b = 1 := by intro a b h1 h2; rw [h1, h2, one_mul]
  rw [← this _ _ hq hm]
  ring

/-- **C95.** Two motions one after the other are one motion: by the product of the quaternions and the first
shift moved by the second motion. -/
theorem C95_compose (t₁ t₂ : Vec3 ℝ) {q₁ q₂ : Quat ℝ} (h₁ : UnitQuat q₁) (h₂ : UnitQuat q₂) :
    ∃ t q, Moved t₂ q₂ t₁ t ∧ quat q = quat q₂ * quat q₁ ∧ UnitQuat q ∧
      ∀ g, transformGroup t₂ q₂ (transformGroup t₁ q₁ g) = transformGroup t q g := by
  refine ⟨_, q₂.mul q₁, moved_rotate t₂ h₂ t₁, quat_mul _ _, C95_unit t₂ h₂ (m := { (Marker.new : Marker ℝ) with
    orientation := q₁ }) h₁, fun g => ?_⟩
  unfold transformGroup
  rw [List.map_map]
  refine List.map_congr_left fun m _ => ?_
  have hu : UnitQuat (q₂.mul q₁) := C95_unit t₂ h₂ (m := { (Marker.new : Marker ℝ) with orientation := q₁ }) h₁
  simp only [Function.comp_apply, transformMarker, Marker.mk.injEq, true_and, and_true]
  refine ⟨pureQuat_inj ?_, quat_inj ?_⟩
  · have a1 := moved_rotate t₁ h₁ m.position
    have a2 := moved_rotate t₂ h₂ ((q₁.rotate m.position).add t₁)
    have a3 := moved_rotate ((q₂.rotate t₁).add t₂) hu m.position
    have a4 := moved_rotate t₂ h₂ t₁
    unfold Moved at a1 a2 a3 a4
    rw [a2, a1, a3, a4, quat_mul, star_mul]
    simp only [mul_add, add_mul, mul_assoc, add_assoc]
  · simp only [quat_mul, mul_assoc]

/-- **C95.** Every motion can be undone. -/
theorem C95_inverse (t : Vec3 ℝ) {q : Quat ℝ} (hq : UnitQuat q) :
    ∃ t' q', UnitQuat q' ∧ ∀ g, transformGroup t' q' (transformGroup t q g) = g := by
  unfold UnitQuat at hq
  have hu : UnitQuat ⟨q.w, -q.x, -q.y, -q.z⟩ := by
    unfold UnitQuat
    simp only
    linarith
  set q' : Quat ℝ := ⟨q.w, -q.x, -q.y, -q.z⟩ with hq'
  obtain ⟨r, q0, hr, hq0, -, hc⟩ := C95_compose t ⟨-(q'.rotate t).x, -(q'.rotate t).y, -(q'.rotate t).z⟩ hq hu
  refine ⟨⟨-(q'.rotate t).x, -(q'.rotate t).y, -(q'.rotate t).z⟩, q', hu, fun g => ?_⟩
  have r0 : r = ⟨0, 0, 0⟩ := by
    have h := moved_rotate ⟨-(q'.rotate t).x, -(q'.rotate t).y, -(q'.rotate t).z⟩ hu t
    unfold Moved at h hr
    rw [pureQuat_inj (hr.trans h.symm)]
    simp [Vec3.add]
  have q1 : q0 = ⟨1, 0, 0, 0⟩ := by
    rw [← quat_mul] at hq0
    rw [quat_inj hq0]
    simp only [Quat.mul, hq', Quat.mk.injEq]
    refine ⟨by linarith, by ring, by ring, by ring⟩
  rw [hc, r0, q1]
  unfold transformGroup
  refine (List.map_congr_left fun m _ => ?_).trans (List.map_id g)
  cases m with
  | mk => simp [transformMarker, Quat.rotate, Quat.mul, Vec3.add, Vec3.smul, Vec3.cross]

end Verif
