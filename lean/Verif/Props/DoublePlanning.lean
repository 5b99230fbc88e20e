import Verif.Proofs.DoublePipeline

/-
C137: from vertices to a trajectory within limits when some of the numbers are NaN or infinite.
-/
namespace Verif

open Spec

variable {h : ℕ}

/-! ### C137 the model -/

/-- **C137**, with exact numbers the code is that of `Model/Trajectory` and `Model/LinearOptimization`. -/
theorem C137_same_code {K : Type} [Field K] [LinearOrder K] (tr : Trajectory K) (scaling : K) (o : LinOpt h K) :
    tr.scaleSegmentTimesG (1 / 10 ^ 6) scaling = tr.scaleSegmentTimes scaling ∧ o.getTrajectoryG = o.getTrajectory := ⟨rfl, rfl⟩

/-! The examples below use two vertices on a line, the first at a position that is NaN. -/

/-- The first vertex has no position that is a number; the second is at 1. -/
def nanVertices : List (Vertex Dbl) := [⟨1, [(0, [.nan]), (1, [.fin 0])]⟩, ⟨1, [(0, [.fin 1]), (1, [.fin 0])]⟩]

theorem nanVertices_problem : DblProblem 2 1 nanVertices := by
  refine ⟨le_rfl, ?_, by norm_num, by norm_num⟩
  intro v hv
  simp only [nanVertices, List.mem_cons, List.not_mem_nil, or_false] at hv
  rcases hv with rfl | rfl <;> refine ⟨⟨by simp, ?_⟩, rfl⟩ <;> intro e he <;>
    simp only [List.mem_cons, List.not_mem_nil, or_false] at he <;> rcases he with rfl | rfl <;> rfl

theorem nanVertices_ends : ∀ (i : ℕ) (a b : Vertex Dbl), nanVertices[i]? = some a → nanVertices[i + 1]? = some b →
    NanEnds a.position b.position := by
  intro i a b ha hb
  cases i with
  | zero =>
    rw [nanVertices, List.getElem?_cons_zero, Option.some.injEq] at ha
    subst ha
    exact ⟨0, Or.inl rfl⟩
  | succ i => simp [nanVertices] at hb

/-- Any library with the scalar product added from the first to the last. -/
noncomputable def someLib : OptLib 2 Dbl := ⟨dblLib, fun t _ => t, Dbl.seqDot, fun m => m⟩

/-! ### C137 durations -/

/-- **C137**, `setupFromVertices` and `updateSegmentTimes`: with durations that are all above 0 (a finite number or the infinity) they
return, and with any other one - NaN among them - the program ends with a failed check. -/
theorem C137_durations {dim : ℕ} {vertices : List (Vertex Dbl)} (hp : DblProblem h dim vertices) (L : OptLib h Dbl) {k : ℕ} (hk : k < h)
    {times : List Dbl} (hcount : vertices.length = times.length + 1) :
    ((∀ T ∈ times, Above T) → ∃ o, (LinOpt.new dim).setupFromVerticesG L vertices times (k : ℕ) = .ok o) ∧
    ((∃ T ∈ times, ¬ Above T) → (LinOpt.new dim).setupFromVerticesG L vertices times (k : ℕ) = .abort) ∧
    ∀ {times₀ : List Dbl} {o : LinOpt h Dbl}, DblSession L vertices k times₀ o →
      ((∀ T ∈ times, Above T) → ∃ o', o.updateSegmentTimesG L times = .ok o') ∧
      ((∃ T ∈ times, ¬ Above T) → o.updateSegmentTimesG L times = .abort) := by
  refine ⟨fun ht => ?_, fun ht => ?_, fun {times₀ o} hs => ?_⟩
  · obtain ⟨o, ho, -⟩ := setupG_ok L (LinOpt.new dim) (new_sane dim) vertices times k hk hp.small hp.two hcount hp.wf
      (fun T hT => above_iff.mpr (ht T hT)) fun T _ => mapping_returns L.mag hp.small T
    exact ⟨o, ho⟩
  · refine setup_abort L (LinOpt.new dim) vertices times hk hp.small hcount hp.wf ?_
    obtain ⟨T, hT, hn⟩ := ht
    exact ⟨T, hT, fun h => hn (above_iff.mp h)⟩
  · obtain ⟨hp', r⟩ := dblSession_ready hs
    have hn := r.nVert
    rw [List.length_map] at hn
    have hl : times.length = o.nSegments := by rw [r.nSeg]; omega
    constructor
    · intro ht
      obtain ⟨o', ho, -⟩ := readyG_times r hp.small (by rw [hl, r.nSeg]) (fun T hT => above_iff.mpr (ht T hT))
        fun T _ => mapping_returns L.mag hp.small T
      exact ⟨o', ho⟩
    · rintro ⟨T, hT, hn⟩
      exact updateTimes_abort L o times hk hp.small r.deriv hl ⟨T, hT, fun h => hn (above_iff.mp h)⟩

/-- The hypotheses of `C137_durations` hold, with a duration that is infinite and with one that is NaN. -/
example : DblProblem 2 1 nanVertices ∧ nanVertices.length = [Dbl.inf false].length + 1 ∧ (∀ T ∈ [Dbl.inf false], Above T) ∧
    ∃ T ∈ [Dbl.nan], ¬ Above T :=
  ⟨nanVertices_problem, rfl, by simp [Above], .nan, List.mem_cons_self .., by rintro (h | ⟨x, -, h⟩) <;> cases h⟩

/-! ### C137 the solution -/

/-- **C137**, when a derivative prescribed at a vertex is not finite, then after `solveLinear` or `setFreeConstraints` no coefficient of
that dimension is finite in the segments before and after the vertex, and when it is NaN all these coefficients are NaN. -/
theorem C137_solution {L : OptLib h Dbl} (hdot : DotSpreads L.dot) {vertices : List (Vertex Dbl)} {k : ℕ} {times : List Dbl}
    {o o' : LinOpt h Dbl} (hs : DblSession L vertices k times o)
    (hlast : (∃ sol, o.solveLinearG L sol = .ok o') ∨ ∃ fc, o.setFreeConstraintsG L fc = .ok o')
    {j : ℕ} {v : Vertex Dbl} (hj : vertices[j]? = some v) {q : ℕ} (hq : q < h) {c : List Dbl} (hc : v.getConstraint (q : ℕ) = some c)
    {d : ℕ} {x : Dbl} (hx : c[d]? = some x) (hn : ¬ IsFinite x) :
    o'.segments.length = times.length ∧ ∀ (i : ℕ) (s : Segment Dbl), i = j ∨ i + 1 = j → o'.segments[i]? = some s →
      ∃ p, s.polys[d]? = some p ∧ p.N = h + h ∧ ∀ y ∈ p.coeffs, ¬ IsFinite y ∧ (x = .nan → y = .nan) :=
  session_spread hdot hs hlast hj hq hc hx hn

/-- The hypotheses of `C137_solution` hold for the two vertices and a duration of 1 s. -/
example : DotSpreads someLib.dot ∧ ∃ o o', DblSession someLib nanVertices 1 [.fin 1] o ∧
    o.solveLinearG someLib (fun _ _ _ => 0) = .ok o' ∧ nanVertices[0]? = some ⟨1, [(0, [.nan]), (1, [.fin 0])]⟩ ∧
    (⟨1, [(0, [.nan]), (1, [.fin 0])]⟩ : Vertex Dbl).getConstraint (0 : ℕ) = some [.nan] ∧ ¬ IsFinite .nan := by
  have habove : ∀ T ∈ [Dbl.fin 1], Above T := fun T hT => by
    rw [List.mem_singleton] at hT
    exact Or.inr ⟨1, one_pos, hT⟩
  obtain ⟨o, ho⟩ := (C137_durations nanVertices_problem someLib (k := 1) (by norm_num) (times := [.fin 1]) rfl).1 habove
  obtain ⟨o', ho'⟩ := fresh_solve nanVertices_problem ho (fun _ _ _ => 0)
  exact ⟨seqDot_spreads, o, o', .setup 1 nanVertices_problem ho, ho', rfl, rfl, by rintro ⟨x, hx⟩; cases hx⟩

/-! ### C137 estimated times -/

/-- **C137**, `estimateSegmentTimesNfabian`, which is what `estimateSegmentTimes` calls: the time of a segment at an end of which a coordinate is NaN is NaN, so that the
optimiser ends the program when it is given these times. -/
theorem C137_nfabian {order : ℕ → AddOrder} (ho : Orders order) (exp : Dbl → Dbl) {vertices : List (Vertex Dbl)}
    (h2 : 2 ≤ vertices.length) {D : ℕ} (hp : ∀ w ∈ vertices, w.position.length = D) (vMax aMax magic : Dbl) :
    ∃ ts, estimateSegmentTimesNfabianG (dblTimeLib order exp) vertices vMax aMax magic = .ok ts ∧
      vertices.length = ts.length + 1 ∧
      (∀ (i : ℕ) (a b : Vertex Dbl), vertices[i]? = some a → vertices[i + 1]? = some b → NanEnds a.position b.position →
        ts[i]? = some .nan) ∧
      ∀ {dim : ℕ} (_ : DblProblem h dim vertices) (L : OptLib h Dbl) {k : ℕ} (_ : k < h) {i : ℕ} {a b : Vertex Dbl},
        vertices[i]? = some a → vertices[i + 1]? = some b → NanEnds a.position b.position →
        (LinOpt.new dim).setupFromVerticesG L vertices ts (k : ℕ) = .abort := by
  obtain ⟨ts, hts⟩ := nfabian_returns (dblTimeLib order exp) h2 hp vMax aMax magic
  obtain ⟨hl, he⟩ := nfabian_entries ho exp hts
  have hall : ∀ (i : ℕ) (a b : Vertex Dbl), vertices[i]? = some a → vertices[i + 1]? = some b →
      NanEnds a.position b.position → ts[i]? = some .nan := by
    intro i a b ha hb hn
    have hi : i < ts.length := by have := (List.getElem?_eq_some_iff.mp hb).1; omega
    have := he i _ a b (List.getElem?_eq_getElem hi) ha hb hn
    rw [List.getElem?_eq_getElem hi, this]
  refine ⟨ts, hts, hl, hall, ?_⟩
  intro dim hpr L k hk i a b ha hb hn
  refine (C137_durations hpr L hk hl).2.1 ⟨.nan, List.mem_of_getElem? (hall i a b ha hb hn), ?_⟩
  rintro (h | ⟨x, -, h⟩) <;> cases h

/-- **C137 is violated** by `estimateSegmentTimesVelocityRamp`: the time of a segment at an
end of which a coordinate is NaN is 0.1 s, so that nothing is left to be seen of the NaN. (`std::max(0.1, NaN)` is 0.1.) -/
theorem C137_ramp_false {order : ℕ → AddOrder} (ho : Orders order) (exp : Dbl → Dbl) {vertices : List (Vertex Dbl)}
    (h2 : 2 ≤ vertices.length) {D : ℕ} (hp : ∀ w ∈ vertices, w.position.length = D) (vMax aMax : Dbl) :
    ∃ ts, estimateSegmentTimesVelocityRampG (dblTimeLib order exp) vertices vMax aMax = .ok ts ∧
      vertices.length = ts.length + 1 ∧
      ∀ (i : ℕ) (a b : Vertex Dbl), vertices[i]? = some a → vertices[i + 1]? = some b → NanEnds a.position b.position →
        ts[i]? = some (.ofReal (1 / 10)) := by
  obtain ⟨ts, hts⟩ := ramp_returns (dblTimeLib order exp) h2 hp vMax aMax
  obtain ⟨hl, he⟩ := ramp_entries ho exp hts
  refine ⟨ts, hts, hl, fun i a b ha hb hn => ?_⟩
  have hi : i < ts.length := by have := (List.getElem?_eq_some_iff.mp hb).1; omega
  have := he i _ a b (List.getElem?_eq_getElem hi) ha hb hn
  rw [List.getElem?_eq_getElem hi, this]

/-- An order of addition: from left to right. -/
def addLeft : ℕ → AddOrder
  | 0 => .leaf 0
  | 1 => .leaf 0
  | n + 2 => .node (addLeft (n + 1)) (.leaf (n + 1))

theorem addLeft_orders : Orders addLeft := by
  intro n hn
  obtain ⟨m, rfl⟩ : ∃ m, n = m + 1 := ⟨n - 1, by omega⟩
  clear hn
  induction m with
  | zero => exact List.Perm.refl _
  | succ m ih =>
    rw [List.range_succ (n := m + 1)]
    exact ih.append_right [m + 1]

/-- The hypotheses of `C137_nfabian` and `C137_ramp_false`. -/
example : Orders addLeft ∧ 2 ≤ nanVertices.length ∧ (∀ w ∈ nanVertices, w.position.length = 1) ∧
    (∀ (i : ℕ) (a b : Vertex Dbl), nanVertices[i]? = some a → nanVertices[i + 1]? = some b → NanEnds a.position b.position) ∧
    ∃ a b, nanVertices[0]? = some a ∧ nanVertices[0 + 1]? = some b := by
  refine ⟨addLeft_orders, le_rfl, ?_, nanVertices_ends, _, _, rfl, rfl⟩
  intro w hw
  simp only [nanVertices, List.mem_cons, List.not_mem_nil, or_false] at hw
  rcases hw with rfl | rfl <;> rfl

/-! ### C137 limits -/

/-- **C137**, the part that holds: when `scaleSegmentTimesToMeetConstraints` answers true, then at the ends of every segment of the
trajectory it leaves behind the velocity and the acceleration that are numbers are within the limits (the quotient is at most `1.0 +
kTolerance`), whatever the root finder does and whatever the numbers in the trajectory are. What is missing for the full property is in
`C137_limits_false`: velocities that are NaN are passed over. -/
theorem C137_limits_partial (rf : RootCall Dbl) {tr tr' : Trajectory Dbl} (htr : DblTrajectory tr) {v a : ℝ} (hv : 0 < v) (ha : 0 < a)
    (hok : tr.scaleToMeetDbl rf (.fin v) (.fin a) = .ok (true, tr')) :
    ∀ s ∈ tr'.segments, ∀ t, t = 0 ∨ t = s.time →
      (∃ l, s.evaluate t 1 = .ok l ∧ (normOf l ≠ .nan → normOf l / .fin v ≤ .fin 1 + .ofReal (1 / 1000))) ∧
      ∃ l, s.evaluate t 2 = .ok l ∧ (normOf l ≠ .nan → normOf l / .fin a ≤ .fin 1 + .ofReal (1 / 1000)) :=
  scaleLoop_ends rf hv ha 20 tr htr _ hok rfl

/-- **C137 is violated**: a trajectory every segment of which has a polynomial with a NaN among the coefficients from the third on meets
any limits: `scaleSegmentTimesToMeetConstraints` answers true and changes nothing, with every root finder that returns. -/
theorem C137_limits_false (rf : RootCall Dbl) {tr : Trajectory Dbl}
    (hsegs : ∀ s ∈ tr.segments, ∃ i < tr.D, ∃ p, s.polys[i]? = some p ∧ HasNan p 2 ∧ p.N ≤ 22) {v a : Dbl} (hv : Above v)
    (ha : Above a) : (tr.scaleToMeetDbl rf v a).Sat (· = (true, tr)) := scale_nan rf hsegs hv ha

/-- **C137**, with the root finder of the code it does return when all coefficients from the third on are NaN or 0. -/
theorem C137_limits_code_false {m : RMath Dbl} (h1 : m.fabs = Dbl.abs) (h2 : m.dblMin = .fin ((2 : ℝ) ^ (-1022 : ℤ))) (fuel : ℕ)
    {tr : Trajectory Dbl} (hshape : ∀ s ∈ tr.segments, s.polys.length = tr.D ∧ 3 ≤ s.N ∧ s.N ≤ 22 ∧ (∀ p ∈ s.polys, p.N = s.N) ∧
      ∀ p ∈ s.polys, ∀ j x, 2 ≤ j → p.coeffs[j]? = some x → x = .nan ∨ x = 0)
    (hnan : ∀ s ∈ tr.segments, ∃ p ∈ s.polys, HasNan p 2) {v a : Dbl} (hv : Above v) (ha : Above a) :
    tr.scaleToMeetDbl (codeRoots m fuel) v a = .ok (true, tr) := scale_nan_returns h1 h2 fuel hshape hnan hv ha

/-- A segment of one dimension with a NaN coefficient. -/
def nanSegment : Segment Dbl := ⟨[⟨[0, 0, .nan, 0]⟩], .fin 1, 4⟩

/-- The hypotheses of `C137_limits_false` and `C137_limits_code_false`. -/
example : (∃ m : RMath Dbl, m.fabs = Dbl.abs ∧ m.dblMin = .fin ((2 : ℝ) ^ (-1022 : ℤ))) ∧
    let tr : Trajectory Dbl := ⟨1, 4, .fin 1, [nanSegment]⟩
    (∀ s ∈ tr.segments, s.polys.length = tr.D ∧ 3 ≤ s.N ∧ s.N ≤ 22 ∧ (∀ p ∈ s.polys, p.N = s.N) ∧
      ∀ p ∈ s.polys, ∀ (j : ℕ) x, 2 ≤ j → p.coeffs[j]? = some x → x = .nan ∨ x = 0) ∧
    (∀ s ∈ tr.segments, ∃ p ∈ s.polys, HasNan p 2) ∧ Above (.fin 2) ∧ Above (.inf false) := by
  refine ⟨⟨⟨Dbl.abs, Dbl.sqrt, fun _ => false, .fin dblEpsilon, .fin ((2 : ℝ) ^ (-1022 : ℤ)), 0, 0, fun _ _ _ => 0, fun _ => 0, 0, 0,
    0⟩, rfl, rfl⟩, ?_, ?_, Or.inr ⟨2, by norm_num, rfl⟩, Or.inl rfl⟩
  · intro s hs
    rw [List.mem_singleton] at hs
    subst hs
    refine ⟨rfl, by decide, by decide, ?_, ?_⟩
    · intro p hp
      rw [nanSegment, List.mem_singleton] at hp
      subst hp; rfl
    · intro p hp j x _ hx
      rw [nanSegment, List.mem_singleton] at hp
      subst hp
      have hm := List.mem_of_getElem? hx
      simp only [List.mem_cons, List.not_mem_nil, or_false] at hm
      tauto
  · intro s hs
    rw [List.mem_singleton] at hs
    subst hs
    exact ⟨_, List.mem_cons_self .., 2, le_rfl, rfl⟩

/-- **C137**, a limit that is NaN is never met. -/
theorem C137_nan_limit (rf : RootCall Dbl) (tr : Trajectory Dbl) {v a : Dbl} (hva : v = .nan ∨ a = .nan) :
    (tr.scaleToMeetDbl rf v a).Sat fun r => r.1 = false := scaleLoop_nan_limit rf hva 20 tr

/-- A trajectory at rest satisfies the hypotheses of `C137_limits_partial`: the answer is true with the root finder of the code. -/
example : ∃ (m : RMath Dbl) (tr tr' : Trajectory Dbl), DblTrajectory tr ∧ tr'.segments ≠ [] ∧
    tr.scaleToMeetDbl (codeRoots m 0) (.fin 1) (.fin 1) = .ok (true, tr') := by
  let m : RMath Dbl := ⟨Dbl.abs, Dbl.sqrt, fun _ => false, .fin dblEpsilon, .fin ((2 : ℝ) ^ (-1022 : ℤ)), 0, 0, fun _ _ _ => 0,
    fun _ => 0, 0, 0, 0⟩
  refine ⟨m, ⟨1, 4, .fin 1, [⟨[⟨[.fin 5, 0, 0, 0]⟩], .fin 1, 4⟩]⟩, _, ⟨by norm_num, ?_, ?_, ?_⟩, ?_,
    scale_rest rfl rfl 0 ?_ (Or.inr ⟨1, one_pos, rfl⟩) (Or.inr ⟨1, one_pos, rfl⟩)⟩
  rotate_left 3
  · simp
  all_goals
    intro s hs
    rw [List.mem_singleton] at hs
    subst hs
  · refine ⟨rfl, by decide, by decide, fun p hp => ?_, fun p hp j x hj hx => ?_⟩ <;> rw [List.mem_singleton] at hp <;> subst hp
    · rfl
    · obtain ⟨j, rfl⟩ : ∃ i, j = i + 1 := ⟨j - 1, by omega⟩
      rw [List.getElem?_cons_succ] at hx
      have hm := List.mem_of_getElem? hx
      simp only [List.mem_cons, List.not_mem_nil, or_false, or_self] at hm
      exact Or.inr hm
  · rfl
  · refine ⟨by decide, by decide, fun p hp => ?_⟩
    rw [List.mem_singleton] at hp
    subst hp; rfl
  · change ¬ ((1 : ℝ) < 0)
    norm_num

/-! ### C137 scaling by a factor -/

/-- **C137 is violated** by `scaleSegmentTimes`: with NaN it answers true, as with a sensible factor, and all durations and all
coefficients but the first of every polynomial are NaN afterwards. It answers false only for a factor below `1.0e-6`, and then changes
nothing. -/
theorem C137_scaling_false (tiny : Dbl) (tr : Trajectory Dbl) :
    (∃ tr', tr.scaleSegmentTimesG tiny .nan = (true, tr') ∧ tr'.segments.length = tr.segments.length ∧
      ∀ s ∈ tr'.segments, s.time = .nan ∧ ∀ p ∈ s.polys, ∀ j x, 1 ≤ j → p.coeffs[j]? = some x → x = .nan) ∧
    ∀ c, ((tr.scaleSegmentTimesG tiny c).1 = false ↔ c < tiny) ∧ (c < tiny → (tr.scaleSegmentTimesG tiny c).2 = tr) := by
  constructor
  · unfold Trajectory.scaleSegmentTimesG
    rw [if_neg (not_nan_lt _)]
    refine ⟨_, rfl, by simp [Trajectory.scaleCore], fun s hs => ?_⟩
    obtain ⟨r, hr, rfl⟩ := List.mem_map.mp hs
    refine ⟨mul_nan _, fun p hp j x hj hx => ?_⟩
    obtain ⟨q, -, rfl⟩ := List.mem_map.mp hp
    have hb : (1 : Dbl) / .nan = .nan := rfl
    simp only [Poly.scaleInTime, hb] at hx
    have key : ∀ (l : List Dbl) (b : Dbl) (j : ℕ) (x : Dbl), (1 ≤ j ∨ b = .nan) → (scaleLoop .nan b l)[j]? = some x → x = .nan := by
      intro l
      induction l with
      | nil => intro b j x _ h; simp [scaleLoop] at h
      | cons y l ih =>
        intro b j x hj h
        rw [scaleLoop] at h
        cases j with
        | zero =>
          rcases hj with hj | rfl
          · omega
          · simp only [List.getElem?_cons_zero, Option.some.injEq] at h
            rw [← h]; first | exact mul_nan _ | exact nan_mul _
        | succ j =>
          rw [List.getElem?_cons_succ] at h
          exact ih _ j x (Or.inr (by first | exact mul_nan _ | exact nan_mul _)) h
    exact key _ _ j x (Or.inl hj) hx
  · intro c
    unfold Trajectory.scaleSegmentTimesG
    split_ifs with hc
    · exact ⟨⟨fun _ => hc, fun _ => rfl⟩, fun _ => rfl⟩
    · exact ⟨⟨fun h => (by cases h), fun h => absurd h hc⟩, fun h => absurd h hc⟩

/-! ### C137 all together -/

/-- **C137 is violated**: vertices such that at one end of every segment a coordinate is NaN pass through the whole library. The times
are estimated as 0.1 s, the optimiser takes them and solves, `getTrajectory` gives a trajectory that has a dimension with NaN
coefficients only in every segment, and `scaleSegmentTimesToMeetConstraints` answers that it meets the limits. -/
theorem C137_pipeline_false {order : ℕ → AddOrder} (ho : Orders order) (exp : Dbl → Dbl) {L : OptLib h Dbl}
    (hdot : DotSpreads L.dot) (hh : 2 ≤ h) {dim : ℕ} {vertices : List (Vertex Dbl)} (hp : DblProblem h dim vertices)
    (hpos : ∀ w ∈ vertices, (w.getConstraint 0).isSome)
    (hnan : ∀ (i : ℕ) (a b : Vertex Dbl), vertices[i]? = some a → vertices[i + 1]? = some b → NanEnds a.position b.position)
    {k : ℕ} (hk : k < h) (sol) (vMax aMax : Dbl) :
    ∃ ts o o' tr, estimateSegmentTimesVelocityRampG (dblTimeLib order exp) vertices vMax aMax = .ok ts ∧
      (∀ T ∈ ts, T = .ofReal (1 / 10)) ∧ (LinOpt.new dim).setupFromVerticesG L vertices ts (k : ℕ) = .ok o ∧
      o.solveLinearG L sol = .ok o' ∧ o'.getTrajectoryG = .ok tr ∧ tr.D = dim ∧ tr.segments.length + 1 = vertices.length ∧
      (∀ s ∈ tr.segments, ∃ d < dim, ∃ p, s.polys[d]? = some p ∧ p.N = h + h ∧ ∀ y ∈ p.coeffs, y = .nan) ∧
      ∀ v a, Above v → Above a → (∀ rf : RootCall Dbl, (tr.scaleToMeetDbl rf v a).Sat (· = (true, tr))) ∧
        ∀ (m : RMath Dbl) (fuel : ℕ), m.fabs = Dbl.abs → m.dblMin = .fin ((2 : ℝ) ^ (-1022 : ℤ)) → dim = 1 →
          tr.scaleToMeetDbl (codeRoots m fuel) v a = .ok (true, tr) := by
  have hlen : ∀ w ∈ vertices, w.position.length = dim := by
    intro w hw
    obtain ⟨c, hc⟩ := Option.isSome_iff_exists.mp (hpos w hw)
    obtain ⟨hwf, hD⟩ := hp.wf w hw
    unfold Vertex.position
    rw [hc, Option.getD_some]
    exact (hwf.dims _ (mapFind_mem hc)).trans hD
  obtain ⟨ts, hts⟩ := ramp_returns (dblTimeLib order exp) hp.two hlen vMax aMax
  obtain ⟨hl, he⟩ := ramp_entries ho exp hts
  have htenth : ∀ T ∈ ts, T = .ofReal (1 / 10) := by
    intro T hT
    obtain ⟨i, hi, rfl⟩ := List.mem_iff_getElem.mp hT
    have ga : vertices[i]? = some vertices[i] := List.getElem?_eq_getElem (by omega)
    have gb : vertices[i + 1]? = some vertices[i + 1] := List.getElem?_eq_getElem (by omega)
    exact he i _ _ _ (List.getElem?_eq_getElem hi) ga gb (hnan i _ _ ga gb)
  obtain ⟨o, hset⟩ := (C137_durations hp L hk hl).1 fun T hT => by rw [htenth T hT]; exact tenth_above
  have hs : DblSession L vertices k ts o := .setup dim hp hset
  obtain ⟨o', hsol⟩ := fresh_solve hp hset sol
  have hdim : o.dimension = dim := (setup_ready (new_sane dim) hp hset).2
  obtain ⟨s1, s2, s3⟩ := solved_shape hs hsol
  obtain ⟨tr, e1, e2, e3, e4⟩ := pipeline hdot hh hs hsol hnan
  rw [hdim] at e3
  have hnn : ∀ p : Poly Dbl, p.N = h + h → (∀ y ∈ p.coeffs, y = .nan) → HasNan p 2 := by
    intro p hpN hall
    have h2 : 2 < p.coeffs.length := by have : p.coeffs.length = h + h := hpN; omega
    exact ⟨2, le_rfl, by rw [List.getElem?_eq_getElem h2, hall _ (List.getElem_mem h2)]⟩
  refine ⟨ts, o, o', tr, hts, htenth, hset, hsol, e1, e3, by rw [e2]; omega, by rw [e3] at e4; exact e4, ?_⟩
  intro v a hv ha
  refine ⟨fun rf => scale_nan rf (fun s hs => ?_) hv ha, fun m fuel h1 h2 hd1 => ?_⟩
  · obtain ⟨d, hd, p, hp1, hp2, hp3⟩ := e4 s hs
    exact ⟨d, hd, p, hp1, hnn p hp2 hp3, by rw [hp2]; exact hp.small⟩
  · refine scale_nan_returns h1 h2 fuel (fun s hs => ?_) (fun s hs => ?_) hv ha
    · have hs' := hs
      rw [e2] at hs'
      obtain ⟨g1, g2, g3⟩ := s3 s hs'
      refine ⟨by rw [g1, hdim, e3], by omega, by rw [g2]; exact hp.small, fun p hp' => by rw [g3 p hp', g2], ?_⟩
      intro p hp' j x _ hx
      obtain ⟨d, hd, q, hq1, hq2, hq3⟩ := e4 s hs
      obtain ⟨i, hi, rfl⟩ := List.mem_iff_getElem.mp hp'
      have hid : i = d := by rw [g1, hdim] at hi; rw [e3] at hd; omega
      subst hid
      rw [List.getElem?_eq_getElem hi, Option.some.injEq] at hq1
      rw [hq1] at hx
      exact Or.inl (hq3 x (List.mem_of_getElem? hx))
    · obtain ⟨d, hd, p, hp1, hp2, hp3⟩ := e4 s hs
      exact ⟨p, List.mem_of_getElem? hp1, hnn p hp2 hp3⟩

/-- The hypotheses of `C137_pipeline_false`, with the two vertices above. -/
example : Orders addLeft ∧ DotSpreads someLib.dot ∧ DblProblem 2 1 nanVertices ∧
    (∀ w ∈ nanVertices, (w.getConstraint 0).isSome) ∧
    ∀ (i : ℕ) (a b : Vertex Dbl), nanVertices[i]? = some a → nanVertices[i + 1]? = some b → NanEnds a.position b.position := by
  refine ⟨addLeft_orders, seqDot_spreads, nanVertices_problem, ?_, nanVertices_ends⟩
  intro w hw
  simp only [nanVertices, List.mem_cons, List.not_mem_nil, or_false] at hw
  rcases hw with rfl | rfl <;> rfl

end Verif
