import Verif.Proofs.NlOptResult
import Verif.Props.Polynomial

/-
Properties C65 - C76: the nonlinear optimiser.

NLopt is represented by the callbacks it makes: a run is a list of evaluations of the objective function
and of the constraints. `Spec.RunOf` is what is assumed of it: it stays within the bounds it was given,
asks for gradients exactly if the algorithm uses them, and reports a result only after having evaluated
the objective function. `Spec.NlSession lib vertices k b o` says that on `o` the last setup was
`setupFromVertices(vertices, ..., k)`, followed by any other calls, among them any number of
optimisations with any runs; `b` holds if since then a trajectory was computed.
-/
namespace Verif

open Spec Set

set_option linter.unusedSectionVars false

/-! ### Examples used below -/

section
variable {h : ℕ}

/-- Libraries that meet their specification. -/
noncomputable def exLib (h : ℕ) : NlLib h ℝ where
  rf := complete_rootFinder_exists.choose
  sq := Real.sqrt
  ex := Real.exp
  inv := fun D => D⁻¹
  solve := anySolve

theorem exLib_spec : LibSpec (exLib h) where
  rf := complete_rootFinder_exists.choose_spec
  sq := rfl
  ex := rfl
  inv := fun D hD => Matrix.nonsing_inv_mul D ((Matrix.isUnit_iff_isUnit_det D).mp hD)
  solve := anySolve_isSolver

end

section
variable {K : Type} [Field K] [LinearOrder K] [IsStrictOrderedRing K] {h : ℕ}

theorem timesOf_timePart {m : TimeAlloc} (hm : m ≠ .unknown) (n : ℕ) (x : List K) :
    timesOf m n x = timePart m n x := by
  cases m <;> first | rfl | exact absurd rfl hm

/-- Setting up a new object. -/
theorem nl_new {lib : NlLib h K} {dim : ℕ} {vertices : List (Vertex K)} {times : List K}
    (hp : Problem h dim vertices times) {k : ℕ} (hk : k < h) (params : NlParams K) :
    ∃ o : NlOpt h K, (NlOpt.new dim params).setupFromVertices lib vertices times k = .ok o ∧
      NlSession lib vertices k False o ∧ o.params = params ∧ o.constraints = [] ∧
      o.lin.dimension = dim ∧ o.lin.segmentTimes = times ∧ ∃ o1, o.solveLinear lib = .ok o1 := by
  obtain ⟨l, l', h1, h2, h3, h4⟩ := C30_returns (inv := lib.inv) (solve := lib.solve) hp k hk
  have hr : NlReachable lib (NlOpt.new dim params : NlOpt h K) := .new dim params
  obtain ⟨n, hset⟩ : ∃ n, (NlOpt.new dim params : NlOpt h K).setupFromVertices lib vertices times k =
      .ok ⟨some ⟨n, []⟩, l, params, [], NlInfo.default⟩ := by
    unfold NlOpt.setupFromVertices
    rw [show (NlOpt.new dim params : NlOpt h K).lin = LinOpt.new dim from rfl, h1, Res.ok_bind]
    exact ⟨_, rfl⟩
  refine ⟨_, hset, .setup hr hp hset, rfl, rfl, h3, (session_ready h2).2.2.timesEq, ?_⟩
  unfold NlOpt.solveLinear
  dsimp only
  rw [h4, Res.ok_bind]
  exact ⟨_, rfl⟩

/-- The starting point of a run lies within the bounds. -/
theorem start_within {lib : NlLib h K} {vertices : List (Vertex K)} {k : ℕ} {o p : NlOpt h K} {a : NlArgs K}
    {hd : NlHandle K} (hs : LinSession lib vertices k o.lin) (hh : o.handle = some hd)
    (hu : o.params.method ≠ .unknown)
    (hn : hd.n = varCount o.params.method (vertices.length - 1) o.lin.nFree o.lin.dimension)
    (ho : o.prepare lib = .ok (p, a))
    (ht : withDerivatives o.params.method ∨ ∀ T ∈ o.lin.segmentTimes, 1 / 10 ≤ T ∧ T ≤ dblMax) :
    Within a.lower a.upper a.start := by
  have hst : o.lin.segmentTimes.length = vertices.length - 1 := by
    rw [← (session_ready hs).2.2.nSeg, nSegments_eq hs]
  have key : ∀ n, o.lin.segmentTimes.length = n → (∀ T ∈ o.lin.segmentTimes, 1 / 10 ≤ T ∧ T ≤ dblMax) →
      Within (List.replicate n (1 / 10)) (List.replicate n dblMax) o.lin.segmentTimes := by
    rintro n rfl h1
    refine within_of_get (by simp) (by simp) fun i y hy => ?_
    have hi := (List.getElem?_eq_some_iff.mp hy).1
    exact ⟨1 / 10, dblMax, List.getElem?_replicate_of_lt hi, List.getElem?_replicate_of_lt hi,
      h1 y (List.mem_of_getElem? hy)⟩
  rcases prepare_cases ho with ⟨hd', hh', hm, rfl, rfl⟩ | ⟨hd', hh', hm, rfl, rfl⟩ |
    ⟨hd', l, hh', hm, hl, rfl, ha⟩
  · rw [hh, Option.some.injEq] at hh'
    subst hh'
    have ht' : ∀ T ∈ p.lin.segmentTimes, 1 / 10 ≤ T ∧ T ≤ dblMax := by
      rcases ht with ht | ht
      · rcases ht with ht | ht <;> rcases hm with hm | hm <;> rw [ht] at hm <;> cases hm
      · exact ht
    exact key hd.n (by rw [hst, hn]; rcases hm with hm | hm <;> rw [hm] <;> rfl) ht'
  · rw [hh, Option.some.injEq] at hh'
    subst hh'
    have ht' : ∀ T ∈ p.lin.segmentTimes, 1 / 10 ≤ T ∧ T ≤ dblMax := by
      rcases ht with ht | ht
      · rcases ht with ht | ht <;> rw [ht] at hm <;> cases hm
      · exact ht
    exact key hd.n (by rw [hst, hn, hm]; rfl) ht'
  · exact fullArgs_start_within (o := { o with lin := l }) (lin_solve hs hl).1 ha

/-- The variables of the NLopt object. -/
theorem session_handle {lib : NlLib h K} {vertices : List (Vertex K)} {k : ℕ} {b : Prop} {o : NlOpt h K}
    (hs : NlSession lib vertices k b o) : ∃ hd, o.handle = some hd ∧
      hd.n = varCount o.params.method (vertices.length - 1) o.lin.nFree o.lin.dimension := by
  obtain ⟨-, -, hd, h1, h2⟩ := nlSession_inv hs
  refine ⟨hd, h1, ?_⟩
  rw [h2]
  unfold varCount
  rfl

/-- There is always a run that evaluates the objective function, unless the times are out of bounds. -/
theorem run_exists {lib : NlLib h K} {vertices : List (Vertex K)} {k : ℕ} {b : Prop} {o : NlOpt h K}
    (hs : NlSession lib vertices k b o) (hu : o.params.method ≠ .unknown) (g : Bool)
    (hok : ∃ o1, o.solveLinear lib = .ok o1)
    (ht : withDerivatives o.params.method ∨ ∀ T ∈ o.lin.segmentTimes, 1 / 10 ≤ T ∧ T ≤ dblMax) :
    ∃ run x, RunOf lib g o run ∧ run.setupThrows = false ∧ points run.queries = [x] ∧ run.code = some 1 ∧
      (o.params.method = .mellingerOuterLoop → x = o.lin.segmentTimes) := by
  have hl := (nlSession_inv hs).1
  obtain ⟨hd, hh, hn⟩ := session_handle hs
  have hl0 : LinSession lib vertices k ({ o with info := NlInfo.default } : NlOpt h K).lin := hl
  obtain ⟨o1, h1⟩ := hok
  obtain ⟨l1, h1, -⟩ := solveLinear_nl_inv h1
  obtain ⟨p, a, hp⟩ := prepare_ok (o := { o with info := NlInfo.default }) hl0 hh
    (fun _ => able_of_solve hl h1) hu
  have hw := start_within hl0 hh hu hn hp ht
  refine ⟨⟨false, [.objective a.start g], some 1, true⟩, a.start, ?_, rfl, rfl, rfl, fun hm => ?_⟩
  · intro _ p' a' hd' hp' _
    rw [hp, Res.ok.injEq, Prod.mk.injEq] at hp'
    obtain ⟨rfl, rfl⟩ := hp'
    refine ⟨?_, ?_, fun _ => ⟨a.start, g, by simp⟩⟩
    · intro x g' hx
      simp only [List.mem_cons, NlQuery.objective.injEq, List.not_mem_nil, or_false] at hx
      obtain ⟨rfl, rfl⟩ := hx
      exact ⟨hw, rfl⟩
    · intro i x g' hx
      simp at hx
  · unfold NlOpt.prepare at hp
    rw [hm] at hp
    dsimp only at hp
    rw [hh] at hp
    dsimp only at hp
    rw [Res.pure_eq, Res.ok.injEq, Prod.mk.injEq] at hp
    rw [← hp.2]
    rfl

/-- Three vertices at which the velocity of the middle one is free. -/
def exVertices2 : List (Vertex K) :=
  [⟨1, [(0, [2]), (1, [0])]⟩, ⟨1, [(0, [3])]⟩, ⟨1, [(0, [5]), (1, [0])]⟩]

theorem exProblem2 : Problem 2 1 (exVertices2 : List (Vertex K)) [1, 2] where
  count := rfl
  two := by simp [exVertices2]
  times_pos := by
    intro T hT
    simp only [List.mem_cons, List.not_mem_nil, or_false] at hT
    rcases hT with rfl | rfl <;> norm_num
  wf := by
    intro v hv
    simp only [exVertices2, List.mem_cons, List.not_mem_nil, or_false] at hv
    rcases hv with rfl | rfl | rfl <;> exact ⟨⟨by simp, by simp⟩, rfl⟩
  dim_pos := by norm_num
  small := by norm_num

/-! ### C65 the trajectory meets the constraints, whatever NLopt does -/

/-- **C65.** Whatever calls are made after `setupFromVertices`, and whatever NLopt does in any number of
optimisations, the present segments meet all vertex constraints, agree up to order `h-1` where they
meet, and have the stored durations, all positive. -/
theorem C65_meets_constraints {lib : NlLib h K} (hinv : IsInverse lib.inv) {vertices : List (Vertex K)}
    {k : ℕ} {b : Prop} {o : NlOpt h K} (hs : NlSession lib vertices k b o) (hb : b) :
    MeetsConstraints h o.lin.dimension vertices o.lin.segments ∧
    Spec.Continuous h o.lin.dimension o.lin.segments ∧
    Shape (h + h) o.lin.dimension o.lin.segmentTimes o.lin.segments ∧
    o.lin.segmentTimes.length + 1 = vertices.length ∧ ∀ T ∈ o.lin.segmentTimes, 0 < T := by
  obtain ⟨-, h1, -⟩ := nlSession_inv hs
  obtain ⟨a1, a2, a3, -, -⟩ := (h1 hb).result hinv
  have hp := (session_ready (h1 hb).session).2.1
  exact ⟨a1, a3, a2, hp.count.symm, fun T hT => lt_of_lt_of_le (by positivity) (hp.times_pos T hT)⟩

/-- **C65.** A trajectory was computed after every optimisation that evaluated the objective function, and
after every optimisation of times and derivatives, also a failed one. -/
theorem C65_computed {lib : NlLib h K} (hinv : IsInverse lib.inv) {vertices : List (Vertex K)}
    {k : ℕ} {b : Prop} {o o' : NlOpt h K} {run : NlRun K} {c : ℤ} {gradients : Bool}
    (hs : NlSession lib vertices k b o) (hr : RunOf lib gradients o run)
    (ho : o.optimize lib run = .ok (c, o')) (hu : o.params.method ≠ .unknown)
    (he : withDerivatives o.params.method ∨ (run.setupThrows = false ∧ points run.queries ≠ [])) :
    NlSession lib vertices k True o' ∧ MeetsConstraints h o'.lin.dimension vertices o'.lin.segments := by
  have hn : NlSession lib vertices k _ o' := .optimize hs hr ho
  have hcond : b ∨ (evaluated run ∧ run.setupThrows = false ∧ o.params.method ≠ .unknown) ∨
      o.params.method = .squaredTimeAndConstraints ∨ o.params.method = .richterTimeAndConstraints := by
    rcases he with he | ⟨h1, h2⟩
    · exact .inr (.inr he)
    · obtain ⟨x, hx⟩ := List.exists_mem_of_ne_nil _ h2
      obtain ⟨g, hg⟩ := points_mem.mp hx
      exact .inr (.inl ⟨⟨x, g, hg⟩, h1, hu⟩)
  rw [eq_true hcond] at hn
  exact ⟨hn, (C65_meets_constraints hinv hn trivial).1⟩

end

section
variable {h : ℕ}

/-- **C65**, in terms of the trajectory handed out: evaluated at the time of a vertex, it has the
prescribed derivatives. -/
theorem C65_trajectory {lib : NlLib h ℝ} (hinv : IsInverse lib.inv) {vertices : List (Vertex ℝ)}
    {k : ℕ} {b : Prop} {o : NlOpt h ℝ} (hs : NlSession lib vertices k b o) (hb : b) :
    ∃ tr, o.lin.getTrajectory = .ok tr ∧ tr.WF ∧ tr.D = o.lin.dimension ∧
      tr.maxTime = o.lin.segmentTimes.sum ∧
      ∀ i v, vertices[i]? = some v → ∀ m < h, ∀ c, v.getConstraint (m : ℕ) = some c →
        ∀ d < o.lin.dimension,
          component (tr.evaluate (startTime o.lin.segmentTimes i) m) d = c.getD d 0 := by
  obtain ⟨-, h1, -⟩ := nlSession_inv hs
  obtain ⟨l0, h2, h3⟩ := h1 hb
  have hd : l0.dimension = o.lin.dimension := by
    obtain ⟨-, -, -, -, -, h6⟩ := session_result hinv h2 h3
    exact h6.symm
  obtain ⟨tr, a1, a2, a3, a4, a5⟩ := C30_trajectory hinv h2 h3
  rw [hd] at a3 a5
  exact ⟨tr, a1, a2, a3, a4, a5⟩

/-- An object set up for each method, with a trajectory computed. -/
theorem exNl (params : NlParams ℝ) : ∃ o : NlOpt 2 ℝ,
    NlSession (exLib 2) exVertices2 1 True o ∧ o.params = params ∧ o.constraints = [] ∧
      o.lin.dimension = 1 ∧ o.lin.segmentTimes = [1, 2] ∧ ∃ o1, o.solveLinear (exLib 2) = .ok o1 := by
  obtain ⟨o, -, h2, h3, h4, h5, h6, o1, h7⟩ := nl_new (lib := exLib 2) exProblem2 (k := 1) (by norm_num)
    params
  have hs : NlSession (exLib 2) exVertices2 1 True o1 := .solveLinear h2 h7
  obtain ⟨l, h8, rfl⟩ := solveLinear_nl_inv h7
  obtain ⟨a1, a2, a3⟩ := lin_solve (nlSession_inv h2).1 h8
  refine ⟨_, hs, h3, h4, a3.trans h5, a2.trans h6, ?_⟩
  obtain ⟨l2, h9⟩ := lin_solve_ok a1.session a1.able
  unfold NlOpt.solveLinear
  dsimp only
  rw [h9, Res.ok_bind]
  exact ⟨_, rfl⟩

example (params : NlParams ℝ) : ∃ o : NlOpt 2 ℝ, IsInverse (exLib 2).inv ∧
    NlSession (exLib 2) exVertices2 1 True o ∧ o.params = params :=
  let ⟨o, h1, h2, _⟩ := exNl params
  ⟨o, exLib_spec.inv, h1, h2⟩

/-! ### C66 the segment times after an optimisation -/

/-- **C66.** After an optimisation that evaluated the objective function there is one time per segment, and
each is at least 0.1 s; only if derivatives are optimised too, a time that was already shorter may stay
shorter, but not below what it was. -/
theorem C66_times_bounded {lib : NlLib h ℝ} {vertices : List (Vertex ℝ)} {k : ℕ} {b : Prop}
    {o o' : NlOpt h ℝ} {run : NlRun ℝ} {c : ℤ} {gradients : Bool}
    (hs : NlSession lib vertices k b o) (hr : RunOf lib gradients o run)
    (ho : o.optimize lib run = .ok (c, o')) (hu : o.params.method ≠ .unknown)
    (ht : run.setupThrows = false) (he : points run.queries ≠ []) :
    o'.lin.segmentTimes.length + 1 = vertices.length ∧
    ∀ (i : ℕ) (T : ℝ), o'.lin.segmentTimes[i]? = some T → 1 / 10 ≤ T ∨ (withDerivatives o.params.method ∧
      ∃ T0 : ℝ, o.lin.segmentTimes[i]? = some T0 ∧ T0 < 1 / 10 ∧ T0 ≤ T) := by
  have hl := (nlSession_inv hs).1
  obtain ⟨s1, -, -, -, hcase⟩ := optimize_inv hl hr ho
  have hev : evaluated run := by
    obtain ⟨x, hx⟩ := List.exists_mem_of_ne_nil _ he
    obtain ⟨g, hg⟩ := points_mem.mp hx
    exact ⟨x, g, hg⟩
  refine ⟨(session_ready s1).2.1.count.symm, fun i T hT => ?_⟩
  rcases hcase with ⟨-, -, h3 | h3 | h3⟩ | ⟨-, -, -, h3 | h3⟩ | ⟨-, -, -, x, g, f, -, hf, -, h5, p, a, hp, hw⟩
  · exact absurd h3 hu
  · rw [ht] at h3; cases h3
  · exact absurd hev h3
  · rw [ht] at h3; cases h3
  · exact absurd hev h3
  rw [h5, List.getElem?_map] at hT
  cases hx : (timesOf o.params.method (vertices.length - 1) x)[i]? with
  | none => rw [hx] at hT; cases hT
  | some t =>
    rw [hx, Option.map_some, Option.some.injEq] at hT
    have hl0 : LinSession lib vertices k ({ o with info := NlInfo.default } : NlOpt h ℝ).lin := hl
    have hpos : 0 < t := lt_of_lt_of_le (by positivity)
      (within_times hl0 hp hw t (List.mem_of_getElem? hx))
    have htT : t ≤ T := by
      rw [← hT]
      exact le_mul_of_one_le_right hpos.le hf
    rcases (prepare_inv hl0 hp).2.2.2.2.2.2.2 x hw i t hx with h1 | ⟨h1, T0, h2, h3, h4⟩
    · exact .inl (h1.trans htT)
    · refine .inr ⟨?_, T0, h2, h3, h4.trans htT⟩
      rcases h1 with h1 | h1
      · exact h1
      · exact absurd h1 hu

/-- **C66.** An optimisation that never evaluated the objective function leaves the times alone. -/
theorem C66_times_unchanged {lib : NlLib h ℝ} {vertices : List (Vertex ℝ)} {k : ℕ} {b : Prop}
    {o o' : NlOpt h ℝ} {run : NlRun ℝ} {c : ℤ} {gradients : Bool}
    (hs : NlSession lib vertices k b o) (hr : RunOf lib gradients o run)
    (ho : o.optimize lib run = .ok (c, o'))
    (he : o.params.method = .unknown ∨ run.setupThrows = true ∨ points run.queries = []) :
    o'.lin.segmentTimes = o.lin.segmentTimes := by
  have hl := (nlSession_inv hs).1
  obtain ⟨s1, -, -, -, hcase⟩ := optimize_inv hl hr ho
  rcases hcase with ⟨h1, -⟩ | ⟨-, -, h1, -⟩ | ⟨-, h1, h2, x, g, f, h3, -⟩
  · rw [h1]
  · exact h1
  · rcases he with he | he | he
    · exact absurd he h1
    · rw [h2] at he; cases he
    · have := points_mem.mpr ⟨g, h3⟩
      rw [he] at this
      cases this

/-! ### C67 an optimisation returns -/

/-- **C67.** Whatever NLopt does within its bounds, `optimize()` returns: no `CHECK` fails and no memory is
accessed out of bounds, provided that the algorithm uses gradients exactly for the Mellinger method, the
limits are on derivatives that exist (and positive), and `solveLinear()` would return. The Mellinger
method needs a limit on the velocity and one on the acceleration, both soft. -/
theorem C67_returns {lib : NlLib h ℝ} (hl : LibSpec lib) {vertices : List (Vertex ℝ)} {k : ℕ} {b : Prop}
    {o : NlOpt h ℝ} {run : NlRun ℝ} (hs : NlSession lib vertices k b o)
    (hok : ∃ o1, o.solveLinear lib = .ok o1)
    (hr : RunOf lib (decide (o.params.method = .mellingerOuterLoop)) o run)
    (hlim : LimitsOk h o.constraints)
    (hmel : o.params.method = .mellingerOuterLoop → 2 ≤ h ∧ o.params.useSoft = true ∧
      (∃ c ∈ o.constraints, c.derivative = 1) ∧ (∃ c ∈ o.constraints, c.derivative = 2)) :
    ∃ c o', o.optimize lib run = .ok (c, o') := by
  have hls := (nlSession_inv hs).1
  obtain ⟨hd, hh, hn⟩ := session_handle hs
  have hsane := nlReachable_limits (session_nlReachable hs)
  obtain ⟨o1, h1⟩ := hok
  obtain ⟨l1, h1, -⟩ := solveLinear_nl_inv h1
  have hpos : ∀ c ∈ o.constraints, 0 < c.value := fun c hc => (hlim c hc).2.2
  obtain ⟨⟨c, o'⟩, h2⟩ := optimize_ok hl hls (able_of_solve hls h1) hh hn hr
    (fun c hc => ⟨(hlim c (hsane.hard hd hh c hc)).1, (hlim c (hsane.hard hd hh c hc)).2.1⟩)
    (fun _ _ => hlim) (fun hm => by
      obtain ⟨a1, a2, a3, a4⟩ := hmel hm
      exact ⟨hsane.soft a2 hd hh, a1, (limitOf_pos hpos a3).ne', (limitOf_pos hpos a4).ne'⟩)
  exact ⟨c, o', h2⟩

/-- **C67.** `solveLinear()` returns, as the previous theorem asks, if a trajectory was computed before or
if there is a free derivative. -/
theorem C67_solvable {lib : NlLib h ℝ} {vertices : List (Vertex ℝ)} {k : ℕ} {b : Prop} {o : NlOpt h ℝ}
    (hs : NlSession lib vertices k b o)
    (hf : b ∨ ∃ (i m : ℕ) (v : Vertex ℝ), m < h ∧ vertices[i]? = some v ∧ v.getConstraint ((m : ℕ) : ℤ) = none) :
    ∃ o1, o.solveLinear lib = .ok o1 := by
  obtain ⟨hls, hb, -⟩ := nlSession_inv hs
  have ha : Able o.lin := by
    rcases hf with hf | ⟨i, m, v, h1, h2, h3⟩
    · exact (hb hf).able
    · left
      rw [session_nFree_order hls]
      have := (freeOrder_mem h vertices i m).mpr ⟨h1, v, h2, h3⟩
      intro h0
      rw [List.length_eq_zero_iff] at h0
      rw [h0] at this
      cases this
  obtain ⟨l, h1⟩ := lin_solve_ok hls ha
  unfold NlOpt.solveLinear
  rw [h1, Res.ok_bind]
  exact ⟨_, rfl⟩

/-- **C67**, the other side: with an algorithm of the wrong kind (without gradients for the Mellinger
method, with gradients for the others) no optimisation that evaluates the objective function returns. -/
theorem C67_wrong_algorithm {lib : NlLib h ℝ} {vertices : List (Vertex ℝ)} {k : ℕ} {b : Prop}
    {o : NlOpt h ℝ} {run : NlRun ℝ} {gradients : Bool} (hs : NlSession lib vertices k b o)
    (hr : RunOf lib gradients o run) (hu : o.params.method ≠ .unknown) (ht : run.setupThrows = false)
    (he : points run.queries ≠ []) (hg : gradients ≠ decide (o.params.method = .mellingerOuterLoop)) :
    ∀ c o', o.optimize lib run ≠ .ok (c, o') := by
  intro c o' ho
  obtain ⟨x, hx⟩ : ∃ x, (points run.queries).getLast? = some x := by
    rw [List.getLast?_eq_getLast_of_ne_nil he]
    exact ⟨_, rfl⟩
  obtain ⟨g, o1, o2, y, -, h2, -, -, h5, -, h7, -⟩ :=
    optimize_last (nlSession_inv hs).1 hr hu ht ho hx
  exact hg (h2 ▸ (objective_checks h7).1)

/-- **C67.** Setting up a new object returns for every problem. -/
theorem C67_setup_returns {lib : NlLib h ℝ} {dim : ℕ} {vertices : List (Vertex ℝ)} {times : List ℝ}
    (hp : Problem h dim vertices times) {k : ℕ} (hk : k < h) (params : NlParams ℝ) :
    ∃ o : NlOpt h ℝ, (NlOpt.new dim params).setupFromVertices lib vertices times k = .ok o ∧
      NlSession lib vertices k False o ∧ o.lin.segmentTimes = times := by
  obtain ⟨o, h1, h2, -, -, -, h3, -⟩ := nl_new (lib := lib) hp hk params
  exact ⟨o, h1, h2, h3⟩

/-- An object set up with soft limits on velocity and acceleration. -/
theorem exNlLimits (params : NlParams ℝ) (hsoft : params.useSoft = true) : ∃ o : NlOpt 2 ℝ,
    NlSession (exLib 2) exVertices2 1 True o ∧ o.params = params ∧ o.constraints = [⟨1, 3⟩, ⟨2, 5⟩] ∧
      o.lin.dimension = 1 ∧ o.lin.segmentTimes = [1, 2] ∧ ∃ o1, o.solveLinear (exLib 2) = .ok o1 := by
  obtain ⟨o, h1, rfl, h3, h4, h5, o1, h6⟩ := exNl params
  obtain ⟨l, h6, -⟩ := solveLinear_nl_inv h6
  have e1 : o.addMaximumMagnitudeConstraint true 1 3 =
      .ok (true, { o with constraints := o.constraints ++ [⟨1, 3⟩] }) := by
    unfold NlOpt.addMaximumMagnitudeConstraint
    rw [Res.check_of (by norm_num), Res.ok_bind, Res.check_of (by norm_num), Res.ok_bind]
    dsimp only
    rw [if_pos hsoft, Res.pure_eq]
  have e2 : ({ o with constraints := o.constraints ++ [⟨1, 3⟩] } :
      NlOpt 2 ℝ).addMaximumMagnitudeConstraint true 2 5 =
      .ok (true, { o with constraints := o.constraints ++ [⟨1, 3⟩] ++ [⟨2, 5⟩] }) := by
    unfold NlOpt.addMaximumMagnitudeConstraint
    rw [Res.check_of (by norm_num), Res.ok_bind, Res.check_of (by norm_num), Res.ok_bind]
    dsimp only
    rw [if_pos hsoft, Res.pure_eq]
  refine ⟨_, .add (.add h1 e1) e2, rfl, ?_, h4, h5, ?_⟩
  · dsimp only
    rw [h3]
    rfl
  · unfold NlOpt.solveLinear
    dsimp only
    rw [h6, Res.ok_bind]
    exact ⟨_, rfl⟩

/-- For every method there is an object and a run of NLopt that meet the hypotheses, so the optimisation
returns after having evaluated the objective function. -/
theorem exOptimize (params : NlParams ℝ) (hsoft : params.useSoft = true)
    (hu : params.method ≠ .unknown) : ∃ (o o' : NlOpt 2 ℝ) (run : NlRun ℝ) (c : ℤ) (x : List ℝ),
    NlSession (exLib 2) exVertices2 1 True o ∧ o.params = params ∧ LimitsOk 2 o.constraints ∧
      RunOf (exLib 2) (decide (o.params.method = .mellingerOuterLoop)) o run ∧
      run.setupThrows = false ∧ points run.queries = [x] ∧ o.optimize (exLib 2) run = .ok (c, o') := by
  obtain ⟨o, h1, rfl, h3, h4, h5, h6⟩ := exNlLimits params hsoft
  obtain ⟨run, x, a1, a2, a3, -⟩ := run_exists h1 hu (decide (o.params.method = .mellingerOuterLoop)) h6
    (.inr (by
      rw [h5]
      have := dblMax_gt (K := ℝ)
      intro T hT
      simp only [List.mem_cons, List.not_mem_nil, or_false] at hT
      rcases hT with rfl | rfl <;> constructor <;> linarith))
  have hlim : LimitsOk 2 o.constraints := by
    rw [h3]
    intro c hc
    simp only [List.mem_cons, List.not_mem_nil, or_false] at hc
    rcases hc with rfl | rfl <;> norm_num
  obtain ⟨c, o', h7⟩ := C67_returns exLib_spec h1 h6 a1 hlim (fun _ => ⟨le_rfl, hsoft,
    ⟨⟨1, 3⟩, by rw [h3]; simp, rfl⟩, ⟨⟨2, 5⟩, by rw [h3]; simp, rfl⟩⟩)
  exact ⟨o, o', run, c, x, h1, rfl, hlim, a1, a2, a3, h7⟩

/-- The Mellinger method meets the hypotheses of C66 and C67. -/
example : ∃ (o o' : NlOpt 2 ℝ) (run : NlRun ℝ) (c : ℤ) (x : List ℝ),
    o.params.method = .mellingerOuterLoop ∧ NlSession (exLib 2) exVertices2 1 True o ∧
      RunOf (exLib 2) (decide (o.params.method = .mellingerOuterLoop)) o run ∧
      points run.queries = [x] ∧ o.optimize (exLib 2) run = .ok (c, o') :=
  let ⟨o, o', run, c, x, h1, h2, _, h4, _, h6, h7⟩ :=
    exOptimize ⟨1 / 10, 1, true, 1, .mellingerOuterLoop⟩ rfl (by simp)
  ⟨o, o', run, c, x, by rw [h2], h1, h4, h6, h7⟩

/-- So does the default method. -/
example : ∃ (o o' : NlOpt 2 ℝ) (run : NlRun ℝ) (c : ℤ) (x : List ℝ),
    o.params.method = .squaredTimeAndConstraints ∧ NlSession (exLib 2) exVertices2 1 True o ∧
      RunOf (exLib 2) (decide (o.params.method = .mellingerOuterLoop)) o run ∧
      points run.queries = [x] ∧ o.optimize (exLib 2) run = .ok (c, o') :=
  let ⟨o, o', run, c, x, h1, h2, _, h4, _, h6, h7⟩ :=
    exOptimize ⟨1 / 10, 1, true, 1, .squaredTimeAndConstraints⟩ rfl (by simp)
  ⟨o, o', run, c, x, by rw [h2], h1, h4, h6, h7⟩

/-! ### C68 which trajectory remains -/

theorem optimal_of_route {lib : NlLib h ℝ} (hl : LibSpec lib) {vertices : List (Vertex ℝ)} {k dim : ℕ}
    {times : List ℝ} {l1 l2 : LinOpt h ℝ} (h1 : Session lib.inv lib.solve vertices k times l1)
    (hd : l1.dimension = dim) (h2 : l1.solveLinear lib.solve = .ok l2) :
    Optimal h k dim vertices times l2.segments := by
  subst hd
  exact C33_optimal hl.inv hl.solve h1 h2

/-- **C68**, times only, with the last point in place of the best one (`C68_best_false`): the trajectory left by an optimisation is the one for the point at which the
objective function was evaluated last: it has those durations and the smallest cost possible with
them. -/
theorem C68_last_point_times_partial {lib : NlLib h ℝ} (hl : LibSpec lib) {vertices : List (Vertex ℝ)} {k : ℕ}
    {b : Prop} {o o' : NlOpt h ℝ} {run : NlRun ℝ} {c : ℤ} {gradients : Bool}
    (hs : NlSession lib vertices k b o) (hr : RunOf lib gradients o run)
    (ho : o.optimize lib run = .ok (c, o'))
    (hm : o.params.method = .squaredTime ∨ o.params.method = .richterTime)
    (ht : run.setupThrows = false) {x : List ℝ} (hx : (points run.queries).getLast? = some x) :
    o'.lin.segmentTimes = x ∧ o'.lin.dimension = o.lin.dimension ∧
      Optimal h k o.lin.dimension vertices x o'.lin.segments := by
  have hu : o.params.method ≠ .unknown := by rcases hm with hm | hm <;> rw [hm] <;> simp
  have hne : o.params.method ≠ .mellingerOuterLoop := by rcases hm with hm | hm <;> rw [hm] <;> simp
  have htp : timesOf o.params.method (vertices.length - 1) x = x := by
    rcases hm with hm | hm <;> rw [hm] <;> rfl
  obtain ⟨g, o1, o2, y, -, -, h3, h4, -, -, h7, h8, h9, h10, h11, -, -, -, -, h12, -⟩ :=
    optimize_last (nlSession_inv hs).1 hr hu ht ho hx
  rw [htp] at h8 h11
  obtain ⟨l1, l2, a1, a2, a3, a4⟩ := objective_route h3 (by tauto) h8 h7
  rw [h12 hne, a4]
  exact ⟨h11, h10, optimal_of_route hl a1 (a2.trans h4) a3⟩

/-- **C68**, times and derivatives, again for the last point: the trajectory left by an optimisation has the durations and, at every
vertex, the free derivatives of the point at which the objective function was evaluated last. -/
theorem C68_last_point_derivatives_partial {lib : NlLib h ℝ} (hl : LibSpec lib) {vertices : List (Vertex ℝ)} {k : ℕ}
    {b : Prop} {o o' : NlOpt h ℝ} {run : NlRun ℝ} {c : ℤ} {gradients : Bool}
    (hs : NlSession lib vertices k b o) (hr : RunOf lib gradients o run)
    (ho : o.optimize lib run = .ok (c, o')) (hm : withDerivatives o.params.method)
    (ht : run.setupThrows = false) {x : List ℝ} (hx : (points run.queries).getLast? = some x) :
    o'.lin.segmentTimes = x.take (vertices.length - 1) ∧
    x.length = vertices.length - 1 + o.lin.dimension * (freeOrder h vertices).length ∧
    ∀ (e i m d : ℕ) (y : ℝ), (freeOrder h vertices)[e]? = some (i, m) → d < o.lin.dimension →
      x[vertices.length - 1 + d * (freeOrder h vertices).length + e]? = some y →
      AtVertex o'.lin.segments i d m y := by
  have hu : o.params.method ≠ .unknown := by rcases hm with hm | hm <;> rw [hm] <;> simp
  have hne : o.params.method ≠ .mellingerOuterLoop := by rcases hm with hm | hm <;> rw [hm] <;> simp
  have htp : timesOf o.params.method (vertices.length - 1) x = x.take (vertices.length - 1) := by
    rcases hm with hm | hm <;> rw [hm] <;> rfl
  obtain ⟨g, o1, o2, y, -, -, h3, h4, -, -, h7, h8, h9, h10, h11, -, -, -, -, h12, -⟩ :=
    optimize_last (nlSession_inv hs).1 hr hu ht ho hx
  rw [htp] at h8 h11
  have hfull : o1.objectiveFull lib x g = .ok (y, o2) := by
    unfold NlOpt.objective at h7
    rcases hm with hm | hm <;> rw [hm] at h7 <;> exact h7
  have hn := nSegments_eq h3
  have hfree := objectiveFull_free h3 (by rw [hn]; exact h8) hfull
  have hnF := session_nFree_order h3
  rw [hn, hnF, h4] at hfree
  rw [h12 hne]
  refine ⟨h11, ?_, fun e i m d y he hd hy => ?_⟩
  · have := (objective_checks h7).2
    rw [this, hn, hnF, h4]
    rcases hm with hm | hm <;> rw [hm] <;> exact congrArg _ (Nat.mul_comm _ _)
  · have hec := (List.getElem?_eq_some_iff.mp he).1
    obtain ⟨f, b1, b2⟩ := unpack_get (x := x) (nSeg := vertices.length - 1) hec hd
    rw [← hfree] at b1
    exact h9.free_value hl.inv he (by rw [h10]; exact hd) b1 (b2.trans hy)

/-- **C68**, Mellinger: the durations left are those of the last point, all multiplied by the same number
`f ≥ 1`, and the cost is the smallest possible with them. -/
theorem C68_last_point_mellinger_partial {lib : NlLib h ℝ} (hl : LibSpec lib) {vertices : List (Vertex ℝ)} {k : ℕ}
    {b : Prop} {o o' : NlOpt h ℝ} {run : NlRun ℝ} {c : ℤ} {gradients : Bool}
    (hs : NlSession lib vertices k b o) (hr : RunOf lib gradients o run)
    (ho : o.optimize lib run = .ok (c, o')) (hm : o.params.method = .mellingerOuterLoop)
    (ht : run.setupThrows = false) {x : List ℝ} (hx : (points run.queries).getLast? = some x) :
    ∃ f, 1 ≤ f ∧ o'.lin.segmentTimes = x.map (· * f) ∧
      Optimal h k o.lin.dimension vertices o'.lin.segmentTimes o'.lin.segments := by
  have hu : o.params.method ≠ .unknown := by rw [hm]; simp
  have htp : timesOf o.params.method (vertices.length - 1) x = x := by rw [hm]; rfl
  obtain ⟨g, o1, o2, y, -, -, h3, h4, -, -, h7, h8, h9, h10, h11, -, -, -, -, -, h12⟩ :=
    optimize_last (nlSession_inv hs).1 hr hu ht ho hx
  rw [htp] at h8 h11
  rcases h12 hm with ⟨-, -, h12⟩ | ⟨o3, o4, e1, -, e2, e3⟩
  · obtain ⟨l1, l2, a1, a2, a3, a4⟩ := objective_route h3 (by tauto) h8 h7
    refine ⟨1, le_rfl, by rw [h12, h11]; simp, ?_⟩
    rw [h12, a4, h11]
    exact optimal_of_route hl a1 (a2.trans h4) a3
  · obtain ⟨f, l1, l2, hf, a1, a2, a3, a4, a5⟩ := scale_route (by rw [e1]; exact h9) e2
    have hd3 : l1.dimension = o.lin.dimension := by rw [a2, e1]; exact h10
    refine ⟨f, hf, by rw [e3, a4, a5, e1, h11], ?_⟩
    rw [e3, a4, a5]
    exact optimal_of_route hl a1 hd3 a3

/-- Runs meeting the hypotheses of the three theorems above. -/
example (m : TimeAlloc) (hm : m ≠ .unknown) : ∃ (o o' : NlOpt 2 ℝ) (run : NlRun ℝ) (c : ℤ) (x : List ℝ),
    LibSpec (exLib 2) ∧ o.params.method = m ∧ NlSession (exLib 2) exVertices2 1 True o ∧
      RunOf (exLib 2) (decide (o.params.method = .mellingerOuterLoop)) o run ∧
      o.optimize (exLib 2) run = .ok (c, o') ∧ run.setupThrows = false ∧
      (points run.queries).getLast? = some x :=
  let ⟨o, o', run, c, x, h1, h2, _, h4, h5, h6, h7⟩ := exOptimize ⟨1 / 10, 1, true, 1, m⟩ rfl hm
  ⟨o, o', run, c, x, exLib_spec, by rw [h2], h1, h4, h7, h5, by rw [h6]; rfl⟩

/-- Libraries for computing in ℚ. -/
def lib1 : NlLib 1 ℚ := ⟨fun _ => (false, []), id, id, inv1, solve1⟩

/-- Two vertices at rest at the origin. -/
def restVertices : List (Vertex ℚ) := [⟨1, [(0, [0])]⟩, ⟨1, [(0, [0])]⟩]

theorem restProblem : Problem 1 1 restVertices [1] where
  count := rfl
  two := by simp [restVertices]
  times_pos := by
    intro T hT
    simp only [List.mem_cons, List.not_mem_nil, or_false] at hT
    rw [hT]
    norm_num
  wf := by
    intro v hv
    simp only [restVertices, List.mem_cons, List.not_mem_nil, or_false] at hv
    rcases hv with rfl | rfl <;> exact ⟨⟨by simp, by simp⟩, rfl⟩
  dim_pos := by norm_num
  small := by norm_num

/-- **C68**, refuted: the trajectory left need not be the best that was evaluated. NLopt evaluates the
time 1, with the value 1, and then the time 2, with the value 4; the segment is left with the time 2. -/
theorem C68_best_false : ∃ (o o1 o' : NlOpt 1 ℚ) (run : NlRun ℚ) (c : ℤ),
    NlSession lib1 restVertices 0 True o ∧ RunOf lib1 false o run ∧ o.optimize lib1 run = .ok (c, o') ∧
    points run.queries = [[1], [2]] ∧
    NlOpt.objective lib1 o.params.method o [1] false = .ok (1, o1) ∧
    o'.lin.segmentTimes = [2] ∧
    o'.info.costTrajectory + o'.info.costTime + o'.info.costSoft = 4 := by
  have key : (do
      let o ← (NlOpt.new 1 ⟨1 / 10, 1, false, 1, .squaredTime⟩ : NlOpt 1 ℚ).setupFromVertices lib1
        restVertices [1] 0
      let o ← o.solveLinear lib1
      let r ← o.optimize lib1 ⟨false, [.objective [1] false, .objective [2] false], some 1, true⟩
      let q ← NlOpt.objective lib1 o.params.method o [1] false
      pure (q.1, r.2.lin.segmentTimes, r.2.info.costTrajectory + r.2.info.costTime + r.2.info.costSoft,
        o.params.method, o.handle)) = .ok (1, [2], 4, .squaredTime, some ⟨1, []⟩) := by decide +kernel
  rw [Res.bind_eq_ok] at key
  obtain ⟨o0, h0, key⟩ := key
  rw [Res.bind_eq_ok] at key
  obtain ⟨o, h1, key⟩ := key
  rw [Res.bind_eq_ok] at key
  obtain ⟨⟨c, o'⟩, h2, key⟩ := key
  rw [Res.bind_eq_ok] at key
  obtain ⟨⟨y, o1⟩, h3, key⟩ := key
  simp only [Res.pure_eq, Res.ok.injEq, Prod.mk.injEq] at key
  obtain ⟨k1, k2, k3, k4, k5⟩ := key
  have hs : NlSession lib1 restVertices 0 True o :=
    .solveLinear (.setup (k := 0) (.new 1 _) restProblem h0) h1
  refine ⟨o, o1, o', _, c, hs, ?_, h2, rfl, by rw [h3, k1], k2, k3⟩
  intro _ p a hd hp _
  rcases prepare_cases hp with ⟨hd', hh', hm, rfl, rfl⟩ | ⟨hd', hh', hm, rfl, rfl⟩ |
    ⟨hd', l, hh', hm, hl, rfl, ha⟩
  · have hd1 : hd' = ⟨1, []⟩ := by
      have := k5.symm.trans hh'
      rw [Option.some.injEq] at this
      exact this.symm
    refine ⟨?_, by simp, fun _ => ⟨[1], false, by simp⟩⟩
    intro x g hx
    simp only [List.mem_cons, NlQuery.objective.injEq, List.not_mem_nil, or_false] at hx
    have h10 : (10 : ℚ) < dblMax := by decide +kernel
    rw [hd1]
    unfold NlOpt.timeArgs Within
    rcases hx with ⟨rfl, rfl⟩ | ⟨rfl, rfl⟩ <;>
      exact ⟨⟨.cons (by norm_num) .nil, .cons (by linarith) .nil⟩, rfl⟩
  · exact absurd (k4.symm.trans hm) (by decide)
  · rcases hm with (hm | hm) | hm <;> exact absurd (k4.symm.trans hm) (by decide)

end
end Verif
