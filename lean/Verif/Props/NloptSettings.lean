import Verif.Proofs.NloptSettings
import Verif.Props.NonlinearLimits

/-! C140 (same seed, same results) and C141 (what is handed over to NLopt). -/

namespace Verif

open Spec

variable {K : Type} [Field K] [LinearOrder K] [IsStrictOrderedRing K] {h : ℕ} {S : Type}

/-- **C140** (the full statement, without the condition on other optimisers, is false: `C140_interleaved_false`).
An optimiser is made with given parameters, with a seed that is not negative, set up with given arguments and then
used by a given sequence of calls (set-ups, linear solutions, limits, optimisations, and again constructors with fixed
seeds). Whatever the program did before, in which state the generator of random numbers of NLopt was, at what times of
day the calls were made, and whatever calls on other optimisers were made in between, except for set-ups and
optimisations of others after the first set-up: all answers are the same, and the optimiser is the same afterwards, with
its solution and its statistics. -/
theorem C140_reproducible_partial {X : NloptLib S h K} {lib : NlLib h K} {id dim : ℕ} {params : NlParams K}
    {search : NlSearch K} {vertices : List (Vertex K)} {times : List K} {k : ℤ}
    {w v w' v' : NlProgram S h K} {c d : ℕ} {pre mid post pre' mid' post' : List (ProgCall K)}
    {tr tr' : List (ℕ × ProgAnswer)}
    (hr : w.run X lib (pre ++ (.new id dim params search :: (mid ++ (.setup id vertices times k c :: post)))) =
      .ok (w', tr))
    (hr' : v.run X lib (pre' ++ (.new id dim params search :: (mid' ++ (.setup id vertices times k d :: post')))) =
      .ok (v', tr'))
    (hseed : 0 ≤ search.randomSeed)
    (hmid : ∀ e ∈ mid, e.id ≠ id) (hmid' : ∀ e ∈ mid', e.id ≠ id)
    (hpost : Undisturbed id post) (hpost' : Undisturbed id post')
    (hfix : ∀ e ∈ post, e.id = id → FixedSeed e) (hfix' : ∀ e ∈ post', e.id = id → FixedSeed e)
    (hsame : (callsOn id post).map withoutClock = (callsOn id post').map withoutClock) :
    answersOf id (tr.drop pre.length) = answersOf id (tr'.drop pre'.length) ∧ w'.objs id = v'.objs id := by
  obtain ⟨w1, tr1, tr2, -, h2, rfl, h4⟩ := nlrun_append hr
  obtain ⟨v1, tr1', tr2', -, h2', rfl, h4'⟩ := nlrun_append hr'
  rw [← h4, ← h4', List.drop_left, List.drop_left]
  obtain ⟨w2, x, tr3, h5, h6, rfl⟩ := nlrun_cons h2
  obtain ⟨v2, x', tr3', h5', h6', rfl⟩ := nlrun_cons h2'
  rw [NlProgram.step, Res.pure_eq, Res.ok.injEq, Prod.mk.injEq] at h5 h5'
  obtain ⟨w3, tr4, tr5, h7, h8, rfl, -⟩ := nlrun_append h6
  obtain ⟨v3, tr4', tr5', h7', h8', rfl, -⟩ := nlrun_append h6'
  obtain ⟨a1, a2⟩ := run_untouched h7 hmid
  obtain ⟨a1', a2'⟩ := run_untouched h7' hmid'
  have b1 : w3.objs id = some (NlFull.new dim params search) := by
    rw [a1, ← h5.1]
    exact prog_put _ _ _ _
  have b2 : v3.objs id = some (NlFull.new dim params search) := by
    rw [a1', ← h5'.1]
    exact prog_put _ _ _ _
  have hf : SeedFixed id w3 := by
    intro f hf
    rw [b1, Option.some.injEq] at hf
    rw [← hf]
    exact hseed
  obtain ⟨w4, y, tr6, h9, h10, rfl⟩ := nlrun_cons h8
  obtain ⟨v4, y', tr6', h9', h10', rfl⟩ := nlrun_cons h8'
  obtain ⟨hag, rfl⟩ := setup_agree h9 h9' (b1.trans b2.symm) hf
  have hf4 : SeedFixed id w4 := step_seed (e := .setup id vertices times k c) h9 trivial hf
  have hf4' : SeedFixed id v4 := by
    intro f hv
    exact hf4 f (by rw [hag.1]; exact hv)
  obtain ⟨u, h11, h12⟩ := run_own h10 hpost hfix ⟨rfl, rfl⟩ hf4
  obtain ⟨u', h11', h12'⟩ := run_own h10' hpost' hfix' ⟨rfl, rfl⟩ hf4'
  obtain ⟨u'', h13, h14⟩ := run_clock h11 (fun e he => by simpa [callsOn] using (List.mem_filter.mp he).2)
    (fun e he => hfix e (List.mem_filter.mp he).1 (by simpa using (List.mem_filter.mp he).2)) hag hf4 hsame
  rw [h13, Res.ok.injEq, Prod.mk.injEq] at h11'
  obtain ⟨rfl, h15⟩ := h11'
  refine ⟨?_, h12.1.trans (h14.1.trans h12'.1.symm)⟩
  have e1 : ∀ (z : ℕ × ProgAnswer) (l : List (ℕ × ProgAnswer)), answersOf id (z :: l) = answersOf id [z] ++ answersOf id l :=
    fun z l => by rw [answersOf, answersOf, answersOf, ← List.filter_append]; rfl
  have e2 : ∀ l l' : List (ℕ × ProgAnswer), answersOf id (l ++ l') = answersOf id l ++ answersOf id l' :=
    fun l l' => List.filter_append _ _
  rw [← h5.2, ← h5'.2, e1, e1 _ (tr4' ++ _), e2, e2, a2, a2', e1 _ tr6, e1 _ tr6', h15]
  rfl

/-- **C140.** The seed is set by every set-up: from the parameter, or from the clock if that is negative. Nothing else
sets it, and only an optimisation uses it. -/
theorem C140_seed {X : NloptLib S h K} {lib : NlLib h K} {w w' : NlProgram S h K} {e : ProgCall K} {x : ProgAnswer}
    (hs : w.step X lib e = .ok (w', x)) :
    (∀ id vertices times k c f, e = .setup id vertices times k c → w.objs id = some f →
      (0 ≤ f.search.randomSeed → w'.gen = X.seed f.search.randomSeed.toNat) ∧
      (f.search.randomSeed < 0 → w'.gen = X.seedTime c)) ∧
    ((∀ id vertices times k c, e ≠ .setup id vertices times k c) → (∀ id, e ≠ .optimize id) → w'.gen = w.gen) := by
  constructor
  · rintro id vertices times k c f rfl hf
    rw [NlProgram.step, Res.bind_eq_ok] at hs
    obtain ⟨f', h1, hs⟩ := hs
    rw [prog_get, hf, Option.some.injEq] at h1
    subst h1
    rw [Res.bind_eq_ok] at hs
    obtain ⟨r, h2, hs⟩ := hs
    rw [Res.pure_eq, Res.ok.injEq, Prod.mk.injEq] at hs
    obtain ⟨rfl, -⟩ := hs
    unfold NlFull.setup at h2
    rw [Res.bind_eq_ok] at h2
    obtain ⟨o, h3, h2⟩ := h2
    rw [Res.pure_eq, Res.ok.injEq] at h2
    rw [← h2]
    exact ⟨fun h0 => if_neg (not_lt.mpr h0), fun h0 => if_pos h0⟩
  · intro h1 h2
    refine (prog_step_other hs).2 ?_
    cases e with
    | setup id vertices times k c => exact h1 id vertices times k c rfl
    | optimize id => exact h2 id rfl
    | _ => trivial

/-- **C141.** After any sequence of calls, each optimiser has the parameters it was last made with, and its NLopt object
has the algorithm, the stopping criteria and the limit on evaluations from these parameters, and for each limit handed
over as an inequality constraint the tolerance from the parameters. -/
theorem C141_settings {X : NloptLib S h K} {lib : NlLib h K} {es : List (ProgCall K)} {g : S} {w : NlProgram S h K}
    {tr : List (ℕ × ProgAnswer)} (hr : NlProgram.run X lib ⟨fun _ => none, g⟩ es = .ok (w, tr)) {id : ℕ} {f : NlFull h K}
    (hf : w.objs id = some f) :
    madeWith id es = some (f.opt.params, f.search) ∧
    (f.nlopt = none ↔ f.opt.handle = none) ∧
    ∀ s hd, f.nlopt = some s → f.opt.handle = some hd →
      s.algorithm = f.search.algorithm ∧ s.ftolAbs = f.search.fAbs ∧ s.ftolRel = f.search.fRel ∧
      s.xtolAbs = f.search.xAbs ∧ s.xtolRel = f.search.xRel ∧ s.maxeval = f.search.maxIterations ∧ s.n = hd.n ∧
      s.tolerances.length = hd.hard.length ∧ ∀ t ∈ s.tolerances, t = f.search.inequalityTolerance := by
  obtain ⟨h1, h2⟩ := run_settings hr (fun id f hf => by cases hf)
  have h1 := h1 id f hf
  have h2 := h2 id
  rw [hf] at h2
  refine ⟨h2.symm, ?_, ?_⟩
  · rw [h1]
    unfold settingsOf
    rw [Option.map_eq_none_iff]
  · intro s hd hs hh
    rw [h1] at hs
    unfold settingsOf at hs
    rw [hh, Option.map_some, Option.some.injEq] at hs
    subst hs
    exact ⟨rfl, rfl, rfl, rfl, rfl, rfl, rfl, by simp, fun t ht => (List.mem_replicate.mp ht).2⟩

/-- **C141.** Each set-up makes a new NLopt object, for one variable per segment, and one more for each free derivative in
each dimension with the methods that optimise these as well; it has no inequality constraints. -/
theorem C141_setup {X : NloptLib S h K} {lib : NlLib h K} {w w' : NlProgram S h K} {id : ℕ}
    {vertices : List (Vertex K)} {times : List K} {k : ℤ} {c : ℕ} {x : ProgAnswer}
    (hs : w.step X lib (.setup id vertices times k c) = .ok (w', x)) :
    ∃ f s, w'.objs id = some f ∧ f.nlopt = some s ∧ s.tolerances = [] ∧
      s.n = (match f.opt.params.method with
        | .squaredTime | .richterTime | .mellingerOuterLoop => times.length
        | _ => times.length + f.opt.lin.nFree * f.opt.lin.dimension) := by
  rw [NlProgram.step, Res.bind_eq_ok] at hs
  obtain ⟨f, h1, hs⟩ := hs
  rw [Res.bind_eq_ok] at hs
  obtain ⟨r, h2, hs⟩ := hs
  rw [Res.pure_eq, Res.ok.injEq, Prod.mk.injEq] at hs
  obtain ⟨rfl, -⟩ := hs
  unfold NlFull.setup at h2
  rw [Res.bind_eq_ok] at h2
  obtain ⟨o, h3, h2⟩ := h2
  rw [Res.pure_eq, Res.ok.injEq] at h2
  unfold NlOpt.setupFromVertices at h3
  rw [Res.bind_eq_ok] at h3
  obtain ⟨l, -, h3⟩ := h3
  rw [Res.pure_eq, Res.ok.injEq] at h3
  refine ⟨r.1, _, prog_put _ _ _ _, by rw [← h2, ← h3]; rfl, rfl, ?_⟩
  rw [← h2, ← h3]
  dsimp only
  cases f.opt.params.method <;> rfl

/-- **C141.** If NLopt keeps to its limit on evaluations, the statistics never report more iterations than allowed by
`max_iterations`. -/
theorem C141_iterations {X : NloptLib S h K} {lib : NlLib h K} (hX : RespectsMaxeval X) {es : List (ProgCall K)} {g : S}
    {w : NlProgram S h K} {tr : List (ℕ × ProgAnswer)} {id : ℕ} {params : NlParams K} {search : NlSearch K}
    (hr : NlProgram.run X lib ⟨fun _ => none, g⟩ (es ++ [.optimize id]) = .ok (w, tr))
    (hm : madeWith id es = some (params, search)) (hpos : 0 < search.maxIterations) :
    ∃ f, w.objs id = some f ∧ (f.opt.info.nIterations : ℤ) ≤ search.maxIterations := by
  obtain ⟨v, tr1, tr2, h1, h2, -, -⟩ := nlrun_append hr
  obtain ⟨v', x, tr', h3, h4, -⟩ := nlrun_cons h2
  rw [NlProgram.run, Res.ok.injEq, Prod.mk.injEq] at h4
  obtain ⟨rfl, -⟩ := h4
  rw [NlProgram.step, Res.bind_eq_ok] at h3
  obtain ⟨f, h5, h3⟩ := h3
  rw [Res.bind_eq_ok] at h3
  obtain ⟨r, h6, h3⟩ := h3
  rw [Res.pure_eq, Res.ok.injEq, Prod.mk.injEq] at h3
  obtain ⟨rfl, -⟩ := h3
  rw [prog_get] at h5
  obtain ⟨b1, b2, b3⟩ := C141_settings h1 h5
  rw [hm, Option.some.injEq, Prod.mk.injEq] at b1
  obtain ⟨-, rfl⟩ := b1
  refine ⟨r.1.2, prog_put _ _ _ _, ?_⟩
  unfold NlFull.optimize at h6
  rw [Res.bind_eq_ok] at h6
  obtain ⟨o, h7, h6⟩ := h6
  rw [Res.pure_eq, Res.ok.injEq] at h6
  rw [← h6]
  have hcount := optimize_reported (c := o.1) (o' := o.2) h7
  dsimp only
  by_cases hu : f.opt.params.method = .unknown
  · rw [if_pos hu] at hcount
    have : o.2.info.nIterations = 0 := Nat.le_zero.mp hcount
    rw [this]
    exact hpos.le
  · rw [if_neg hu] at hcount
    cases hn : f.nlopt with
    | none =>
      rw [hn] at hcount
      have : o.2.info.nIterations = 0 := Nat.le_zero.mp hcount
      rw [this]
      exact hpos.le
    | some s =>
      rw [hn] at hcount
      obtain ⟨hd, hh⟩ : ∃ hd, f.opt.handle = some hd := by
        cases hx : f.opt.handle with
        | none => rw [b2.mpr hx] at hn; cases hn
        | some hd => exact ⟨hd, rfl⟩
      have hmax := (b3 s hd hn hh).2.2.2.2.2.1
      have := hX v.gen s f.opt (by rw [hmax]; exact hpos)
      rw [hmax] at this
      exact le_trans (by exact_mod_cast hcount) this

/-! #### A library whose only random decision is the code it returns -/

/-- NLopt reduced to its generator: the code is the state of the generator. -/
def exNlopt : NloptLib ℕ 2 ℝ where
  seed n := n
  seedTime n := n
  accepts _ := true
  run g _ _ := (⟨false, [], some (g : ℤ), true⟩, g + 1)

/-- Parameters with a given seed. -/
noncomputable def exSearch (seed : ℤ) : NlSearch ℝ := ⟨-1, 1 / 20, -1, -1, 1 / 10, 3000, 34, seed⟩

/-- The method that optimises the times. -/
noncomputable def exTimesOnly : NlParams ℝ := ⟨1 / 10, 500, true, 100, .squaredTime⟩

/-- An optimiser that is set up. -/
def IsSetUpNl (f : NlFull 2 ℝ) : Prop :=
  f.opt.params = exTimesOnly ∧ (∃ hd, f.opt.handle = some hd) ∧ ∃ s, f.nlopt = some s

theorem exSetupStep {w : NlProgram ℕ 2 ℝ} {id : ℕ} {search : NlSearch ℝ}
    (hw : w.objs id = some (NlFull.new 1 exTimesOnly search)) (c : ℕ) :
    ∃ f, IsSetUpNl f ∧ f.search = search ∧ w.step exNlopt (exLib 2) (.setup id (exMove 0 0 1 0) [1] 1 c) =
      .ok (w.put id f (if search.randomSeed < 0 then c else search.randomSeed.toNat), .done) := by
  obtain ⟨o, h1, -, h3, -, -, -, -⟩ := nl_new (lib := exLib 2) (exMove_problem 0 0 1 0 (T := 1) (by norm_num)) (k := 1)
    (by norm_num) exTimesOnly
  obtain ⟨hd, hh⟩ : ∃ hd, o.handle = some hd := by
    have h1' := h1
    unfold NlOpt.setupFromVertices at h1'
    rw [Res.bind_eq_ok] at h1'
    obtain ⟨l, -, h1'⟩ := h1'
    rw [Res.pure_eq, Res.ok.injEq] at h1'
    rw [← h1']
    exact ⟨_, rfl⟩
  refine ⟨⟨o, search, some ⟨search.algorithm, hd.n, search.fRel, search.fAbs, search.xRel, search.xAbs,
    search.maxIterations, []⟩⟩, ⟨h3, ⟨hd, hh⟩, _, rfl⟩, rfl, ?_⟩
  · rw [NlProgram.step, prog_get.mpr hw, Res.ok_bind]
    unfold NlFull.setup NlFull.new
    dsimp only
    rw [show ((1 : ℤ)) = ((1 : ℕ) : ℤ) from rfl, h1, Res.ok_bind, Res.pure_eq, Res.ok_bind, hh]
    rfl

theorem exOptimizeStep {w : NlProgram ℕ 2 ℝ} {id : ℕ} {f : NlFull 2 ℝ} (hw : w.objs id = some f) (hf : IsSetUpNl f) :
    ∃ f', IsSetUpNl f' ∧ f'.search = f.search ∧
      w.step exNlopt (exLib 2) (.optimize id) = .ok (w.put id f' (w.gen + 1), .code w.gen) := by
  obtain ⟨h1, ⟨hd, h2⟩, s, h3⟩ := hf
  have hm : f.opt.params.method = .squaredTime := by rw [h1]; rfl
  have hopt : f.opt.optimize (exLib 2) ⟨false, [], some (w.gen : ℤ), true⟩ =
      .ok ((w.gen : ℤ), { f.opt with info := { NlInfo.default with stoppingReason := (w.gen : ℤ) } }) := by
    unfold NlOpt.optimize NlOpt.optimizeWith NlOpt.prepare
    simp [hm, h2, NlOpt.answers, Res.ok_bind, Res.pure_eq]
  refine ⟨{ f with opt := { f.opt with info := { NlInfo.default with stoppingReason := (w.gen : ℤ) } } },
    ⟨h1, ⟨hd, h2⟩, s, h3⟩, rfl, ?_⟩
  rw [NlProgram.step, prog_get.mpr hw, Res.ok_bind]
  unfold NlFull.optimize
  rw [if_neg (by rw [hm]; decide), h3]
  dsimp only [exNlopt]
  rw [hopt, Res.ok_bind, Res.pure_eq, Res.ok_bind, Res.pure_eq]

/-- A constructor, a set-up and an optimisation of one optimiser. -/
theorem exOneOptimizer (w : NlProgram ℕ 2 ℝ) (seed : ℤ) (c : ℕ) :
    ∃ w', w.run exNlopt (exLib 2) [.new 0 1 exTimesOnly (exSearch seed), .setup 0 (exMove 0 0 1 0) [1] 1 c, .optimize 0] =
      .ok (w', [(0, .done), (0, .done), (0, .code (if seed < 0 then c else seed.toNat : ℕ))]) := by
  obtain ⟨f, h1, -, h3⟩ := exSetupStep (w := w.put 0 (NlFull.new 1 exTimesOnly (exSearch seed)) w.gen) (prog_put _ _ _ _) c
  obtain ⟨f', h4, -, h5⟩ := exOptimizeStep (prog_put (w.put 0 (NlFull.new 1 exTimesOnly (exSearch seed)) w.gen) 0 f
    (if (exSearch seed).randomSeed < 0 then c else (exSearch seed).randomSeed.toNat)) h1
  exact ⟨_, nlrun_cons_of rfl (nlrun_cons_of h3 (nlrun_cons_of h5 rfl))⟩

/-- The same with the set-up of another optimiser, that has another seed, in between. -/
theorem exInterleaved (w : NlProgram ℕ 2 ℝ) (c : ℕ) :
    ∃ w', w.run exNlopt (exLib 2) [.new 0 1 exTimesOnly (exSearch 3), .new 1 1 exTimesOnly (exSearch 7),
        .setup 0 (exMove 0 0 1 0) [1] 1 c, .setup 1 (exMove 0 0 1 0) [1] 1 c, .optimize 0] =
      .ok (w', [(0, .done), (1, .done), (0, .done), (1, .done), (0, .code 7)]) := by
  set w2 := (w.put 0 (NlFull.new 1 exTimesOnly (exSearch 3)) w.gen).put 1 (NlFull.new 1 exTimesOnly (exSearch 7)) w.gen with hw2
  have e0 : w2.objs 0 = some (NlFull.new 1 exTimesOnly (exSearch 3)) := by
    simp [hw2, NlProgram.put]
  obtain ⟨f, h1, -, h3⟩ := exSetupStep e0 c
  set w3 := w2.put 0 f (if (exSearch 3).randomSeed < 0 then c else (exSearch 3).randomSeed.toNat) with hw3
  have e1 : w3.objs 1 = some (NlFull.new 1 exTimesOnly (exSearch 7)) := by
    simp [hw3, hw2, NlProgram.put]
  obtain ⟨f', -, -, h6⟩ := exSetupStep e1 c
  set w4 := w3.put 1 f' (if (exSearch 7).randomSeed < 0 then c else (exSearch 7).randomSeed.toNat) with hw4
  have e2 : w4.objs 0 = some f := by
    simp [hw4, hw3, NlProgram.put]
  obtain ⟨f'', -, -, h9⟩ := exOptimizeStep e2 h1
  have e3 : w4.gen = 7 := by simp [hw4, NlProgram.put, exSearch]
  rw [e3] at h9
  exact ⟨_, nlrun_cons_of rfl (nlrun_cons_of rfl (nlrun_cons_of h3 (nlrun_cons_of h6 (nlrun_cons_of h9 rfl))))⟩

/-- **C140** is false when another optimiser is set up between the set-up and the optimisation, although both have fixed
seeds: the generator of NLopt is shared. -/
theorem C140_interleaved_false : ∃ (X : NloptLib ℕ 2 ℝ) (w w' v' : NlProgram ℕ 2 ℝ) (es es' : List (ProgCall ℝ))
    (tr tr' : List (ℕ × ProgAnswer)), (∀ e ∈ es, FixedSeed e) ∧ (∀ e ∈ es', FixedSeed e) ∧
      callsOn 0 es = es ∧ callsOn 0 es' = es ∧ w.run X (exLib 2) es = .ok (w', tr) ∧
      w.run X (exLib 2) es' = .ok (v', tr') ∧ answersOf 0 tr ≠ answersOf 0 tr' := by
  obtain ⟨w', h1⟩ := exOneOptimizer ⟨fun _ => none, 0⟩ 3 0
  obtain ⟨v', h2⟩ := exInterleaved ⟨fun _ => none, 0⟩ 0
  refine ⟨exNlopt, _, w', v', _, _, _, _, ?_, ?_, ?_, ?_, h1, h2, ?_⟩
  · simp [FixedSeed, exSearch]
  · simp [FixedSeed, exSearch]
  · simp [callsOn, ProgCall.id]
  · simp [callsOn, ProgCall.id]
  · decide

/-- **C140.** With a negative seed the result can depend on the time of day, as documented. -/
theorem C140_clock : ∃ (X : NloptLib ℕ 2 ℝ) (w w' v' : NlProgram ℕ 2 ℝ) (es es' : List (ProgCall ℝ))
    (tr tr' : List (ℕ × ProgAnswer)), es.map withoutClock = es'.map withoutClock ∧
      w.run X (exLib 2) es = .ok (w', tr) ∧ w.run X (exLib 2) es' = .ok (v', tr') ∧
      answersOf 0 tr ≠ answersOf 0 tr' := by
  obtain ⟨w', h1⟩ := exOneOptimizer ⟨fun _ => none, 0⟩ (-1) 5
  obtain ⟨v', h2⟩ := exOneOptimizer ⟨fun _ => none, 0⟩ (-1) 6
  refine ⟨exNlopt, _, w', v', _, _, _, _, ?_, h1, h2, by decide⟩
  rfl

/-- The hypotheses of `C140_reproducible_partial` are met: another state of the generator, another time of day, another
optimiser made in between. -/
example : ∃ (w v w' v' : NlProgram ℕ 2 ℝ) (tr tr' : List (ℕ × ProgAnswer)), w.gen ≠ v.gen ∧
    w.run exNlopt (exLib 2) ([] ++ (.new 0 1 exTimesOnly (exSearch 3) :: ([] ++
      (.setup 0 (exMove 0 0 1 0) [1] 1 5 :: [.optimize 0])))) = .ok (w', tr) ∧
    v.run exNlopt (exLib 2) ([] ++ (.new 0 1 exTimesOnly (exSearch 3) :: ([.new 1 1 exTimesOnly (exSearch 7)] ++
      (.setup 0 (exMove 0 0 1 0) [1] 1 6 :: [.new 2 1 exTimesOnly (exSearch 8), .optimize 0])))) = .ok (v', tr') ∧
    Undisturbed 0 [ProgCall.new 2 1 exTimesOnly (exSearch 8), .optimize 0] := by
  obtain ⟨w', h1⟩ := exOneOptimizer ⟨fun _ => none, 0⟩ 3 5
  set v : NlProgram ℕ 2 ℝ := ⟨fun _ => none, 1⟩
  set w2 := (v.put 0 (NlFull.new 1 exTimesOnly (exSearch 3)) v.gen).put 1 (NlFull.new 1 exTimesOnly (exSearch 7)) v.gen with hw2
  have e0 : w2.objs 0 = some (NlFull.new 1 exTimesOnly (exSearch 3)) := by
    simp [hw2, NlProgram.put]
  obtain ⟨f, h2, -, h3⟩ := exSetupStep e0 6
  set w3 := w2.put 0 f (if (exSearch 3).randomSeed < 0 then 6 else (exSearch 3).randomSeed.toNat) with hw3
  set w4 := w3.put 2 (NlFull.new 1 exTimesOnly (exSearch 8)) w3.gen with hw4
  have e2 : w4.objs 0 = some f := by
    simp [hw4, hw3, NlProgram.put]
  obtain ⟨f'', -, -, h9⟩ := exOptimizeStep e2 h2
  refine ⟨⟨fun _ => none, 0⟩, v, w', _, _, _, by decide, h1,
    nlrun_cons_of rfl (nlrun_cons_of rfl (nlrun_cons_of h3 (nlrun_cons_of rfl (nlrun_cons_of h9 rfl)))), ?_⟩
  intro e he
  simp only [List.mem_cons, List.not_mem_nil, or_false] at he
  rcases he with rfl | rfl
  · exact .inr trivial
  · exact .inl rfl

/-- The hypotheses of `C140_seed`, `C141_settings`, `C141_setup` and `C141_iterations` are met. -/
example : ∃ (w' : NlProgram ℕ 2 ℝ) (tr : List (ℕ × ProgAnswer)), RespectsMaxeval exNlopt ∧
    NlProgram.run exNlopt (exLib 2) ⟨fun _ => none, 0⟩ ([.new 0 1 exTimesOnly (exSearch 3),
      .setup 0 (exMove 0 0 1 0) [1] 1 5] ++ [.optimize 0]) = .ok (w', tr) ∧
    madeWith 0 [ProgCall.new 0 1 exTimesOnly (exSearch 3), .setup 0 (exMove 0 0 1 0) [1] 1 5] =
      some (exTimesOnly, exSearch 3) ∧ 0 < (exSearch 3).maxIterations := by
  obtain ⟨w', h1⟩ := exOneOptimizer ⟨fun _ => none, 0⟩ 3 5
  exact ⟨w', _, fun g s o h0 => h0.le, h1, rfl, by simp [exSearch]⟩

/-- **C141** is false in one respect: the documentation of `initial_stepsize_rel` says "Heuristic value if negative", but
a negative value is handed over as negative steps. -/
theorem C141_heuristic_false : ∃ (o p : NlOpt 2 ℝ) (a : NlArgs ℝ), NlSession (exLib 2) exVertices2 1 True o ∧
    o.params.initialStepRel < 0 ∧ NlOpt.prepare (exLib 2) { o with info := NlInfo.default } = .ok (p, a) ∧
    ∃ st, a.step = some st ∧ st.length = a.start.length ∧ 0 < st.length ∧ ∀ s ∈ st, s < 0 := by
  obtain ⟨o, h1, h2, -, -, h5, -⟩ := exNl ⟨-1 / 10, 1, true, 1, .squaredTime⟩
  obtain ⟨hd, hh, hn⟩ := session_handle h1
  refine ⟨o, { o with info := NlInfo.default }, NlOpt.timeArgs { o with info := NlInfo.default } hd, h1,
    by rw [h2]; norm_num, ?_, _, rfl, by simp [NlOpt.timeArgs], by simp [h5], ?_⟩
  · unfold NlOpt.prepare
    simp [h2, hh, Res.pure_eq]
  · intro s hs
    simp only [h2, h5, List.map_cons, List.map_nil, List.mem_cons, List.not_mem_nil, or_false] at hs
    rcases hs with rfl | rfl <;> norm_num

end Verif
