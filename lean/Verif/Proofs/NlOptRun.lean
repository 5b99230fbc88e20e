import Verif.Proofs.NlOpt
import Verif.Proofs.Io
import Verif.Props.LinearOptimization

/- Helper lemmas: complete calls of the nonlinear optimiser. -/
namespace Verif

open Spec

set_option linter.unusedSectionVars false

variable {K : Type} [Field K] [LinearOrder K] [IsStrictOrderedRing K] {h : ℕ}

theorem LinSolved.result {lib : NlLib h K} (hinv : IsInverse lib.inv) {vertices : List (Vertex K)}
    {k : ℕ} {l : LinOpt h K} (hs : LinSolved lib vertices k l) :
    MeetsConstraints h l.dimension vertices l.segments ∧
    Shape (h + h) l.dimension l.segmentTimes l.segments ∧ Spec.Continuous h l.dimension l.segments ∧
    (∀ s ∈ l.segments, s.N = h + h) ∧
    l.Ready lib.inv (vertices.map (filt h l.dimension)) l.segmentTimes k := by
  obtain ⟨l0, h1, h2⟩ := hs
  obtain ⟨a1, a2, a3, a4, a5, a6⟩ := session_result hinv h1 h2
  rw [← a6] at a1 a2 a3 a5
  exact ⟨a1, a2, a3, a4, a5⟩

/-- The durations of the segments are the stored times. -/
theorem LinSolved.times {lib : NlLib h K} {vertices : List (Vertex K)}
    {k : ℕ} {l : LinOpt h K} (hs : LinSolved lib vertices k l) :
    l.segments.map (·.time) = l.segmentTimes := by
  obtain ⟨l0, h1, h2⟩ := hs
  obtain ⟨-, hp, r⟩ := session_ready h1
  rcases h2 with h2 | ⟨free, h2⟩
  · rw [(ready_solve r hp.dim_pos h2).2.2.2]
    exact (segmentsFor_shape _ _ _ _ _).durations
  · rw [(ready_setFree r hp.dim_pos h2).2.2.2.1]
    exact (segmentsFor_shape _ _ _ _ _).durations

/-! #### Bounds -/

theorem within_get {lower upper x : List K} (hw : Within lower upper x) {i : ℕ} {y : K}
    (hx : x[i]? = some y) : ∃ lo up, lower[i]? = some lo ∧ upper[i]? = some up ∧ lo ≤ y ∧ y ≤ up := by
  obtain ⟨h1, h2⟩ := hw
  have l1 := h1.length_eq
  have l2 := h2.length_eq
  obtain ⟨hi, rfl⟩ := List.getElem?_eq_some_iff.mp hx
  refine ⟨lower[i], upper[i], List.getElem?_eq_getElem _, List.getElem?_eq_getElem _, ?_, ?_⟩
  · exact h1.get (by omega) hi
  · exact h2.get hi (by omega)

/-- The lower bound, upper bound of variable `i` in an optimisation of times and derivatives. -/
theorem fullArgs_inv {o : NlOpt h K} {a : NlArgs K} (ho : o.fullArgs = .ok a) :
    ∃ fb : List K × List K, freeBounds o.lin.dimension o.lin.nFree o.lin.derivative o.lin.vertices
        o.constraints = .ok fb ∧
      a.start = o.lin.segmentTimes ++ o.lin.freeCompact.flatten ∧
      a.lower.length = a.start.length ∧ a.upper.length = a.start.length ∧
      a.start.length = o.lin.segmentTimes.length + fb.1.length ∧ fb.1.length = fb.2.length ∧
      ∀ (i : ℕ) (x : K), a.start[i]? = some x → ∃ lo up : K,
        (List.replicate o.lin.segmentTimes.length (1 / 10) ++ fb.1)[i]? = some lo ∧
        (List.replicate o.lin.segmentTimes.length dblMax ++ fb.2)[i]? = some up ∧
        a.lower[i]? = some (if x < lo then x else lo) ∧
        a.upper[i]? = some (if x < lo then up else if x > up then x else up) := by
  unfold NlOpt.fullArgs at ho
  dsimp only at ho
  rw [Res.bind_eq_ok] at ho
  obtain ⟨front, -, ho⟩ := ho
  rw [Res.bind_eq_ok] at ho
  obtain ⟨_, -, ho⟩ := ho
  rw [Res.bind_eq_ok] at ho
  obtain ⟨fb, hfb, ho⟩ := ho
  rw [Res.bind_eq_ok] at ho
  obtain ⟨adj, hadj, ho⟩ := ho
  rw [Res.bind_eq_ok] at ho
  obtain ⟨_, c1, ho⟩ := ho
  rw [Res.bind_eq_ok] at ho
  obtain ⟨_, c2, ho⟩ := ho
  rw [Res.bind_eq_ok] at ho
  obtain ⟨_, c3, ho⟩ := ho
  rw [Res.check_eq_ok] at c1 c2 c3
  rw [Res.pure_eq, Res.ok.injEq] at ho
  subst ho
  have hl := Res.mapM_length hadj
  rw [List.length_range] at hl
  simp only [List.length_append, List.length_replicate] at c1 c2
  refine ⟨fb, hfb, rfl, by simp [hl], by simp [hl], by simpa using c2, by omega, ?_⟩
  intro i x hx
  dsimp only at hx ⊢
  obtain ⟨hi, -⟩ := List.getElem?_eq_some_iff.mp hx
  have hf := Res.mapM_forall₂.mp hadj
  have := hf.get (i := i) (by rw [List.length_range]; exact hi) (by rw [hl]; exact hi)
  simp only [List.get_eq_getElem, List.getElem_range] at this
  rw [Res.bind_eq_ok] at this
  obtain ⟨x', hx', this⟩ := this
  rw [Res.bind_eq_ok] at this
  obtain ⟨lo, hlo, this⟩ := this
  rw [Res.bind_eq_ok] at this
  obtain ⟨up, hup, this⟩ := this
  rw [Res.at'_eq_ok] at hx' hlo hup
  rw [hx, Option.some.injEq] at hx'
  subst hx'
  rw [Res.pure_eq, Res.ok.injEq] at this
  have hgi : adj[i]? = some (adj[i]'(by rw [hl]; exact hi)) := List.getElem?_eq_getElem _
  refine ⟨lo, up, hlo, hup, ?_, ?_⟩
  · rw [List.getElem?_map, hgi, ← this]
    rfl
  · rw [List.getElem?_map, hgi, ← this]
    rfl

/-- Whether the free derivatives are variables, too. -/
def isFull (m : TimeAlloc) : Prop := m = .squaredTimeAndConstraints ∨ m = .richterTimeAndConstraints

/-- The arguments are those of one of the three functions. -/
theorem prepare_cases {lib : NlLib h K} {o p : NlOpt h K} {a : NlArgs K}
    (ho : o.prepare lib = .ok (p, a)) :
    (∃ hd, o.handle = some hd ∧ (o.params.method = .squaredTime ∨ o.params.method = .richterTime) ∧
      p = o ∧ a = o.timeArgs hd) ∨
    (∃ hd, o.handle = some hd ∧ o.params.method = .mellingerOuterLoop ∧ p = o ∧
      a = o.mellingerArgs hd) ∨
    (∃ hd l, o.handle = some hd ∧ (isFull o.params.method ∨ o.params.method = .unknown) ∧
      o.lin.solveLinear lib.solve = .ok l ∧ p = { o with lin := l } ∧ p.fullArgs = .ok a) := by
  have full : ∀ (_ : isFull o.params.method ∨ o.params.method = .unknown),
      (do let o1 ← o.solveLinear lib
          let a ← o1.fullArgs
          match o1.handle with
          | none => Res.ub
          | some _ => pure (o1, a) : Res (NlOpt h K × NlArgs K)) = .ok (p, a) →
      ∃ hd l, o.handle = some hd ∧ (isFull o.params.method ∨ o.params.method = .unknown) ∧
      o.lin.solveLinear lib.solve = .ok l ∧ p = { o with lin := l } ∧ p.fullArgs = .ok a := by
    intro hm ho
    rw [Res.bind_eq_ok] at ho
    obtain ⟨o1, h1, ho⟩ := ho
    rw [Res.bind_eq_ok] at ho
    obtain ⟨a1, h2, ho⟩ := ho
    unfold NlOpt.solveLinear at h1
    rw [Res.bind_eq_ok] at h1
    obtain ⟨l, h1, h3⟩ := h1
    rw [Res.pure_eq, Res.ok.injEq] at h3
    subst h3
    dsimp only at ho
    revert ho
    cases hh : o.handle with
    | none => intro ho; cases ho
    | some hd =>
      intro ho
      dsimp only at ho
      rw [Res.pure_eq, Res.ok.injEq, Prod.mk.injEq] at ho
      obtain ⟨rfl, rfl⟩ := ho
      exact ⟨hd, l, rfl, hm, h1, rfl, by rw [hh] at h2; exact h2⟩
  unfold NlOpt.prepare at ho
  revert ho
  cases hm : o.params.method with
  | squaredTime =>
    cases hh : o.handle with
    | none => intro ho; cases ho
    | some hd =>
      intro ho
      dsimp only at ho
      rw [Res.pure_eq, Res.ok.injEq, Prod.mk.injEq] at ho
      exact .inl ⟨hd, rfl, .inl rfl, ho.1.symm, ho.2.symm⟩
  | richterTime =>
    cases hh : o.handle with
    | none => intro ho; cases ho
    | some hd =>
      intro ho
      dsimp only at ho
      rw [Res.pure_eq, Res.ok.injEq, Prod.mk.injEq] at ho
      exact .inl ⟨hd, rfl, .inr rfl, ho.1.symm, ho.2.symm⟩
  | mellingerOuterLoop =>
    cases hh : o.handle with
    | none => intro ho; cases ho
    | some hd =>
      intro ho
      dsimp only at ho
      rw [Res.pure_eq, Res.ok.injEq, Prod.mk.injEq] at ho
      exact .inr (.inl ⟨hd, rfl, rfl, ho.1.symm, ho.2.symm⟩)
  | squaredTimeAndConstraints =>
    intro ho
    rw [hm] at full
    exact .inr (.inr (full (.inl (.inl rfl)) ho))
  | richterTimeAndConstraints =>
    intro ho
    rw [hm] at full
    exact .inr (.inr (full (.inl (.inr rfl)) ho))
  | unknown =>
    intro ho
    rw [hm] at full
    exact .inr (.inr (full (.inr rfl) ho))

theorem within_replicate {n : ℕ} {lo : K} {upper x : List K}
    (hw : Within (List.replicate n lo) upper x) : ∀ T ∈ x, lo ≤ T := by
  intro T hT
  obtain ⟨i, hi⟩ := List.mem_iff_getElem?.mp hT
  obtain ⟨l, u, h1, -, h2, -⟩ := within_get hw hi
  obtain ⟨h3, h4⟩ := List.getElem?_eq_some_iff.mp h1
  simp at h4
  rw [h4]
  exact h2

/-- What holds when NLopt is started. -/
theorem prepare_inv {lib : NlLib h K} {vertices : List (Vertex K)} {k : ℕ} {o p : NlOpt h K}
    {a : NlArgs K} (hs : LinSession lib vertices k o.lin) (ho : o.prepare lib = .ok (p, a)) :
    LinSession lib vertices k p.lin ∧ SameSetup o p ∧ p.info = o.info ∧
    p.lin.dimension = o.lin.dimension ∧
    p.lin.segmentTimes = o.lin.segmentTimes ∧ o.handle ≠ none ∧
    ((p.lin = o.lin ∧ ¬ isFull o.params.method) ∨ LinSolved lib vertices k p.lin) ∧
    ∀ x, Within a.lower a.upper x →
      ∀ (i : ℕ) (T : K), (timesOf o.params.method (vertices.length - 1) x)[i]? = some T →
        1 / 10 ≤ T ∨ ((isFull o.params.method ∨ o.params.method = .unknown) ∧
          ∃ T0, o.lin.segmentTimes[i]? = some T0 ∧ T0 < 1 / 10 ∧ T0 ≤ T) := by
  rcases prepare_cases ho with ⟨hd, hh, hm, rfl, rfl⟩ | ⟨hd, hh, hm, rfl, rfl⟩ |
    ⟨hd, l, hh, hm, hl, rfl, ha⟩
  · refine ⟨hs, .refl _, rfl, rfl, rfl, by simp [hh], .inl ⟨rfl, ?_⟩, ?_⟩
    · rintro (h1 | h1) <;> rcases hm with h2 | h2 <;> rw [h1] at h2 <;> cases h2
    · intro x hw i T hT
      have : timesOf p.params.method (vertices.length - 1) x = x := by
        rcases hm with h2 | h2 <;> rw [h2] <;> rfl
      rw [this] at hT
      exact .inl (within_replicate hw T (List.mem_of_getElem? hT))
  · refine ⟨hs, .refl _, rfl, rfl, rfl, by simp [hh], .inl ⟨rfl, ?_⟩, ?_⟩
    · rintro (h1 | h1) <;> rw [h1] at hm <;> cases hm
    · intro x hw i T hT
      have : timesOf p.params.method (vertices.length - 1) x = x := by
        rw [hm]; rfl
      rw [this] at hT
      exact .inl (within_replicate hw T (List.mem_of_getElem? hT))
  · obtain ⟨s1, t1, d1⟩ := lin_solve hs hl
    refine ⟨s1.session, ⟨rfl, rfl, rfl⟩, rfl, d1, t1, by simp [hh], .inr s1, ?_⟩
    intro x hw i T hT
    obtain ⟨fb, -, hst, -, -, hlen, -, hb⟩ := fullArgs_inv ha
    dsimp only at hst hlen hb
    have ht : timesOf o.params.method (vertices.length - 1) x = x.take (vertices.length - 1) := by
      rcases hm with (h2 | h2) | h2 <;> rw [h2] <;> rfl
    rw [ht, List.getElem?_take] at hT
    split_ifs at hT with hi
    have hn : l.segmentTimes.length = vertices.length - 1 := by
      have := (session_ready s1.session).2.1.count
      omega
    obtain ⟨lo', up', h1, -, h2, -⟩ := within_get hw hT
    have hil : i < l.segmentTimes.length := by omega
    have hsi : a.start[i]? = some l.segmentTimes[i] := by
      rw [hst, List.getElem?_append_left hil, List.getElem?_eq_getElem hil]
    obtain ⟨lo, up, h3, -, h4, -⟩ := hb i _ hsi
    rw [List.getElem?_append_left (by simpa using hil), List.getElem?_eq_getElem (by simpa using hil),
      List.getElem_replicate, Option.some.injEq] at h3
    subst h3
    rw [h1, Option.some.injEq] at h4
    by_cases hc : l.segmentTimes[i] < 1 / 10
    · rw [if_pos hc] at h4
      refine .inr ⟨hm, l.segmentTimes[i], ?_, hc, by rw [← h4]; exact h2⟩
      rw [← t1, List.getElem?_eq_getElem hil]
    · rw [if_neg hc] at h4
      exact .inl (by rw [← h4]; exact h2)

theorem within_times {lib : NlLib h K} {vertices : List (Vertex K)} {k : ℕ} {o p : NlOpt h K}
    {a : NlArgs K} (hs : LinSession lib vertices k o.lin) (ho : o.prepare lib = .ok (p, a))
    {x : List K} (hw : Within a.lower a.upper x) :
    ∀ T ∈ timesOf o.params.method (vertices.length - 1) x, 1 / 2 ^ 52 ≤ T := by
  intro T hT
  obtain ⟨i, hi⟩ := List.mem_iff_getElem?.mp hT
  rcases (prepare_inv hs ho).2.2.2.2.2.2.2 x hw i T hi with h1 | ⟨-, T0, h1, -, h2⟩
  · exact tenth_ge.trans h1
  · exact ((session_ready hs).2.1.times_pos T0 (List.mem_of_getElem? h1)).trans h2

/-! #### Scaling -/

theorem scaleToMeetLoop_succ (rf : RootFinder K) (sq : K → K) (vMax aMax : K) (n : ℕ)
    (tr : Trajectory K) : scaleToMeetLoop rf sq vMax aMax (n + 1) tr = (do
      let r ← tr.maxVelocityAndAcceleration rf sq
      let vv := r.2.1 / vMax
      let av := r.2.2 / aMax
      if vv ≤ 1 + 1 / 1000 ∧ av ≤ 1 + 1 / 1000 then pure (true, tr)
      else scaleToMeetLoop rf sq vMax aMax n (tr.scaleCore (max 1 (max vv (sq av))))) := rfl

/-- The scaling multiplies all durations by the same number, at least one. -/
theorem scaleToMeetLoop_times {rf : RootFinder K} {sq : K → K} {vMax aMax : K} {n : ℕ}
    {tr : Trajectory K} {r : Bool × Trajectory K} (ho : scaleToMeetLoop rf sq vMax aMax n tr = .ok r) :
    ∃ c, 1 ≤ c ∧ r.2.getSegmentTimes = tr.getSegmentTimes.map (· * c) := by
  induction n generalizing tr with
  | zero =>
    have : (false, tr) = r := by simpa [scaleToMeetLoop] using ho
    rw [← this]
    exact ⟨1, le_rfl, by simp⟩
  | succ n ih =>
    rw [scaleToMeetLoop_succ, Res.bind_eq_ok] at ho
    obtain ⟨m, -, ho⟩ := ho
    dsimp only at ho
    split_ifs at ho with h1
    · rw [Res.pure_eq, Res.ok.injEq] at ho
      rw [← ho]
      exact ⟨1, le_rfl, by simp⟩
    · obtain ⟨c, h2, h3⟩ := ih ho
      refine ⟨max 1 (max (m.2.1 / vMax) (sq (m.2.2 / aMax))) * c, ?_, ?_⟩
      · exact one_le_mul_of_one_le_of_one_le (le_max_left _ _) h2
      · rw [h3, scaleCore_times, List.map_map]
        congr 1
        funext x
        simp [mul_assoc]

/-- What `scaleSegmentTimesWithViolation` leaves behind. -/
theorem scale_inv {lib : NlLib h K} {vertices : List (Vertex K)} {k : ℕ} {o o' : NlOpt h K}
    (hs : LinSolved lib vertices k o.lin) (ho : o.scaleWithViolation lib = .ok o') :
    ∃ c, 1 ≤ c ∧ Evaluated lib vertices k o (o.lin.segmentTimes.map (· * c)) o' ∧
      o'.info = o.info := by
  unfold NlOpt.scaleWithViolation at ho
  rw [Res.bind_eq_ok] at ho
  obtain ⟨tr, htr, ho⟩ := ho
  dsimp only at ho
  split_ifs at ho with hz
  rw [Res.bind_eq_ok] at ho
  obtain ⟨r, hr, ho⟩ := ho
  rw [Res.bind_eq_ok] at ho
  obtain ⟨l1, h1, ho⟩ := ho
  rw [Res.bind_eq_ok] at ho
  obtain ⟨l2, h2, ho⟩ := ho
  rw [Res.pure_eq, Res.ok.injEq] at ho
  subst ho
  obtain ⟨c, hc, ht⟩ := scaleToMeetLoop_times hr
  have hseg : tr.getSegmentTimes = o.lin.segmentTimes := by
    unfold LinOpt.getTrajectory at htr
    obtain ⟨-, -, h3, -⟩ := (setSegments_ok_iff _ _).mp htr
    unfold Trajectory.getSegmentTimes
    rw [h3]
    exact hs.times
  rw [hseg] at ht
  have hp := (session_ready hs.session).2.1
  obtain ⟨s1, t1, d1, -⟩ := lin_update hs.session (by
    rw [ht]
    intro T hT
    obtain ⟨T0, h3, rfl⟩ := List.mem_map.mp hT
    have h4 := hp.times_pos T0 h3
    have h5 : (0 : K) ≤ T0 := le_trans (by positivity) h4
    exact h4.trans (le_mul_of_one_le_right h5 hc)) h1
  obtain ⟨s2, t2, d2⟩ := lin_solve s1 h2
  exact ⟨c, hc, ⟨s2, t2.trans (t1.trans ht), d2.trans d1, ⟨rfl, rfl, rfl⟩⟩, rfl⟩

theorem scale_route {lib : NlLib h K} {vertices : List (Vertex K)} {k : ℕ} {o o' : NlOpt h K}
    (hs : LinSolved lib vertices k o.lin) (ho : o.scaleWithViolation lib = .ok o') :
    ∃ (c : K) (l1 l2 : LinOpt h K), 1 ≤ c ∧
      Session lib.inv lib.solve vertices k (o.lin.segmentTimes.map (· * c)) l1 ∧
      l1.dimension = o.lin.dimension ∧ l1.solveLinear lib.solve = .ok l2 ∧ o'.lin = l2 ∧
      l2.segmentTimes = o.lin.segmentTimes.map (· * c) := by
  unfold NlOpt.scaleWithViolation at ho
  rw [Res.bind_eq_ok] at ho
  obtain ⟨tr, htr, ho⟩ := ho
  dsimp only at ho
  split_ifs at ho with hz
  rw [Res.bind_eq_ok] at ho
  obtain ⟨r, hr, ho⟩ := ho
  rw [Res.bind_eq_ok] at ho
  obtain ⟨l1, h1, ho⟩ := ho
  rw [Res.bind_eq_ok] at ho
  obtain ⟨l2, h2, ho⟩ := ho
  rw [Res.pure_eq, Res.ok.injEq] at ho
  subst ho
  obtain ⟨c, hc, ht⟩ := scaleToMeetLoop_times hr
  have hseg : tr.getSegmentTimes = o.lin.segmentTimes := by
    unfold LinOpt.getTrajectory at htr
    obtain ⟨-, -, h3, -⟩ := (setSegments_ok_iff _ _).mp htr
    unfold Trajectory.getSegmentTimes
    rw [h3]
    exact hs.times
  rw [hseg] at ht
  have hp := (session_ready hs.session).2.1
  obtain ⟨s1, t1, d1, -⟩ := lin_update hs.session (by
    rw [ht]
    intro T hT
    obtain ⟨T0, h3, rfl⟩ := List.mem_map.mp hT
    have h4 := hp.times_pos T0 h3
    have h5 : (0 : K) ≤ T0 := le_trans (by positivity) h4
    exact h4.trans (le_mul_of_one_le_right h5 hc)) h1
  obtain ⟨s2, t2, d2⟩ := lin_solve s1 h2
  have s1' : Session lib.inv lib.solve vertices k (o.lin.segmentTimes.map (· * c)) l1 := by
    have := s1
    unfold LinSession at this
    rw [t1, ht] at this
    exact this
  exact ⟨c, l1, l2, hc, s1', d1, h2, rfl, t2.trans (t1.trans ht)⟩

/-! #### Complete runs -/

/-- What a call of `optimize()` leaves behind. -/
theorem optimize_inv {lib : NlLib h K} {vertices : List (Vertex K)} {k : ℕ} {o o' : NlOpt h K}
    {run : NlRun K} {c : ℤ} {gradients : Bool} (hs : LinSession lib vertices k o.lin)
    (hr : RunOf lib gradients o run) (ho : o.optimize lib run = .ok (c, o')) :
    LinSession lib vertices k o'.lin ∧ SameSetup o o' ∧ o'.lin.dimension = o.lin.dimension ∧
    o'.info.stoppingReason = c ∧
    ((o'.lin = o.lin ∧ ¬ isFull o.params.method ∧
        (o.params.method = .unknown ∨ run.setupThrows = true ∨ ¬ evaluated run)) ∨
      (LinSolved lib vertices k o'.lin ∧ isFull o.params.method ∧
        o'.lin.segmentTimes = o.lin.segmentTimes ∧ (run.setupThrows = true ∨ ¬ evaluated run)) ∨
      (LinSolved lib vertices k o'.lin ∧ o.params.method ≠ .unknown ∧ run.setupThrows = false ∧
        ∃ x g f, NlQuery.objective x g ∈ run.queries ∧ 1 ≤ f ∧
          (o.params.method ≠ .mellingerOuterLoop → f = 1) ∧
          o'.lin.segmentTimes = (timesOf o.params.method (vertices.length - 1) x).map (· * f) ∧
          ∃ p a, NlOpt.prepare lib { o with info := NlInfo.default } = .ok (p, a) ∧
            Within a.lower a.upper x)) := by
  unfold NlOpt.optimize at ho
  dsimp only at ho
  by_cases hu : o.params.method = .unknown
  · rw [if_pos hu, Res.pure_eq, Res.ok_bind, Res.pure_eq, Res.ok.injEq, Prod.mk.injEq] at ho
    obtain ⟨rfl, rfl⟩ := ho
    refine ⟨hs, ⟨rfl, rfl, rfl⟩, rfl, rfl, .inl ⟨rfl, ?_, .inl hu⟩⟩
    rintro (h1 | h1) <;> rw [h1] at hu <;> cases hu
  rw [if_neg hu, Res.bind_eq_ok] at ho
  obtain ⟨⟨c', o2⟩, ho, he⟩ := ho
  rw [Res.pure_eq, Res.ok.injEq, Prod.mk.injEq] at he
  obtain ⟨rfl, rfl⟩ := he
  unfold NlOpt.optimizeWith at ho
  rw [Res.bind_eq_ok] at ho
  obtain ⟨⟨p, a⟩, hp, ho⟩ := ho
  have hs0 : LinSession lib vertices k ({ o with info := NlInfo.default } : NlOpt h K).lin := hs
  obtain ⟨s1, e1, -, d1, t1, hh, hl, -⟩ := prepare_inv hs0 hp
  have hw := fun x => within_times hs0 hp (x := x)
  dsimp only at e1 d1 t1 hh hl hw ho
  obtain ⟨hd, hhd⟩ : ∃ hd, o.handle = some hd := by
    cases hx : o.handle with
    | none => exact absurd hx hh
    | some hd => exact ⟨hd, rfl⟩
  have hres := hr hu p a hd hp hhd
  by_cases hst : run.setupThrows = true
  · rw [if_pos hst, Res.pure_eq, Res.ok.injEq, Prod.mk.injEq] at ho
    obtain ⟨rfl, rfl⟩ := ho
    refine ⟨s1, ⟨e1.handle, e1.params, e1.constraints⟩, d1, rfl, ?_⟩
    rcases hl with ⟨h1, h2⟩ | h1
    · exact .inl ⟨h1, h2, .inr (.inl hst)⟩
    · by_cases hf : isFull o.params.method
      · exact .inr (.inl ⟨h1, hf, t1, .inl hst⟩)
      · rcases prepare_cases hp with ⟨_, _, _, rfl, _⟩ | ⟨_, _, _, rfl, _⟩ | ⟨_, _, _, h3, _⟩
        · exact .inl ⟨rfl, hf, .inr (.inl hst)⟩
        · exact .inl ⟨rfl, hf, .inr (.inl hst)⟩
        · exact absurd h3 (by rintro (h4 | h4); exacts [hf h4, hu h4])
  rw [if_neg hst, Res.bind_eq_ok] at ho
  obtain ⟨⟨ys, o3⟩, hans, ho⟩ := ho
  have hst' : run.setupThrows = false := by simpa using hst
  obtain ⟨s3, e3, d3, ha⟩ := answers_inv s1 (method := o.params.method)
    (fun x g hm => hw x (hres.objective x g hm).1) hans
  dsimp only at ho
  -- the state before a possible scaling
  have key : (o3.lin = o.lin ∧ ¬ isFull o.params.method ∧ ¬ evaluated run) ∨
      (LinSolved lib vertices k o3.lin ∧ isFull o.params.method ∧
        o3.lin.segmentTimes = o.lin.segmentTimes ∧ ¬ evaluated run) ∨
      (LinSolved lib vertices k o3.lin ∧ ∃ x g, NlQuery.objective x g ∈ run.queries ∧
        o3.lin.segmentTimes = timesOf o.params.method (vertices.length - 1) x ∧
        Within a.lower a.upper x) := by
    rcases ha with ⟨h1, h2⟩ | ⟨h1, x, g, h2, h3⟩
    · have hne : ¬ evaluated run := fun ⟨x, g, hx⟩ => h1 x g hx
      rcases hl with ⟨h3, h4⟩ | h3
      · exact .inl ⟨h2.trans h3, h4, hne⟩
      · by_cases hf : isFull o.params.method
        · exact .inr (.inl ⟨by rw [h2]; exact h3, hf, by rw [h2]; exact t1, hne⟩)
        · rcases prepare_cases hp with ⟨_, _, _, rfl, _⟩ | ⟨_, _, _, rfl, _⟩ | ⟨_, _, _, h4, _⟩
          · exact .inl ⟨h2, hf, hne⟩
          · exact .inl ⟨h2, hf, hne⟩
          · exact absurd h4 (by rintro (h5 | h5); exacts [hf h5, hu h5])
    · exact .inr (.inr ⟨h1, x, g, h2, h3, (hres.objective x g h2).1⟩)
  by_cases hme : o.params.method = .mellingerOuterLoop
  · rw [if_pos hme] at ho
    by_cases hcode : run.code = none ∧ run.wroteCost = false
    · rw [if_pos hcode, Res.pure_eq, Res.ok.injEq, Prod.mk.injEq] at ho
      obtain ⟨rfl, rfl⟩ := ho
      refine ⟨s3, e1.trans e3 |> fun e => ⟨e.handle, e.params, e.constraints⟩, d3.trans d1, rfl, ?_⟩
      rcases key with ⟨h1, h2, h3⟩ | ⟨-, h2, -⟩ | ⟨h1, x, g, h2, h3, h4⟩
      · exact .inl ⟨h1, h2, .inr (.inr h3)⟩
      · rcases h2 with h2 | h2 <;> rw [h2] at hme <;> cases hme
      · exact .inr (.inr ⟨h1, hu, hst', x, g, 1, h2, le_rfl, fun _ => rfl, by simpa using h3, p, a, hp,
          h4⟩)
    · rw [if_neg hcode, Res.bind_eq_ok] at ho
      obtain ⟨o4, h4, ho⟩ := ho
      rw [Res.pure_eq, Res.ok.injEq, Prod.mk.injEq] at ho
      obtain ⟨rfl, rfl⟩ := ho
      have hev : evaluated run := hres.reports (by
        by_cases hc : run.code = none
        · exact .inr (by simpa using fun hf => hcode ⟨hc, hf⟩)
        · exact .inl hc)
      rcases key with ⟨-, -, h3⟩ | ⟨-, -, -, h3⟩ | ⟨h1, x, g, h2, h3, h5⟩
      · exact absurd hev h3
      · exact absurd hev h3
      · obtain ⟨f, hf, ev, -⟩ := scale_inv h1 h4
        refine ⟨ev.solved.session, ?_, (ev.dim.trans d3).trans d1, rfl, .inr (.inr ⟨ev.solved, hu, hst',
          x, g, f, h2, hf, fun hn => absurd hme hn, by rw [ev.times, h3], p, a, hp, h5⟩)⟩
        exact (e1.trans (e3.trans ev.same)) |> fun e => ⟨e.handle, e.params, e.constraints⟩
  · rw [if_neg hme, Res.pure_eq, Res.ok.injEq, Prod.mk.injEq] at ho
    obtain ⟨rfl, rfl⟩ := ho
    refine ⟨s3, e1.trans e3 |> fun e => ⟨e.handle, e.params, e.constraints⟩, d3.trans d1, rfl, ?_⟩
    rcases key with ⟨h1, h2, h3⟩ | ⟨h1, h2, h3, h4⟩ | ⟨h1, x, g, h2, h3, h4⟩
    · exact .inl ⟨h1, h2, .inr (.inr h3)⟩
    · exact .inr (.inl ⟨h1, h2, h3, .inr h4⟩)
    · exact .inr (.inr ⟨h1, hu, hst', x, g, 1, h2, le_rfl, fun _ => rfl, by simpa using h3, p, a, hp,
        h4⟩)

/-! #### Sessions -/

theorem setup_nl_inv {lib : NlLib h K} {o o' : NlOpt h K} {vs : List (Vertex K)} {ts : List K} {k : ℤ}
    (ho : o.setupFromVertices lib vs ts k = .ok o') :
    ∃ l, o.lin.setupFromVertices lib.inv vs ts k = .ok l ∧ o'.lin = l ∧ o'.params = o.params ∧
      o'.constraints = o.constraints ∧ o'.info = o.info ∧
      o'.handle = some ⟨(match o.params.method with
        | .squaredTime | .richterTime | .mellingerOuterLoop => ts.length
        | _ => ts.length + l.nFree * l.dimension), []⟩ := by
  unfold NlOpt.setupFromVertices at ho
  rw [Res.bind_eq_ok] at ho
  obtain ⟨l, h1, ho⟩ := ho
  rw [Res.pure_eq, Res.ok.injEq] at ho
  subst ho
  exact ⟨l, h1, rfl, rfl, rfl, rfl, rfl⟩

theorem add_inv {o o' : NlOpt h K} {acc b : Bool} {d : ℤ} {v : K}
    (ho : o.addMaximumMagnitudeConstraint acc d v = .ok (b, o')) :
    0 ≤ d ∧ 0 ≤ v ∧ o'.lin = o.lin ∧ o'.params = o.params ∧ o'.info = o.info ∧
      o'.constraints = o.constraints ++ [⟨d, v⟩] ∧
      (o.params.useSoft = true → o'.handle = o.handle ∧ b = true) ∧
      (o.params.useSoft = false → ∃ hd, o.handle = some hd ∧ b = acc ∧
        o'.handle = some (if acc then { hd with hard := hd.hard ++ [⟨d, v⟩] } else hd)) := by
  unfold NlOpt.addMaximumMagnitudeConstraint at ho
  rw [Res.bind_eq_ok] at ho
  obtain ⟨_, h1, ho⟩ := ho
  rw [Res.bind_eq_ok] at ho
  obtain ⟨_, h2, ho⟩ := ho
  rw [Res.check_eq_ok] at h1 h2
  dsimp only at ho
  by_cases hu : o.params.useSoft = true
  · rw [if_pos hu, Res.pure_eq, Res.ok.injEq, Prod.mk.injEq] at ho
    obtain ⟨rfl, rfl⟩ := ho
    exact ⟨h1, h2, rfl, rfl, rfl, rfl, fun _ => ⟨rfl, rfl⟩, fun hf => by rw [hu] at hf; cases hf⟩
  · rw [if_neg hu] at ho
    revert ho
    cases hh : o.handle with
    | none => intro ho; cases ho
    | some hd =>
      intro ho
      dsimp only at ho
      cases acc with
      | true =>
        rw [if_pos rfl, Res.pure_eq, Res.ok.injEq, Prod.mk.injEq] at ho
        obtain ⟨rfl, rfl⟩ := ho
        exact ⟨h1, h2, rfl, rfl, rfl, rfl, fun hf => absurd hf hu, fun _ => ⟨hd, rfl, rfl, rfl⟩⟩
      | false =>
        rw [if_neg (by simp), Res.pure_eq, Res.ok.injEq, Prod.mk.injEq] at ho
        obtain ⟨rfl, rfl⟩ := ho
        exact ⟨h1, h2, rfl, rfl, rfl, rfl, fun hf => absurd hf hu, fun _ => ⟨hd, rfl, rfl, rfl⟩⟩

theorem getTotalCost_inv {lib : NlLib h K} {o o' : NlOpt h K} {y : K}
    (ho : o.getTotalCost lib = .ok (y, o')) :
    o'.lin = o.lin ∧ SameSetup o o' ∧ ∃ c s, o.lin.computeCost = .ok c ∧
      softCost lib o.params.softWeight (10 ^ 9) o.constraints 0 o = .ok (s, o') ∧
      y = c + o.lin.segmentTimes.foldl (· + ·) 0 * o.lin.segmentTimes.foldl (· + ·) 0 *
        o.params.timePenalty + s := by
  unfold NlOpt.getTotalCost at ho
  rw [Res.bind_eq_ok] at ho
  obtain ⟨c, h1, ho⟩ := ho
  dsimp only at ho
  rw [Res.bind_eq_ok] at ho
  obtain ⟨⟨s, o2⟩, h2, ho⟩ := ho
  rw [Res.pure_eq, Res.ok.injEq, Prod.mk.injEq] at ho
  obtain ⟨rfl, rfl⟩ := ho
  obtain ⟨h3, h4, -⟩ := softCost_same h2
  exact ⟨h3, h4, c, s, h1, h2, rfl⟩

theorem solveLinear_nl_inv {lib : NlLib h K} {o o' : NlOpt h K} (ho : o.solveLinear lib = .ok o') :
    ∃ l, o.lin.solveLinear lib.solve = .ok l ∧ o' = { o with lin := l } := by
  unfold NlOpt.solveLinear at ho
  rw [Res.bind_eq_ok] at ho
  obtain ⟨l, h1, ho⟩ := ho
  rw [Res.pure_eq, Res.ok.injEq] at ho
  exact ⟨l, h1, ho.symm⟩

/-! #### Reachable objects -/

/-- What all calls that change the linear optimiser preserve. -/
structure LinClosed (lib : NlLib h K) (P : LinOpt h K → Prop) : Prop where
  times : ∀ {l l' ts}, P l → l.updateSegmentTimes lib.inv ts = .ok l' → P l'
  solve : ∀ {l l'}, P l → l.solveLinear lib.solve = .ok l' → P l'
  free : ∀ {l l' fc}, P l → l.setFreeConstraints fc = .ok l' → P l'

theorem gradientLoop_closed {lib : NlLib h K} {P : LinOpt h K → Prop} (hc : LinClosed lib P)
    {times : List K} {J : K} {m n : ℕ} {l l' : LinOpt h K} {g : List K} (hl : P l)
    (ho : gradientLoop lib times J m n l = .ok (g, l')) : P l' := by
  induction m generalizing n l g with
  | zero =>
    have : (([] : List K), l) = (g, l') := by simpa [gradientLoop] using ho
    rw [Prod.mk.injEq] at this
    rw [← this.2]
    exact hl
  | succ m ih =>
    rw [gradientLoop_succ, Res.bind_eq_ok] at ho
    obtain ⟨l1, h1, ho⟩ := ho
    rw [Res.bind_eq_ok] at ho
    obtain ⟨l2, h2, ho⟩ := ho
    rw [Res.bind_eq_ok] at ho
    obtain ⟨J', -, ho⟩ := ho
    rw [Res.bind_eq_ok] at ho
    obtain ⟨⟨g', l3⟩, h3, ho⟩ := ho
    rw [Res.pure_eq, Res.ok.injEq, Prod.mk.injEq] at ho
    obtain ⟨rfl, rfl⟩ := ho
    exact ih (hc.solve (hc.times hl h1) h2) h3

theorem costAndGradient_closed {lib : NlLib h K} {P : LinOpt h K → Prop} (hc : LinClosed lib P)
    {l : LinOpt h K} {r : K × List K × LinOpt h K} (hl : P l)
    (ho : costAndGradient lib l = .ok r) : P r.2.2 := by
  unfold costAndGradient at ho
  dsimp only at ho
  rw [Res.bind_eq_ok] at ho
  obtain ⟨J0, h1, ho⟩ := ho
  by_cases hn : l.nSegments = 1
  · rw [if_pos hn, Res.pure_eq, Res.ok.injEq] at ho
    rw [← ho]
    exact hl
  · rw [if_neg hn, Res.bind_eq_ok] at ho
    obtain ⟨⟨g0, l1⟩, h2, ho⟩ := ho
    rw [Res.bind_eq_ok] at ho
    obtain ⟨l2, h3, ho⟩ := ho
    rw [Res.bind_eq_ok] at ho
    obtain ⟨l3, h4, ho⟩ := ho
    rw [Res.pure_eq, Res.ok.injEq] at ho
    rw [← ho]
    exact hc.solve (hc.times (gradientLoop_closed hc hl h2) h3) h4

theorem objective_closed {lib : NlLib h K} {P : LinOpt h K → Prop} (hc : LinClosed lib P)
    {method : TimeAlloc} {o o' : NlOpt h K} {x : List K} {g : Bool} {y : K} (hl : P o.lin)
    (ho : NlOpt.objective lib method o x g = .ok (y, o')) : P o'.lin := by
  have hfull : o.objectiveFull lib x g = .ok (y, o') → P o'.lin := by
    intro ho
    unfold NlOpt.objectiveFull at ho
    dsimp only at ho
    rw [Res.bind_eq_ok] at ho
    obtain ⟨_, -, ho⟩ := ho
    rw [Res.bind_eq_ok] at ho
    obtain ⟨_, -, ho⟩ := ho
    rw [Res.bind_eq_ok] at ho
    obtain ⟨l1, h1, ho⟩ := ho
    rw [Res.bind_eq_ok] at ho
    obtain ⟨l2, h2, ho⟩ := ho
    rw [(totalCost_inv ho).1]
    exact hc.free (hc.times hl h1) h2
  have htime : o.objectiveTime lib x g = .ok (y, o') → P o'.lin := by
    intro ho
    unfold NlOpt.objectiveTime at ho
    rw [Res.bind_eq_ok] at ho
    obtain ⟨_, -, ho⟩ := ho
    rw [Res.bind_eq_ok] at ho
    obtain ⟨_, -, ho⟩ := ho
    rw [Res.bind_eq_ok] at ho
    obtain ⟨l1, h1, ho⟩ := ho
    rw [Res.bind_eq_ok] at ho
    obtain ⟨l2, h2, ho⟩ := ho
    rw [(totalCost_inv ho).1]
    exact hc.solve (hc.times hl h1) h2
  unfold NlOpt.objective at ho
  cases method
  · exact htime ho
  · exact htime ho
  · dsimp only at ho
    rw [Res.bind_eq_ok] at ho
    obtain ⟨⟨y', gr, o1⟩, ho, he⟩ := ho
    rw [Res.pure_eq, Res.ok.injEq, Prod.mk.injEq] at he
    obtain ⟨-, rfl⟩ := he
    unfold NlOpt.objectiveMellinger at ho
    rw [Res.bind_eq_ok] at ho
    obtain ⟨_, -, ho⟩ := ho
    rw [Res.bind_eq_ok] at ho
    obtain ⟨_, -, ho⟩ := ho
    rw [Res.bind_eq_ok] at ho
    obtain ⟨l1, h1, ho⟩ := ho
    rw [Res.bind_eq_ok] at ho
    obtain ⟨l2, h2, ho⟩ := ho
    rw [Res.bind_eq_ok] at ho
    obtain ⟨r, h3, ho⟩ := ho
    rw [Res.pure_eq, Res.ok.injEq, Prod.mk.injEq, Prod.mk.injEq] at ho
    rw [← ho.2.2]
    exact costAndGradient_closed hc (hc.solve (hc.times hl h1) h2) h3
  · exact hfull ho
  · exact hfull ho
  · exact hfull ho

theorem answers_closed {lib : NlLib h K} {P : LinOpt h K → Prop} (hc : LinClosed lib P)
    {method : TimeAlloc} {qs : List (NlQuery K)} {o o' : NlOpt h K} {ys : List K} (hl : P o.lin)
    (ho : NlOpt.answers lib (NlOpt.objective lib method) qs o = .ok (ys, o')) : P o'.lin := by
  induction qs generalizing o ys with
  | nil =>
    have : (([] : List K), o) = (ys, o') := by simpa [NlOpt.answers] using ho
    rw [Prod.mk.injEq] at this
    rw [← this.2]
    exact hl
  | cons q qs ih =>
    rw [answers_cons, Res.bind_eq_ok] at ho
    obtain ⟨⟨y, o1⟩, h1, ho⟩ := ho
    rw [Res.bind_eq_ok] at ho
    obtain ⟨⟨ys', o2⟩, h2, ho⟩ := ho
    rw [Res.pure_eq, Res.ok.injEq, Prod.mk.injEq] at ho
    obtain ⟨-, rfl⟩ := ho
    refine ih ?_ h2
    cases q with
    | objective x g => exact objective_closed hc hl h1
    | constraint i x g => dsimp only; rw [(constraint_inv h1).1]; exact hl

theorem scale_closed {lib : NlLib h K} {P : LinOpt h K → Prop} (hc : LinClosed lib P)
    {o o' : NlOpt h K} (hl : P o.lin) (ho : o.scaleWithViolation lib = .ok o') : P o'.lin := by
  unfold NlOpt.scaleWithViolation at ho
  rw [Res.bind_eq_ok] at ho
  obtain ⟨tr, htr, ho⟩ := ho
  dsimp only at ho
  split_ifs at ho with hz
  rw [Res.bind_eq_ok] at ho
  obtain ⟨r, hr, ho⟩ := ho
  rw [Res.bind_eq_ok] at ho
  obtain ⟨l1, h1, ho⟩ := ho
  rw [Res.bind_eq_ok] at ho
  obtain ⟨l2, h2, ho⟩ := ho
  rw [Res.pure_eq, Res.ok.injEq] at ho
  rw [← ho]
  exact hc.solve (hc.times hl h1) h2

theorem optimize_closed {lib : NlLib h K} {P : LinOpt h K → Prop} (hc : LinClosed lib P)
    {o o' : NlOpt h K} {run : NlRun K} {c : ℤ} (hl : P o.lin) (ho : o.optimize lib run = .ok (c, o')) :
    P o'.lin := by
  unfold NlOpt.optimize at ho
  dsimp only at ho
  by_cases hu : o.params.method = .unknown
  · rw [if_pos hu, Res.pure_eq, Res.ok_bind, Res.pure_eq, Res.ok.injEq, Prod.mk.injEq] at ho
    rw [← ho.2]
    exact hl
  rw [if_neg hu, Res.bind_eq_ok] at ho
  obtain ⟨⟨c', o2⟩, ho, he⟩ := ho
  rw [Res.pure_eq, Res.ok.injEq, Prod.mk.injEq] at he
  obtain ⟨rfl, rfl⟩ := he
  unfold NlOpt.optimizeWith at ho
  rw [Res.bind_eq_ok] at ho
  obtain ⟨⟨p, a⟩, hp, ho⟩ := ho
  have hpl : P p.lin := by
    rcases prepare_cases hp with ⟨_, _, _, rfl, _⟩ | ⟨_, _, _, rfl, _⟩ | ⟨_, l, _, h3, h4, rfl, _⟩
    · exact hl
    · exact hl
    · exact hc.solve hl h4
  dsimp only at ho
  by_cases h1 : run.setupThrows = true
  · rw [if_pos h1, Res.pure_eq, Res.ok.injEq, Prod.mk.injEq] at ho
    rw [← ho.2]
    exact hpl
  rw [if_neg h1, Res.bind_eq_ok] at ho
  obtain ⟨⟨ys, o3⟩, hans, ho⟩ := ho
  have h3 := answers_closed hc hpl hans
  dsimp only at ho
  split_ifs at ho with h4 h5
  · rw [Res.pure_eq, Res.ok.injEq, Prod.mk.injEq] at ho
    rw [← ho.2]
    exact h3
  · rw [Res.bind_eq_ok] at ho
    obtain ⟨o4, h6, ho⟩ := ho
    rw [Res.pure_eq, Res.ok.injEq, Prod.mk.injEq] at ho
    rw [← ho.2]
    exact (scale_closed hc h3 h6 : P o4.lin)
  · rw [Res.pure_eq, Res.ok.injEq, Prod.mk.injEq] at ho
    rw [← ho.2]
    exact h3

/-- The linear optimiser in a nonlinear one is one a program could have made directly. -/
theorem nlReachable_lin {lib : NlLib h K} {o : NlOpt h K} (ho : NlReachable lib o) :
    OptReachable lib.inv lib.solve o.lin := by
  have hc : LinClosed lib (OptReachable lib.inv lib.solve) :=
    ⟨fun h1 h2 => .times h1 h2, fun h1 h2 => .solveLinear h1 h2, fun h1 h2 => .setFree h1 h2⟩
  induction ho with
  | new dim params => exact .new dim
  | setup _ h1 ih =>
    obtain ⟨l, h2, h3, -⟩ := setup_nl_inv h1
    rw [h3]
    exact .setup ih h2
  | solveLinear _ h1 ih =>
    obtain ⟨l, h2, rfl⟩ := solveLinear_nl_inv h1
    exact .solveLinear ih h2
  | add _ h1 ih => rw [(add_inv h1).2.2.1]; exact ih
  | optimize _ h1 ih => exact optimize_closed hc ih h1
  | scale _ h1 ih => exact scale_closed hc ih h1
  | total _ h1 ih => rw [(getTotalCost_inv h1).1]; exact ih

/-- What is known at every point of a session. -/
theorem nlSession_inv {lib : NlLib h K} {vertices : List (Vertex K)} {k : ℕ} {b : Prop} {o : NlOpt h K}
    (hs : NlSession lib vertices k b o) :
    LinSession lib vertices k o.lin ∧ (b → LinSolved lib vertices k o.lin) ∧ ∃ hd, o.handle = some hd ∧
      hd.n = (match o.params.method with
        | .squaredTime | .richterTime | .mellingerOuterLoop => vertices.length - 1
        | _ => vertices.length - 1 + o.lin.nFree * o.lin.dimension) := by
  have hfree : ∀ {l l' : LinOpt h K}, LinSession lib vertices k l → LinSession lib vertices k l' →
      l'.dimension = l.dimension → l'.nFree = l.nFree := by
    intro l l' h1 h2 hd
    rw [(session_ready h1).2.2.nFree, (session_ready h2).2.2.nFree, hd]
  induction hs with
  | @setup o o' times h1 hp h2 =>
    obtain ⟨l, h3, h4, h5, -, -, h6⟩ := setup_nl_inv h2
    have hse : Session lib.inv lib.solve vertices k times l := .setup (nlReachable_lin h1) hp h3
    refine ⟨by rw [h4]; exact hse.lin, fun hf => hf.elim, _, h6, ?_⟩
    have hc := hp.count
    dsimp only
    rw [h5, h4, show times.length = vertices.length - 1 by omega]
  | @solveLinear b o o' h1 h2 ih =>
    obtain ⟨l, h3, rfl⟩ := solveLinear_nl_inv h2
    obtain ⟨s1, -, d1⟩ := lin_solve ih.1 h3
    refine ⟨s1.session, fun _ => s1, ?_⟩
    obtain ⟨hd, a1, a2⟩ := ih.2.2
    refine ⟨hd, a1, ?_⟩
    dsimp only
    rw [a2, hfree ih.1 s1.session d1, d1]
  | @add b o o' r acc d v h1 h2 ih =>
    obtain ⟨-, -, h3, h4, -, -, h5, h6⟩ := add_inv h2
    obtain ⟨hd, a1, a2⟩ := ih.2.2
    rw [h3, h4]
    refine ⟨ih.1, ih.2.1, ?_⟩
    by_cases hu : o.params.useSoft = true
    · exact ⟨hd, by rw [(h5 hu).1, a1], a2⟩
    · obtain ⟨hd', a3, -, a4⟩ := h6 (by simpa using hu)
      rw [a1, Option.some.injEq] at a3
      subst a3
      exact ⟨_, a4, by split_ifs <;> exact a2⟩
  | @optimize b o o' run c g h1 hr h2 ih =>
    obtain ⟨s1, e1, d1, -, hcase⟩ := optimize_inv ih.1 hr h2
    refine ⟨s1, ?_, ?_⟩
    · intro hb
      rcases hcase with ⟨a1, a2, a3⟩ | ⟨a1, -⟩ | ⟨a1, -⟩
      · rw [a1]
        rcases hb with hb | ⟨hb1, hb2, hb3⟩ | hb | hb
        · exact ih.2.1 hb
        · rcases a3 with a3 | a3 | a3
          · exact absurd a3 hb3
          · rw [hb2] at a3; cases a3
          · exact absurd hb1 a3
        · exact absurd (.inl hb) a2
        · exact absurd (.inr hb) a2
      · exact a1
      · exact a1
    · obtain ⟨hd, a1, a2⟩ := ih.2.2
      refine ⟨hd, by rw [e1.handle, a1], ?_⟩
      rw [a2, e1.params, hfree ih.1 s1 d1, d1]
  | @scale o o' h1 h2 ih =>
    obtain ⟨c, -, ev, -⟩ := scale_inv (ih.2.1 trivial) h2
    refine ⟨ev.solved.session, fun _ => ev.solved, ?_⟩
    obtain ⟨hd, a1, a2⟩ := ih.2.2
    refine ⟨hd, by rw [ev.same.handle, a1], ?_⟩
    rw [a2, ev.same.params, hfree ih.1 ev.solved.session ev.dim, ev.dim]
  | @total b o o' c h1 h2 ih =>
    obtain ⟨h3, h4, -⟩ := getTotalCost_inv h2
    rw [h3, h4.handle, h4.params]
    exact ih

end Verif
