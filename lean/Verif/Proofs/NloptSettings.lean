import Verif.Proofs.NlOptLast
import Verif.Spec.NloptSettings

/-! Helper lemmas for C140 and C141. -/

set_option linter.unusedSectionVars false

namespace Verif

open Spec

variable {K : Type} [Field K] [LinearOrder K] [IsStrictOrderedRing K] {h : ℕ} {S : Type}

theorem prog_get {w : NlProgram S h K} {id : ℕ} {f : NlFull h K} : w.get id = .ok f ↔ w.objs id = some f := by
  unfold NlProgram.get
  cases e : w.objs id with
  | none => simp
  | some g => simp

theorem nlrun_cons {X : NloptLib S h K} {lib : NlLib h K} {w w' : NlProgram S h K} {e : ProgCall K}
    {es : List (ProgCall K)} {tr : List (ℕ × ProgAnswer)} (hr : w.run X lib (e :: es) = .ok (w', tr)) :
    ∃ v x tr', w.step X lib e = .ok (v, x) ∧ v.run X lib es = .ok (w', tr') ∧ tr = (e.id, x) :: tr' := by
  rw [NlProgram.run, Res.bind_eq_ok] at hr
  obtain ⟨⟨v, x⟩, h1, hr⟩ := hr
  rw [Res.bind_eq_ok] at hr
  obtain ⟨⟨u, tr'⟩, h2, hr⟩ := hr
  rw [Res.pure_eq, Res.ok.injEq, Prod.mk.injEq] at hr
  obtain ⟨rfl, rfl⟩ := hr
  exact ⟨v, x, tr', h1, h2, rfl⟩

theorem nlrun_cons_of {X : NloptLib S h K} {lib : NlLib h K} {w v w' : NlProgram S h K} {e : ProgCall K} {x : ProgAnswer}
    {es : List (ProgCall K)} {tr : List (ℕ × ProgAnswer)} (h1 : w.step X lib e = .ok (v, x))
    (h2 : v.run X lib es = .ok (w', tr)) : w.run X lib (e :: es) = .ok (w', (e.id, x) :: tr) := by
  rw [NlProgram.run, h1, Res.ok_bind, h2]
  rfl

/-- A call changes at most its own optimiser; the generator only in a set-up or an optimisation. -/
theorem prog_step_other {X : NloptLib S h K} {lib : NlLib h K} {w w' : NlProgram S h K} {e : ProgCall K} {x : ProgAnswer}
    (hs : w.step X lib e = .ok (w', x)) :
    (∀ i ≠ e.id, w'.objs i = w.objs i) ∧
    ((match e with
      | .setup _ _ _ _ _ => False
      | .optimize _ => False
      | _ => True) → w'.gen = w.gen) := by
  have hput : ∀ (id : ℕ) (f : NlFull h K) (g : S) (i : ℕ), i ≠ id → (w.put id f g).objs i = w.objs i := by
    intro id f g i hi
    exact Function.update_of_ne hi _ _
  cases e with
  | new id dim params search =>
    rw [NlProgram.step, Res.pure_eq, Res.ok.injEq, Prod.mk.injEq] at hs
    obtain ⟨rfl, -⟩ := hs
    exact ⟨hput _ _ _, fun _ => rfl⟩
  | setup id vs ts k c =>
    rw [NlProgram.step, Res.bind_eq_ok] at hs
    obtain ⟨f, _, hs⟩ := hs
    rw [Res.bind_eq_ok] at hs
    obtain ⟨r, _, hs⟩ := hs
    rw [Res.pure_eq, Res.ok.injEq, Prod.mk.injEq] at hs
    obtain ⟨rfl, -⟩ := hs
    exact ⟨hput _ _ _, fun h0 => h0.elim⟩
  | solve id =>
    rw [NlProgram.step, Res.bind_eq_ok] at hs
    obtain ⟨f, _, hs⟩ := hs
    rw [Res.bind_eq_ok] at hs
    obtain ⟨r, _, hs⟩ := hs
    rw [Res.pure_eq, Res.ok.injEq, Prod.mk.injEq] at hs
    obtain ⟨rfl, -⟩ := hs
    exact ⟨hput _ _ _, fun _ => rfl⟩
  | add id d v =>
    rw [NlProgram.step, Res.bind_eq_ok] at hs
    obtain ⟨f, _, hs⟩ := hs
    rw [Res.bind_eq_ok] at hs
    obtain ⟨r, _, hs⟩ := hs
    rw [Res.pure_eq, Res.ok.injEq, Prod.mk.injEq] at hs
    obtain ⟨rfl, -⟩ := hs
    exact ⟨hput _ _ _, fun _ => rfl⟩
  | optimize id =>
    rw [NlProgram.step, Res.bind_eq_ok] at hs
    obtain ⟨f, _, hs⟩ := hs
    rw [Res.bind_eq_ok] at hs
    obtain ⟨r, _, hs⟩ := hs
    rw [Res.pure_eq, Res.ok.injEq, Prod.mk.injEq] at hs
    obtain ⟨rfl, -⟩ := hs
    exact ⟨hput _ _ _, fun h0 => h0.elim⟩

/-- The same optimiser and the same generator. -/
def ProgAgree (id : ℕ) (w v : NlProgram S h K) : Prop := w.objs id = v.objs id ∧ w.gen = v.gen

/-- The optimiser, if any, has a fixed seed. -/
def SeedFixed (id : ℕ) (w : NlProgram S h K) : Prop := ∀ f, w.objs id = some f → 0 ≤ f.search.randomSeed

theorem prog_put (w : NlProgram S h K) (id : ℕ) (f : NlFull h K) (g : S) : (w.put id f g).objs id = some f :=
  Function.update_self _ _ _

theorem put_agree (w v : NlProgram S h K) (id : ℕ) (f : NlFull h K) (g : S) : ProgAgree id (w.put id f g) (v.put id f g) :=
  ⟨by rw [prog_put, prog_put], rfl⟩

/-- The same call on the same optimiser with the same generator. -/
theorem step_agree {X : NloptLib S h K} {lib : NlLib h K} {w w' v : NlProgram S h K} {e e' : ProgCall K} {x : ProgAnswer}
    (hs : w.step X lib e = .ok (w', x)) (ha : ProgAgree e.id w v) (hf : SeedFixed e.id w)
    (he : withoutClock e = withoutClock e') :
    ∃ v', v.step X lib e' = .ok (v', x) ∧ ProgAgree e.id w' v' := by
  have hget : v.get e.id = w.get e.id := by
    unfold NlProgram.get
    rw [ha.1]
  cases e with
  | new id dim params search =>
    cases e' with
    | new id' dim' params' search' =>
      simp only [withoutClock, ProgCall.new.injEq] at he
      obtain ⟨rfl, rfl, rfl, rfl⟩ := he
      rw [NlProgram.step, Res.pure_eq, Res.ok.injEq, Prod.mk.injEq] at hs
      obtain ⟨rfl, rfl⟩ := hs
      refine ⟨_, rfl, ?_⟩
      rw [ha.2]
      exact put_agree _ _ _ _ _
    | _ => simp [withoutClock] at he
  | setup id vs ts k c =>
    cases e' with
    | setup id' vs' ts' k' c' =>
      simp only [withoutClock, ProgCall.setup.injEq, and_true] at he
      obtain ⟨rfl, rfl, rfl, rfl⟩ := he
      rw [NlProgram.step, Res.bind_eq_ok] at hs
      obtain ⟨f, h1, hs⟩ := hs
      rw [Res.bind_eq_ok] at hs
      obtain ⟨r, h2, hs⟩ := hs
      rw [Res.pure_eq, Res.ok.injEq, Prod.mk.injEq] at hs
      obtain ⟨rfl, rfl⟩ := hs
      have hseed : ¬ f.search.randomSeed < 0 := not_lt.mpr (hf f (prog_get.mp h1))
      have h2' : f.setup X lib vs ts k c' = .ok r := by
        rw [← h2]
        unfold NlFull.setup
        rw [if_neg hseed, if_neg hseed]
      rw [NlProgram.step]
      change v.get id = w.get id at hget
      rw [hget, h1, Res.ok_bind, h2', Res.ok_bind]
      exact ⟨_, rfl, put_agree _ _ _ _ _⟩
    | _ => simp [withoutClock] at he
  | solve id =>
    cases e' with
    | solve id' =>
      simp only [withoutClock, ProgCall.solve.injEq] at he
      subst he
      rw [NlProgram.step, Res.bind_eq_ok] at hs
      obtain ⟨f, h1, hs⟩ := hs
      rw [Res.bind_eq_ok] at hs
      obtain ⟨r, h2, hs⟩ := hs
      rw [Res.pure_eq, Res.ok.injEq, Prod.mk.injEq] at hs
      obtain ⟨rfl, rfl⟩ := hs
      rw [NlProgram.step]
      change v.get id = w.get id at hget
      rw [hget, h1, Res.ok_bind, h2, Res.ok_bind, ← ha.2]
      exact ⟨_, rfl, put_agree _ _ _ _ _⟩
    | _ => simp [withoutClock] at he
  | add id d y =>
    cases e' with
    | add id' d' y' =>
      simp only [withoutClock, ProgCall.add.injEq] at he
      obtain ⟨rfl, rfl, rfl⟩ := he
      rw [NlProgram.step, Res.bind_eq_ok] at hs
      obtain ⟨f, h1, hs⟩ := hs
      rw [Res.bind_eq_ok] at hs
      obtain ⟨r, h2, hs⟩ := hs
      rw [Res.pure_eq, Res.ok.injEq, Prod.mk.injEq] at hs
      obtain ⟨rfl, rfl⟩ := hs
      rw [NlProgram.step]
      change v.get id = w.get id at hget
      rw [hget, h1, Res.ok_bind, h2, Res.ok_bind, ← ha.2]
      exact ⟨_, rfl, put_agree _ _ _ _ _⟩
    | _ => simp [withoutClock] at he
  | optimize id =>
    cases e' with
    | optimize id' =>
      simp only [withoutClock, ProgCall.optimize.injEq] at he
      subst he
      rw [NlProgram.step, Res.bind_eq_ok] at hs
      obtain ⟨f, h1, hs⟩ := hs
      rw [Res.bind_eq_ok] at hs
      obtain ⟨r, h2, hs⟩ := hs
      rw [Res.pure_eq, Res.ok.injEq, Prod.mk.injEq] at hs
      obtain ⟨rfl, rfl⟩ := hs
      rw [NlProgram.step]
      change v.get id = w.get id at hget
      rw [hget, h1, Res.ok_bind, ← ha.2, h2, Res.ok_bind]
      exact ⟨_, rfl, put_agree _ _ _ _ _⟩
    | _ => simp [withoutClock] at he

/-- What a call makes of its optimiser: the parameters stay, except in the constructor. -/
theorem step_search {X : NloptLib S h K} {lib : NlLib h K} {w w' : NlProgram S h K} {e : ProgCall K} {x : ProgAnswer}
    (hs : w.step X lib e = .ok (w', x)) :
    (∃ id dim params search, e = .new id dim params search ∧ w'.objs id = some (NlFull.new dim params search)) ∨
    (∀ id dim params search, e ≠ .new id dim params search) ∧
      ∃ f f', w.objs e.id = some f ∧ w'.objs e.id = some f' ∧ f'.search = f.search ∧
        f'.opt.params = f.opt.params := by
  cases e with
  | new id dim params search =>
    rw [NlProgram.step, Res.pure_eq, Res.ok.injEq, Prod.mk.injEq] at hs
    obtain ⟨rfl, -⟩ := hs
    exact .inl ⟨id, dim, params, search, rfl, prog_put _ _ _ _⟩
  | setup id vs ts k c =>
    rw [NlProgram.step, Res.bind_eq_ok] at hs
    obtain ⟨f, h1, hs⟩ := hs
    rw [Res.bind_eq_ok] at hs
    obtain ⟨r, h2, hs⟩ := hs
    rw [Res.pure_eq, Res.ok.injEq, Prod.mk.injEq] at hs
    obtain ⟨rfl, -⟩ := hs
    refine .inr ⟨fun _ _ _ _ h0 => (by cases h0), f, r.1, prog_get.mp h1, prog_put _ _ _ _, ?_⟩
    unfold NlFull.setup at h2
    rw [Res.bind_eq_ok] at h2
    obtain ⟨o, h3, h2⟩ := h2
    rw [Res.pure_eq, Res.ok.injEq] at h2
    rw [← h2]
    refine ⟨rfl, ?_⟩
    unfold NlOpt.setupFromVertices at h3
    rw [Res.bind_eq_ok] at h3
    obtain ⟨l, -, h3⟩ := h3
    rw [Res.pure_eq, Res.ok.injEq] at h3
    rw [← h3]
  | solve id =>
    rw [NlProgram.step, Res.bind_eq_ok] at hs
    obtain ⟨f, h1, hs⟩ := hs
    rw [Res.bind_eq_ok] at hs
    obtain ⟨r, h2, hs⟩ := hs
    rw [Res.pure_eq, Res.ok.injEq, Prod.mk.injEq] at hs
    obtain ⟨rfl, -⟩ := hs
    refine .inr ⟨fun _ _ _ _ h0 => (by cases h0), f, r, prog_get.mp h1, prog_put _ _ _ _, ?_⟩
    unfold NlFull.solve at h2
    rw [Res.bind_eq_ok] at h2
    obtain ⟨o, h3, h2⟩ := h2
    rw [Res.pure_eq, Res.ok.injEq] at h2
    rw [← h2]
    refine ⟨rfl, ?_⟩
    unfold NlOpt.solveLinear at h3
    rw [Res.bind_eq_ok] at h3
    obtain ⟨l, -, h3⟩ := h3
    rw [Res.pure_eq, Res.ok.injEq] at h3
    rw [← h3]
  | add id d y =>
    rw [NlProgram.step, Res.bind_eq_ok] at hs
    obtain ⟨f, h1, hs⟩ := hs
    rw [Res.bind_eq_ok] at hs
    obtain ⟨r, h2, hs⟩ := hs
    rw [Res.pure_eq, Res.ok.injEq, Prod.mk.injEq] at hs
    obtain ⟨rfl, -⟩ := hs
    refine .inr ⟨fun _ _ _ _ h0 => (by cases h0), f, r.2, prog_get.mp h1, prog_put _ _ _ _, ?_⟩
    unfold NlFull.add at h2
    rw [Res.bind_eq_ok] at h2
    obtain ⟨o, h3, h2⟩ := h2
    rw [Res.pure_eq, Res.ok.injEq] at h2
    rw [← h2]
    refine ⟨rfl, ?_⟩
    generalize f.accepts X = acc at h3
    unfold NlOpt.addMaximumMagnitudeConstraint at h3
    rw [Res.bind_eq_ok] at h3
    obtain ⟨_, -, h3⟩ := h3
    rw [Res.bind_eq_ok] at h3
    obtain ⟨_, -, h3⟩ := h3
    dsimp only at h3
    split_ifs at h3
    · rw [Res.pure_eq, Res.ok.injEq] at h3
      rw [← h3]
    · cases hh : f.opt.handle with
      | none => rw [hh] at h3; cases h3
      | some hd =>
        rw [hh] at h3
        dsimp only at h3
        rw [Res.pure_eq, Res.ok.injEq] at h3
        rw [← h3]
    · cases hh : f.opt.handle with
      | none => rw [hh] at h3; cases h3
      | some hd =>
        rw [hh] at h3
        dsimp only at h3
        rw [Res.pure_eq, Res.ok.injEq] at h3
        rw [← h3]
  | optimize id =>
    rw [NlProgram.step, Res.bind_eq_ok] at hs
    obtain ⟨f, h1, hs⟩ := hs
    rw [Res.bind_eq_ok] at hs
    obtain ⟨r, h2, hs⟩ := hs
    rw [Res.pure_eq, Res.ok.injEq, Prod.mk.injEq] at hs
    obtain ⟨rfl, -⟩ := hs
    refine .inr ⟨fun _ _ _ _ h0 => (by cases h0), f, r.1.2, prog_get.mp h1, prog_put _ _ _ _, ?_⟩
    unfold NlFull.optimize at h2
    dsimp only at h2
    rw [Res.bind_eq_ok] at h2
    obtain ⟨o, h3, h2⟩ := h2
    rw [Res.pure_eq, Res.ok.injEq] at h2
    rw [← h2]
    exact ⟨rfl, (optimize_same (c := o.1) (o' := o.2) h3).params⟩

theorem step_seed {X : NloptLib S h K} {lib : NlLib h K} {w w' : NlProgram S h K} {e : ProgCall K} {x : ProgAnswer}
    (hs : w.step X lib e = .ok (w', x)) (hf : FixedSeed e) (hw : SeedFixed e.id w) : SeedFixed e.id w' := by
  rcases step_search hs with ⟨id, dim, params, search, rfl, h1⟩ | ⟨-, f, f', h1, h2, h3, -⟩
  · intro f hf'
    have h1 : w'.objs id = some f := hf'
    rename_i h0
    rw [h0, Option.some.injEq] at h1
    rw [← h1]
    exact hf
  · intro g hg
    rw [h2, Option.some.injEq] at hg
    rw [← hg, h3]
    exact hw f h1

/-- Calls on others that neither set up nor optimise do not matter. -/
theorem run_own {X : NloptLib S h K} {lib : NlLib h K} {id : ℕ} {es : List (ProgCall K)} :
    ∀ {w w' v : NlProgram S h K} {tr : List (ℕ × ProgAnswer)}, w.run X lib es = .ok (w', tr) → Undisturbed id es →
      (∀ e ∈ es, e.id = id → FixedSeed e) → ProgAgree id w v → SeedFixed id w →
      ∃ v', v.run X lib (callsOn id es) = .ok (v', answersOf id tr) ∧ ProgAgree id w' v' := by
  induction es with
  | nil =>
    intro w w' v tr hr _ _ ha _
    rw [NlProgram.run, Res.ok.injEq, Prod.mk.injEq] at hr
    obtain ⟨rfl, rfl⟩ := hr
    exact ⟨v, rfl, ha⟩
  | cons e es ih =>
    intro w w' v tr hr hu hfix ha hw
    obtain ⟨w1, x, tr', h1, h2, rfl⟩ := nlrun_cons hr
    have hu' : Undisturbed id es := fun e he => hu e (by simp [he])
    have hfix' : ∀ e ∈ es, e.id = id → FixedSeed e := fun e he => hfix e (by simp [he])
    by_cases hid : e.id = id
    · subst hid
      obtain ⟨v1, h3, h4⟩ := step_agree h1 ha hw rfl
      obtain ⟨v', h5, h6⟩ := ih h2 hu' hfix' h4 (step_seed h1 (hfix e (by simp) rfl) hw)
      refine ⟨v', ?_, h6⟩
      have e1 : callsOn e.id (e :: es) = e :: callsOn e.id es := by simp [callsOn]
      have e2 : answersOf e.id ((e.id, x) :: tr') = (e.id, x) :: answersOf e.id tr' := by simp [answersOf]
      rw [e1, e2]
      exact nlrun_cons_of h3 h5
    · obtain ⟨g1, g2⟩ := prog_step_other h1
      have hobj : w1.objs id = w.objs id := g1 id (fun h0 => hid h0.symm)
      have hgen : w1.gen = w.gen := by
        have h0 := (hu e (by simp)).resolve_left hid
        cases e <;> first | exact g2 trivial | exact h0.elim
      obtain ⟨v', h5, h6⟩ := ih (v := v) h2 hu' hfix' ⟨hobj.trans ha.1, hgen.trans ha.2⟩
        (fun f hf => hw f (by rw [← hobj]; exact hf))
      refine ⟨v', ?_, h6⟩
      have e1 : callsOn id (e :: es) = callsOn id es := by simp [callsOn, hid]
      have e2 : answersOf id ((e.id, x) :: tr') = answersOf id tr' := by simp [answersOf, hid]
      rw [e1, e2]
      exact h5

/-- The same calls on one optimiser, up to the clock. -/
theorem run_clock {X : NloptLib S h K} {lib : NlLib h K} {id : ℕ} {es : List (ProgCall K)} :
    ∀ {es' : List (ProgCall K)} {w w' v : NlProgram S h K} {tr : List (ℕ × ProgAnswer)}, w.run X lib es = .ok (w', tr) →
      (∀ e ∈ es, e.id = id) → (∀ e ∈ es, FixedSeed e) → ProgAgree id w v → SeedFixed id w →
      es.map withoutClock = es'.map withoutClock →
      ∃ v', v.run X lib es' = .ok (v', tr) ∧ ProgAgree id w' v' := by
  induction es with
  | nil =>
    intro es' w w' v tr hr _ _ ha _ he
    have : es' = [] := by simpa using he.symm
    subst this
    rw [NlProgram.run, Res.ok.injEq, Prod.mk.injEq] at hr
    obtain ⟨rfl, rfl⟩ := hr
    exact ⟨v, rfl, ha⟩
  | cons e es ih =>
    intro es' w w' v tr hr hid hfix ha hw he
    cases es' with
    | nil => simp at he
    | cons e' es' =>
      rw [List.map_cons, List.map_cons, List.cons.injEq] at he
      obtain ⟨w1, x, tr', h1, h2, rfl⟩ := nlrun_cons hr
      have hi : e.id = id := hid e (by simp)
      subst hi
      obtain ⟨v1, h3, h4⟩ := step_agree h1 ha hw he.1
      obtain ⟨v', h5, h6⟩ := ih h2 (fun a ha => hid a (by simp [ha])) (fun a ha => hfix a (by simp [ha])) h4
        (step_seed h1 (hfix e (by simp)) hw) he.2
      have hi' : e'.id = e.id := by
        have := he.1
        cases e <;> cases e' <;> simp [withoutClock] at this <;> simp [ProgCall.id, this]
      refine ⟨v', ?_, h6⟩
      rw [← hi']
      exact nlrun_cons_of h3 h5

theorem nlrun_append {X : NloptLib S h K} {lib : NlLib h K} {es es' : List (ProgCall K)} :
    ∀ {w w' : NlProgram S h K} {tr : List (ℕ × ProgAnswer)}, w.run X lib (es ++ es') = .ok (w', tr) →
      ∃ v tr1 tr2, w.run X lib es = .ok (v, tr1) ∧ v.run X lib es' = .ok (w', tr2) ∧ tr = tr1 ++ tr2 ∧
        tr1.length = es.length := by
  induction es with
  | nil => exact fun {w w' tr} hr => ⟨w, [], tr, rfl, hr, rfl, rfl⟩
  | cons e es ih =>
    intro w w' tr hr
    obtain ⟨w1, x, tr', h1, h2, rfl⟩ := nlrun_cons hr
    obtain ⟨v, tr1, tr2, h3, h4, rfl, h5⟩ := ih h2
    exact ⟨v, (e.id, x) :: tr1, tr2, nlrun_cons_of h1 h3, h4, rfl, by simp [h5]⟩

theorem nlrun_append_of {X : NloptLib S h K} {lib : NlLib h K} {es es' : List (ProgCall K)} :
    ∀ {w v w' : NlProgram S h K} {tr1 tr2 : List (ℕ × ProgAnswer)}, w.run X lib es = .ok (v, tr1) →
      v.run X lib es' = .ok (w', tr2) → w.run X lib (es ++ es') = .ok (w', tr1 ++ tr2) := by
  induction es with
  | nil =>
    intro w v w' tr1 tr2 h1 h2
    rw [NlProgram.run, Res.ok.injEq, Prod.mk.injEq] at h1
    obtain ⟨rfl, rfl⟩ := h1
    exact h2
  | cons e es ih =>
    intro w v w' tr1 tr2 h1 h2
    obtain ⟨w1, x, tr', h3, h4, rfl⟩ := nlrun_cons h1
    exact nlrun_cons_of h3 (ih h4 h2)

/-- Calls on others leave an optimiser as it is. -/
theorem run_untouched {X : NloptLib S h K} {lib : NlLib h K} {id : ℕ} {es : List (ProgCall K)} :
    ∀ {w w' : NlProgram S h K} {tr : List (ℕ × ProgAnswer)}, w.run X lib es = .ok (w', tr) → (∀ e ∈ es, e.id ≠ id) →
      w'.objs id = w.objs id ∧ answersOf id tr = [] := by
  induction es with
  | nil =>
    intro w w' tr hr _
    rw [NlProgram.run, Res.ok.injEq, Prod.mk.injEq] at hr
    obtain ⟨rfl, rfl⟩ := hr
    exact ⟨rfl, rfl⟩
  | cons e es ih =>
    intro w w' tr hr hid
    obtain ⟨w1, x, tr', h1, h2, rfl⟩ := nlrun_cons hr
    obtain ⟨a1, a2⟩ := ih h2 (fun a ha => hid a (by simp [ha]))
    have h3 := hid e (by simp)
    refine ⟨a1.trans ((prog_step_other h1).1 id (Ne.symm h3)), ?_⟩
    have : answersOf id ((e.id, x) :: tr') = answersOf id tr' := by simp [answersOf, h3]
    rw [this, a2]

/-- A set-up with a fixed seed: what it leaves depends on the optimiser and the arguments. -/
theorem setup_agree {X : NloptLib S h K} {lib : NlLib h K} {w w' v v' : NlProgram S h K} {id : ℕ}
    {vertices : List (Vertex K)} {times : List K} {k : ℤ} {c c' : ℕ} {x y : ProgAnswer}
    (hs : w.step X lib (.setup id vertices times k c) = .ok (w', x))
    (ht : v.step X lib (.setup id vertices times k c') = .ok (v', y)) (ha : w.objs id = v.objs id)
    (hf : SeedFixed id w) : ProgAgree id w' v' ∧ x = y := by
  have hget : v.get id = w.get id := by
    unfold NlProgram.get
    rw [ha]
  rw [NlProgram.step, Res.bind_eq_ok] at hs ht
  obtain ⟨f, h1, hs⟩ := hs
  obtain ⟨f', h1', ht⟩ := ht
  rw [hget, h1, Res.ok.injEq] at h1'
  subst h1'
  rw [Res.bind_eq_ok] at hs ht
  obtain ⟨r, h2, hs⟩ := hs
  obtain ⟨r', h2', ht⟩ := ht
  rw [Res.pure_eq, Res.ok.injEq, Prod.mk.injEq] at hs ht
  obtain ⟨rfl, rfl⟩ := hs
  obtain ⟨rfl, rfl⟩ := ht
  have hseed : ¬ f.search.randomSeed < 0 := not_lt.mpr (hf f (prog_get.mp h1))
  have : r' = r := by
    unfold NlFull.setup at h2 h2'
    rw [if_neg hseed] at h2 h2'
    rw [h2, Res.ok.injEq] at h2'
    exact h2'.symm
  subst this
  exact ⟨put_agree _ _ _ _ _, rfl⟩

/-- The settings that go with an optimiser. -/
def settingsOf (f : NlFull h K) : Option (NloptSettings K) :=
  f.opt.handle.map fun hd => ⟨f.search.algorithm, hd.n, f.search.fRel, f.search.fAbs, f.search.xRel, f.search.xAbs,
    f.search.maxIterations, List.replicate hd.hard.length f.search.inequalityTolerance⟩

/-- The settings after one call. -/
theorem step_settings {X : NloptLib S h K} {lib : NlLib h K} {w w' : NlProgram S h K} {e : ProgCall K} {x : ProgAnswer}
    (hs : w.step X lib e = .ok (w', x)) (hw : ∀ id f, w.objs id = some f → f.nlopt = settingsOf f) :
    ∀ id f, w'.objs id = some f → f.nlopt = settingsOf f := by
  have key : ∀ f', w'.objs e.id = some f' → f'.nlopt = settingsOf f' := by
    cases e with
    | new id dim params search =>
      rw [NlProgram.step, Res.pure_eq, Res.ok.injEq, Prod.mk.injEq] at hs
      obtain ⟨rfl, -⟩ := hs
      intro f' hf'
      change (w.put id _ _).objs id = _ at hf'
      rw [prog_put, Option.some.injEq] at hf'
      rw [← hf']
      rfl
    | setup id vs ts k c =>
      rw [NlProgram.step, Res.bind_eq_ok] at hs
      obtain ⟨f, h1, hs⟩ := hs
      rw [Res.bind_eq_ok] at hs
      obtain ⟨r, h2, hs⟩ := hs
      rw [Res.pure_eq, Res.ok.injEq, Prod.mk.injEq] at hs
      obtain ⟨rfl, -⟩ := hs
      intro f' hf'
      change (w.put id _ _).objs id = _ at hf'
      rw [prog_put, Option.some.injEq] at hf'
      rw [← hf']
      unfold NlFull.setup at h2
      rw [Res.bind_eq_ok] at h2
      obtain ⟨o, h3, h2⟩ := h2
      rw [Res.pure_eq, Res.ok.injEq] at h2
      rw [← h2]
      unfold NlOpt.setupFromVertices at h3
      rw [Res.bind_eq_ok] at h3
      obtain ⟨l, -, h3⟩ := h3
      rw [Res.pure_eq, Res.ok.injEq] at h3
      rw [← h3]
      rfl
    | solve id =>
      rw [NlProgram.step, Res.bind_eq_ok] at hs
      obtain ⟨f, h1, hs⟩ := hs
      rw [Res.bind_eq_ok] at hs
      obtain ⟨r, h2, hs⟩ := hs
      rw [Res.pure_eq, Res.ok.injEq, Prod.mk.injEq] at hs
      obtain ⟨rfl, -⟩ := hs
      intro f' hf'
      change (w.put id _ _).objs id = _ at hf'
      rw [prog_put, Option.some.injEq] at hf'
      rw [← hf']
      have hc := hw id f (prog_get.mp h1)
      unfold NlFull.solve at h2
      rw [Res.bind_eq_ok] at h2
      obtain ⟨o, h3, h2⟩ := h2
      rw [Res.pure_eq, Res.ok.injEq] at h2
      rw [← h2]
      unfold NlOpt.solveLinear at h3
      rw [Res.bind_eq_ok] at h3
      obtain ⟨l, -, h3⟩ := h3
      rw [Res.pure_eq, Res.ok.injEq] at h3
      rw [← h3]
      exact hc
    | add id d y =>
      rw [NlProgram.step, Res.bind_eq_ok] at hs
      obtain ⟨f, h1, hs⟩ := hs
      rw [Res.bind_eq_ok] at hs
      obtain ⟨r, h2, hs⟩ := hs
      rw [Res.pure_eq, Res.ok.injEq, Prod.mk.injEq] at hs
      obtain ⟨rfl, -⟩ := hs
      intro f' hf'
      change (w.put id _ _).objs id = _ at hf'
      rw [prog_put, Option.some.injEq] at hf'
      rw [← hf']
      have hc := hw id f (prog_get.mp h1)
      unfold NlFull.add at h2
      rw [Res.bind_eq_ok] at h2
      obtain ⟨o, h3, h2⟩ := h2
      rw [Res.pure_eq, Res.ok.injEq] at h2
      rw [← h2]
      generalize f.accepts X = acc at h3 ⊢
      unfold NlOpt.addMaximumMagnitudeConstraint at h3
      rw [Res.bind_eq_ok] at h3
      obtain ⟨_, -, h3⟩ := h3
      rw [Res.bind_eq_ok] at h3
      obtain ⟨_, -, h3⟩ := h3
      dsimp only at h3
      unfold settingsOf at hc ⊢
      by_cases hsoft : f.opt.params.useSoft = true
      · rw [if_pos hsoft, Res.pure_eq, Res.ok.injEq] at h3
        rw [← h3]
        simp [hsoft, hc]
      · rw [if_neg hsoft] at h3
        cases hh : f.opt.handle with
        | none => rw [hh] at h3; cases h3
        | some hd =>
          rw [hh] at h3 hc
          dsimp only at h3
          by_cases hacc : acc = true
          · rw [if_pos hacc, Res.pure_eq, Res.ok.injEq] at h3
            rw [← h3]
            simp [hsoft, hacc, hc, List.replicate_succ']
          · rw [if_neg hacc, Res.pure_eq, Res.ok.injEq] at h3
            rw [← h3]
            simp [hacc, hc, hh]
    | optimize id =>
      rw [NlProgram.step, Res.bind_eq_ok] at hs
      obtain ⟨f, h1, hs⟩ := hs
      rw [Res.bind_eq_ok] at hs
      obtain ⟨r, h2, hs⟩ := hs
      rw [Res.pure_eq, Res.ok.injEq, Prod.mk.injEq] at hs
      obtain ⟨rfl, -⟩ := hs
      intro f' hf'
      change (w.put id _ _).objs id = _ at hf'
      rw [prog_put, Option.some.injEq] at hf'
      rw [← hf']
      have hc := hw id f (prog_get.mp h1)
      unfold NlFull.optimize at h2
      dsimp only at h2
      rw [Res.bind_eq_ok] at h2
      obtain ⟨o, h3, h2⟩ := h2
      rw [Res.pure_eq, Res.ok.injEq] at h2
      rw [← h2]
      have hsame := optimize_same (c := o.1) (o' := o.2) h3
      unfold settingsOf at hc ⊢
      dsimp only
      rw [hsame.handle]
      exact hc
  intro id f hf
  by_cases hid : id = e.id
  · subst hid
    exact key f hf
  · exact hw id f (by rw [← (prog_step_other hs).1 id hid]; exact hf)

/-- The parameters and settings after a sequence of calls. -/
theorem run_settings {X : NloptLib S h K} {lib : NlLib h K} {es : List (ProgCall K)} :
    ∀ {w w' : NlProgram S h K} {tr : List (ℕ × ProgAnswer)}, w.run X lib es = .ok (w', tr) →
      (∀ id f, w.objs id = some f → f.nlopt = settingsOf f) →
      (∀ id f, w'.objs id = some f → f.nlopt = settingsOf f) ∧
      ∀ id, (w'.objs id).map (fun f => (f.opt.params, f.search)) =
        es.foldl (fun r e => match e with
          | .new i _ params search => if i = id then some (params, search) else r
          | _ => r) ((w.objs id).map fun f => (f.opt.params, f.search)) := by
  induction es with
  | nil =>
    intro w w' tr hr hw
    rw [NlProgram.run, Res.ok.injEq, Prod.mk.injEq] at hr
    obtain ⟨rfl, rfl⟩ := hr
    exact ⟨hw, fun _ => rfl⟩
  | cons e es ih =>
    intro w w' tr hr hw
    obtain ⟨w1, x, tr', h1, h2, rfl⟩ := nlrun_cons hr
    obtain ⟨a1, a2⟩ := ih h2 (step_settings h1 hw)
    refine ⟨a1, fun id => ?_⟩
    rw [a2 id, List.foldl_cons]
    congr 1
    by_cases hid : id = e.id
    · rcases step_search h1 with ⟨i, dim, params, search, rfl, h3⟩ | ⟨hn, f, f', h3, h4, h5, h6⟩
      · have : id = i := hid
        subst this
        rw [h3]
        simp [NlFull.new, NlOpt.new]
      · rw [hid, h4, h3, Option.map_some, Option.map_some, h5, h6]
        cases e with
        | new i dim params search => exact absurd rfl (hn i dim params search)
        | _ => rfl
    · rw [(prog_step_other h1).1 id hid]
      cases e with
      | new i dim params search =>
        have : i ≠ id := fun h0 => hid h0.symm
        simp [this]
      | _ => rfl

/-- The number of evaluations an optimisation reports is at most the number NLopt made. -/
theorem optimize_reported {lib : NlLib h K} {o o' : NlOpt h K} {run : NlRun K} {c : ℤ}
    (ho : o.optimize lib run = .ok (c, o')) : o'.info.nIterations ≤ (points run.queries).length := by
  unfold NlOpt.optimize at ho
  dsimp only at ho
  by_cases hu : o.params.method = .unknown
  · rw [if_pos hu, Res.pure_eq, Res.ok_bind, Res.pure_eq, Res.ok.injEq, Prod.mk.injEq] at ho
    obtain ⟨rfl, rfl⟩ := ho
    exact Nat.zero_le _
  rw [if_neg hu, Res.bind_eq_ok] at ho
  obtain ⟨⟨c', o2⟩, ho, he⟩ := ho
  rw [Res.pure_eq, Res.ok.injEq, Prod.mk.injEq] at he
  obtain ⟨rfl, rfl⟩ := he
  change o2.info.nIterations ≤ _
  unfold NlOpt.optimizeWith at ho
  rw [Res.bind_eq_ok] at ho
  obtain ⟨⟨p, a⟩, hp, ho⟩ := ho
  have e1 : p.info.nIterations = 0 := by
    rcases prepare_cases hp with ⟨hd', hh', hm', rfl, rfl⟩ | ⟨hd', hh', hm', rfl, rfl⟩ |
      ⟨hd', l, hh', hm', hl, rfl, ha⟩ <;> rfl
  by_cases hst : run.setupThrows = true
  · rw [if_pos hst, Res.pure_eq, Res.ok.injEq, Prod.mk.injEq] at ho
    obtain ⟨rfl, rfl⟩ := ho
    change p.info.nIterations ≤ _
    rw [e1]
    exact Nat.zero_le _
  rw [if_neg hst, Res.bind_eq_ok] at ho
  obtain ⟨⟨ys, o3⟩, hans, ho⟩ := ho
  have e2 := answers_count hans
  dsimp only at ho e2
  rw [e1, Nat.zero_add] at e2
  by_cases hme : o.params.method = .mellingerOuterLoop
  · rw [if_pos hme] at ho
    by_cases hcode : run.code = none ∧ run.wroteCost = false
    · rw [if_pos hcode, Res.pure_eq, Res.ok.injEq, Prod.mk.injEq] at ho
      obtain ⟨rfl, rfl⟩ := ho
      exact e2.le
    · rw [if_neg hcode, Res.bind_eq_ok] at ho
      obtain ⟨o4, h4, ho⟩ := ho
      rw [Res.pure_eq, Res.ok.injEq, Prod.mk.injEq] at ho
      obtain ⟨rfl, rfl⟩ := ho
      have : o4.info = o3.info := by
        unfold NlOpt.scaleWithViolation at h4
        rw [Res.bind_eq_ok] at h4
        obtain ⟨tr, htr, h4⟩ := h4
        dsimp only at h4
        split_ifs at h4 with hz
        rw [Res.bind_eq_ok] at h4
        obtain ⟨r, hr, h4⟩ := h4
        rw [Res.bind_eq_ok] at h4
        obtain ⟨l1, h1, h4⟩ := h4
        rw [Res.bind_eq_ok] at h4
        obtain ⟨l2, h2, h4⟩ := h4
        rw [Res.pure_eq, Res.ok.injEq] at h4
        rw [← h4]
      rw [this]
      exact e2.le
  · rw [if_neg hme, Res.pure_eq, Res.ok.injEq, Prod.mk.injEq] at ho
    obtain ⟨rfl, rfl⟩ := ho
    exact e2.le

end Verif
