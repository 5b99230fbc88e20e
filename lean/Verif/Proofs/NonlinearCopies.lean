import Verif.Spec.NonlinearCopies

/-! Proofs for property C110: programs with several optimisers. -/

set_option linter.unusedSectionVars false

namespace Verif

open Spec

variable {K : Type} {h : ℕ}

/-- All pointers of an object are to itself or to an NLopt object of its own; copies with soft limits may
share an NLopt object, as no constraint is ever added to it. -/
structure NlHeap.Separate (H : NlHeap h K) : Prop where
  own : ∀ (a : ℕ) (c : NlCell h K), H.cells[a]? = some (some c) → ∀ l ∈ c.limits, l.1 = a
  live : ∀ (a : ℕ) (c : NlCell h K) (r : ℕ), H.cells[a]? = some (some c) → c.handle = some r → ∃ s, H.shared[r]? = some s
  soft : ∀ (a : ℕ) (c : NlCell h K) (r : ℕ) (s : NlShared K), H.cells[a]? = some (some c) → c.handle = some r → H.shared[r]? = some s →
    c.params.useSoft = true → s.hard = []
  hardOwn : ∀ (a : ℕ) (c : NlCell h K) (r : ℕ) (s : NlShared K), H.cells[a]? = some (some c) → c.handle = some r → H.shared[r]? = some s →
    c.params.useSoft = false → ∀ l ∈ s.hard, l.1 = a
  alone : ∀ (a b : ℕ) (c c' : NlCell h K) (r : ℕ), H.cells[a]? = some (some c) → H.cells[b]? = some (some c') →
    c.handle = some r → c'.handle = some r → c.params.useSoft = false → a = b

theorem heap_get_ok {H : NlHeap h K} {a : ℕ} {c : NlCell h K} :
    H.get a = .ok c ↔ H.cells[a]? = some (some c) := by
  unfold NlHeap.get
  split <;> simp_all

theorem world_get (H : NlHeap h K) (a : ℕ) : worldGet H.world a = H.view <$> H.get a := by
  unfold worldGet NlHeap.get NlHeap.world
  rw [List.getElem?_map]
  rcases H.cells[a]? with _ | _ | c <;> rfl

theorem heap_put_cell {H : NlHeap h K} {a : ℕ} {c c' : NlCell h K} (hc : H.cells[a]? = some (some c)) :
    (H.put a c').cells[a]? = some (some c') := by
  obtain ⟨h1, -⟩ := List.getElem?_eq_some_iff.mp hc
  unfold NlHeap.put
  dsimp only
  rw [List.getElem?_set_self h1]

theorem heap_put_other {H : NlHeap h K} {a b : ℕ} {c' : NlCell h K} (hb : a ≠ b) :
    (H.put a c').cells[b]? = H.cells[b]? := by
  unfold NlHeap.put
  dsimp only
  rw [List.getElem?_set_ne hb]

theorem heap_put_put (H : NlHeap h K) (a : ℕ) (c c' : NlCell h K) : (H.put a c).put a c' = H.put a c' := by
  unfold NlHeap.put
  dsimp only
  rw [List.set_set]

theorem heap_put_world (H : NlHeap h K) (a : ℕ) (c : NlCell h K) :
    (H.put a c).world = H.world.set a (some (H.view c)) := by
  unfold NlHeap.world NlHeap.put
  dsimp only
  rw [List.map_set]
  rfl

theorem NlHeap.Separate.put {H : NlHeap h K} (hH : H.Separate) {a : ℕ} {c c' : NlCell h K}
    (hc : H.cells[a]? = some (some c)) (h1 : c'.handle = c.handle) (h2 : c'.params = c.params)
    (h3 : ∀ l ∈ c'.limits, l.1 = a) : (H.put a c').Separate := by
  have key : ∀ (b : ℕ) (d : NlCell h K), (H.put a c').cells[b]? = some (some d) →
      (b = a ∧ d = c') ∨ (b ≠ a ∧ H.cells[b]? = some (some d)) := by
    intro b d hd
    by_cases hb : b = a
    · subst hb
      rw [heap_put_cell hc] at hd
      exact .inl ⟨rfl, by simpa using hd.symm⟩
    · rw [heap_put_other (Ne.symm hb)] at hd
      exact .inr ⟨hb, hd⟩
  refine ⟨?_, ?_, ?_, ?_, ?_⟩
  · intro b d hd
    rcases key b d hd with ⟨rfl, rfl⟩ | ⟨-, hd⟩
    · exact h3
    · exact hH.own b d hd
  · intro b d r hd hr
    rcases key b d hd with ⟨rfl, rfl⟩ | ⟨-, hd⟩
    · exact hH.live b c r hc (h1 ▸ hr)
    · exact hH.live b d r hd hr
  · intro b d r s hd hr hs
    rcases key b d hd with ⟨rfl, rfl⟩ | ⟨-, hd⟩
    · rw [h2]
      exact hH.soft b c r s hc (h1 ▸ hr) hs
    · exact hH.soft b d r s hd hr hs
  · intro b d r s hd hr hs
    rcases key b d hd with ⟨rfl, rfl⟩ | ⟨-, hd⟩
    · rw [h2]
      exact hH.hardOwn b c r s hc (h1 ▸ hr) hs
    · exact hH.hardOwn b d r s hd hr hs
  · intro b b' d d' r hd hd' hr hr' hp
    rcases key b d hd with ⟨rfl, rfl⟩ | ⟨-, hd⟩ <;> rcases key b' d' hd' with ⟨rfl, rfl⟩ | ⟨-, hd'⟩
    · rfl
    · exact hH.alone b b' c d' r hc hd' (h1 ▸ hr) hr' (h2 ▸ hp)
    · exact hH.alone b b' d c r (by assumption) hc hr (h1 ▸ hr') hp
    · exact hH.alone b b' d d' r hd hd' hr hr' hp

variable [Field K] [LinearOrder K]

/-- A limit that belongs to the object `a` is evaluated as for the object on its own. -/
theorem heap_evaluate {lib : NlLib h K} {H : NlHeap h K} {a : ℕ} {c : NlCell h K} {l : ℕ × Limit K}
    (hc : H.cells[a]? = some (some c)) (hl : l.1 = a) :
    H.evaluateLimit lib l =
      (fun r => (r.1, H.put a { c with info := r.2.info })) <$> (H.view c).evaluateConstraint lib l.2 := by
  subst hl
  unfold NlHeap.evaluateLimit NlOpt.evaluateConstraint
  rw [heap_get_ok.mpr hc, Res.ok_bind]
  show (c.lin.computeMaximumOfMagnitude lib.rf lib.sq l.2.derivative >>= _) =
    _ <$> (c.lin.computeMaximumOfMagnitude lib.rf lib.sq l.2.derivative >>= _)
  cases c.lin.computeMaximumOfMagnitude lib.rf lib.sq l.2.derivative <;> rfl

theorem evaluateConstraint_info {lib : NlLib h K} {o : NlOpt h K} {l : Limit K} {r : K × NlOpt h K}
    (hr : o.evaluateConstraint lib l = .ok r) : r.2 = { o with info := r.2.info } := by
  unfold NlOpt.evaluateConstraint at hr
  rw [Res.bind_eq_ok] at hr
  obtain ⟨m, -, hr⟩ := hr
  rw [Res.pure_eq, Res.ok.injEq] at hr
  subst hr
  rfl

theorem softCost_info {lib : NlLib h K} {w m : K} : ∀ (ls : List (Limit K)) (acc : K) (o : NlOpt h K)
    (r : K × NlOpt h K), softCost lib w m ls acc o = .ok r → r.2 = { o with info := r.2.info }
  | [], acc, o, r, hr => by
    rw [softCost, Res.ok.injEq] at hr
    subst hr
    rfl
  | l :: ls, acc, o, r, hr => by
    rw [softCost, Res.bind_eq_ok] at hr
    obtain ⟨q, hq, hr⟩ := hr
    have h1 := evaluateConstraint_info hq
    have h2 := softCost_info ls _ _ r hr
    rw [h2, h1]

theorem heap_soft {lib : NlLib h K} {w m : K} {a : ℕ} : ∀ (ls : List (ℕ × Limit K)) (acc : K)
    (H : NlHeap h K) (c : NlCell h K), H.cells[a]? = some (some c) → (∀ l ∈ ls, l.1 = a) →
    NlHeap.softCost lib w m ls acc H =
      (fun r => (r.1, H.put a { c with info := r.2.info })) <$>
        softCost lib w m (ls.map (·.2)) acc (H.view c)
  | [], acc, H, c, hc, _ => by
    show Res.ok (acc, H) = .ok (acc, H.put a c)
    have : H.put a c = H := by
      unfold NlHeap.put
      obtain ⟨h1, h2⟩ := List.getElem?_eq_some_iff.mp hc
      rw [← h2, List.set_getElem_self]
    rw [this]
  | l :: ls, acc, H, c, hc, hl => by
    rw [NlHeap.softCost, heap_evaluate hc (hl l (by simp)), List.map_cons, softCost]
    rcases hq : (H.view c).evaluateConstraint lib l.2 with q | _ | _ | _ | _ <;> try rfl
    rw [Res.map_ok, Res.ok_bind, Res.ok_bind]
    dsimp only
    rw [heap_soft ls _ _ _ (heap_put_cell (c' := { c with info := q.2.info }) hc)
      fun l' hl' => hl l' (by simp [hl'])]
    have h1 : (H.put a { c with info := q.2.info }).view { c with info := q.2.info } = q.2 := by
      rw [evaluateConstraint_info hq]
      rfl
    rw [h1]
    congr 1
    funext r
    rw [heap_put_put]

/-- The relation between the outcomes of a call in the two models. -/
theorem heap_total {lib : NlLib h K} {H : NlHeap h K} (hH : H.Separate) {a : ℕ} {c : NlCell h K}
    (hc : H.cells[a]? = some (some c)) (times : List K) (richter : Bool) :
    H.totalCost lib a times richter =
      (fun r => (r.1, H.put a { c with info := r.2.info })) <$>
        NlOpt.totalCost lib (H.view c) times richter := by
  unfold NlHeap.totalCost NlOpt.totalCost
  rw [heap_get_ok.mpr hc, Res.ok_bind]
  show (c.lin.computeCost >>= _) = _ <$> (c.lin.computeCost >>= _)
  rcases c.lin.computeCost with cost | _ | _ | _ | _ <;> try rfl
  rw [Res.ok_bind, Res.ok_bind]
  dsimp only
  by_cases hs : c.params.useSoft = true
  · rw [if_pos hs, if_pos (show (H.view c).params.useSoft = true from hs),
      heap_soft c.limits 0 H c hc (hH.own a c hc)]
    show _ = _ <$> (softCost lib c.params.softWeight (10 ^ 12) (c.limits.map (·.2)) 0 (H.view c) >>= _)
    generalize softCost lib c.params.softWeight (10 ^ 12) (c.limits.map (·.2)) 0 (H.view c) = q
    rcases q with q | _ | _ | _ | _ <;> try rfl
    rw [Res.map_ok, Res.ok_bind, Res.ok_bind]
    dsimp only
    rw [heap_get_ok.mpr (heap_put_cell hc), Res.ok_bind, heap_put_put]
    rfl
  · rw [if_neg hs, if_neg (show ¬ (H.view c).params.useSoft = true from hs), Res.pure_eq, Res.pure_eq,
      Res.ok_bind, Res.ok_bind]
    dsimp only
    rw [heap_get_ok.mpr hc, Res.ok_bind]
    rfl

theorem totalCost_info {lib : NlLib h K} {o : NlOpt h K} {times : List K} {richter : Bool}
    {r : K × NlOpt h K} (hr : NlOpt.totalCost lib o times richter = .ok r) :
    r.2 = { o with info := r.2.info } := by
  unfold NlOpt.totalCost at hr
  rw [Res.bind_eq_ok] at hr
  obtain ⟨cost, -, hr⟩ := hr
  dsimp only at hr
  by_cases h1 : o.params.useSoft = true
  · rw [if_pos h1, Res.bind_eq_ok] at hr
    obtain ⟨s, hs, hr⟩ := hr
    rw [Res.pure_eq, Res.ok.injEq] at hr
    subst hr
    dsimp only
    rw [softCost_info _ _ _ _ hs]
  · rw [if_neg h1, Res.pure_eq, Res.ok_bind, Res.pure_eq, Res.ok.injEq] at hr
    subst hr
    rfl

theorem heap_objective {lib : NlLib h K} {H : NlHeap h K} (hH : H.Separate) {a : ℕ} {c : NlCell h K}
    (hc : H.cells[a]? = some (some c)) (x : List K) (grad : Bool) :
    H.objective lib a x grad =
      (fun r => (r.1, H.put a { c with lin := r.2.lin, info := r.2.info })) <$>
        NlOpt.objective lib c.params.method (H.view c) x grad := by
  have tail : ∀ (lin2 : LinOpt h K) (times : List K) (richter : Bool),
      (H.put a { c with lin := lin2 }).totalCost lib a times richter =
        (fun r => (r.1, H.put a { c with lin := r.2.lin, info := r.2.info })) <$>
          NlOpt.totalCost lib { H.view c with lin := lin2 } times richter := by
    intro lin2 times richter
    rw [heap_total (hH.put (c' := { c with lin := lin2 }) hc rfl rfl (hH.own a c hc)) (heap_put_cell hc)]
    show _ <$> NlOpt.totalCost lib { H.view c with lin := lin2 } times richter = _
    rcases hq : NlOpt.totalCost lib { H.view c with lin := lin2 } times richter with q | _ | _ | _ | _ <;> try rfl
    have h1 := totalCost_info hq
    rw [Res.map_ok, Res.map_ok, heap_put_put]
    have h2 : q.2.lin = lin2 := by rw [h1]
    rw [h2]
  unfold NlHeap.objective
  rw [heap_get_ok.mpr hc, Res.ok_bind]
  have htime : (do
      Res.check (grad = false)
      Res.check (x.length = c.lin.nSegments)
      let lin1 ← c.lin.updateSegmentTimes lib.inv x
      let lin2 ← lin1.solveLinear lib.solve
      (H.put a { c with lin := lin2 }).totalCost lib a x (c.params.method = .richterTime)) =
      (fun r => (r.1, H.put a { c with lin := r.2.lin, info := r.2.info })) <$>
        (H.view c).objectiveTime lib x grad := by
    unfold NlOpt.objectiveTime
    by_cases h1 : grad = false
    swap
    · rw [Res.check_of_not h1]; rfl
    rw [Res.check_of h1, Res.ok_bind, Res.ok_bind]
    show (Res.check (x.length = c.lin.nSegments) >>= _) = _ <$> (Res.check (x.length = c.lin.nSegments) >>= _)
    by_cases h2 : x.length = c.lin.nSegments
    swap
    · rw [Res.check_of_not h2]; rfl
    rw [Res.check_of h2, Res.ok_bind, Res.ok_bind]
    show (c.lin.updateSegmentTimes lib.inv x >>= _) = _ <$> (c.lin.updateSegmentTimes lib.inv x >>= _)
    rcases c.lin.updateSegmentTimes lib.inv x with l1 | _ | _ | _ | _ <;> try rfl
    rw [Res.ok_bind, Res.ok_bind]
    rcases l1.solveLinear lib.solve with l2 | _ | _ | _ | _ <;> try rfl
    rw [Res.ok_bind, Res.ok_bind]
    exact tail l2 x _
  have hfull : (do
      Res.check (grad = false)
      let nSeg := c.lin.nSegments
      let nFree := c.lin.nFree
      Res.check (x.length = nSeg + nFree * c.lin.dimension)
      let times := x.take nSeg
      let free := (List.range c.lin.dimension).map fun d => (x.drop (nSeg + d * nFree)).take nFree
      let lin1 ← c.lin.updateSegmentTimes lib.inv times
      let lin2 ← lin1.setFreeConstraints free
      (H.put a { c with lin := lin2 }).totalCost lib a times
        (c.params.method = .richterTimeAndConstraints)) =
      (fun r => (r.1, H.put a { c with lin := r.2.lin, info := r.2.info })) <$>
        (H.view c).objectiveFull lib x grad := by
    unfold NlOpt.objectiveFull
    by_cases h1 : grad = false
    swap
    · rw [Res.check_of_not h1]; rfl
    rw [Res.check_of h1, Res.ok_bind, Res.ok_bind]
    dsimp only
    show (Res.check (x.length = c.lin.nSegments + c.lin.nFree * c.lin.dimension) >>= _) =
      _ <$> (Res.check (x.length = c.lin.nSegments + c.lin.nFree * c.lin.dimension) >>= _)
    by_cases h2 : x.length = c.lin.nSegments + c.lin.nFree * c.lin.dimension
    swap
    · rw [Res.check_of_not h2]; rfl
    rw [Res.check_of h2, Res.ok_bind, Res.ok_bind]
    show (c.lin.updateSegmentTimes lib.inv (x.take c.lin.nSegments) >>= _) =
      _ <$> (c.lin.updateSegmentTimes lib.inv (x.take c.lin.nSegments) >>= _)
    rcases c.lin.updateSegmentTimes lib.inv (x.take c.lin.nSegments) with l1 | _ | _ | _ | _ <;> try rfl
    rw [Res.ok_bind, Res.ok_bind]
    show (l1.setFreeConstraints ((List.range c.lin.dimension).map fun d =>
        (x.drop (c.lin.nSegments + d * c.lin.nFree)).take c.lin.nFree) >>= _) =
      _ <$> (l1.setFreeConstraints ((List.range c.lin.dimension).map fun d =>
        (x.drop (c.lin.nSegments + d * c.lin.nFree)).take c.lin.nFree) >>= _)
    rcases l1.setFreeConstraints ((List.range c.lin.dimension).map fun d =>
      (x.drop (c.lin.nSegments + d * c.lin.nFree)).take c.lin.nFree) with l2 | _ | _ | _ | _ <;> try rfl
    rw [Res.ok_bind, Res.ok_bind]
    exact tail l2 _ _
  have hmel : (do
      let r ← (H.view c).objectiveMellinger lib x grad
      pure (r.1, H.put a { c with lin := r.2.2.lin, info := r.2.2.info }) : Res (K × NlHeap h K)) =
      (fun r => (r.1, H.put a { c with lin := r.2.lin, info := r.2.info })) <$> (do
        let r ← (H.view c).objectiveMellinger lib x grad
        pure (r.1, r.2.2) : Res (K × NlOpt h K)) := by
    rcases (H.view c).objectiveMellinger lib x grad with q | _ | _ | _ | _ <;> rfl
  unfold NlOpt.objective
  cases hm : c.params.method
  · rw [hm] at htime; exact htime
  · rw [hm] at htime; exact htime
  · exact hmel
  · rw [hm] at hfull; exact hfull
  · rw [hm] at hfull; exact hfull
  · rw [hm] at hfull; exact hfull

theorem heap_get_cases (H : NlHeap h K) (a : ℕ) :
    (∃ c, H.cells[a]? = some (some c) ∧ H.get a = .ok c) ∨ H.get a = .ub := by
  unfold NlHeap.get
  rcases H.cells[a]? with _ | _ | c
  · exact .inr rfl
  · exact .inr rfl
  · exact .inl ⟨c, rfl, rfl⟩

/-- A call has the same outcome in both models, and pointers stay separate. -/
def Agrees (x : Res (NlOut K × NlHeap h K)) (y : Res (NlOut K × NlWorld h K)) : Prop :=
  (fun r => (r.1, r.2.world)) <$> x = y ∧ ∀ r, x = .ok r → r.2.Separate

theorem agrees_put {β : Type} {H : NlHeap h K} (hH : H.Separate) {a : ℕ} {c : NlCell h K}
    (hc : H.cells[a]? = some (some c)) {X : Res β} {out : β → NlOut K} {c' : β → NlCell h K}
    {o' : β → NlOpt h K} (hv : ∀ r, X = .ok r → H.view (c' r) = o' r)
    (hh : ∀ r, X = .ok r → (c' r).handle = c.handle) (hp : ∀ r, X = .ok r → (c' r).params = c.params)
    (hl : ∀ r, X = .ok r → ∀ l ∈ (c' r).limits, l.1 = a) :
    Agrees ((fun r => (out r, H.put a (c' r))) <$> X)
      ((fun r => (out r, H.world.set a (some (o' r)))) <$> X) := by
  rcases X with x | _ | _ | _ | _
  · refine ⟨?_, ?_⟩
    · rw [Res.map_ok, Res.map_ok, Res.map_ok, heap_put_world, hv x rfl]
    · rintro r hr
      rw [Res.map_ok, Res.ok.injEq] at hr
      subst hr
      exact hH.put hc (hh x rfl) (hp x rfl) (hl x rfl)
  all_goals exact ⟨rfl, fun r hr => by cases hr⟩

theorem agrees_ub : Agrees (h := h) (K := K) .ub .ub :=
  ⟨rfl, fun r hr => by cases hr⟩

theorem agrees_abort : Agrees (h := h) (K := K) .abort .abort :=
  ⟨rfl, fun r hr => by cases hr⟩

/-- Appending an object whose pointers are separate from the others. -/
theorem NlHeap.Separate.append {H : NlHeap h K} (hH : H.Separate) {c : NlCell h K} (hl : c.limits = [])
    (hc : c.handle = none ∨ c.params.useSoft = true ∧ ∃ (a : ℕ) (d : NlCell h K), H.cells[a]? = some (some d) ∧
      d.handle = c.handle ∧ d.params = c.params) :
    ({ H with cells := H.cells ++ [some c] } : NlHeap h K).Separate := by
  have key : ∀ (b : ℕ) (d : NlCell h K), (H.cells ++ [some c])[b]? = some (some d) →
      H.cells[b]? = some (some d) ∨ d = c := by
    intro b d hd
    rcases lt_or_ge b H.cells.length with h1 | h1
    · rw [List.getElem?_append_left h1] at hd
      exact .inl hd
    · rw [List.getElem?_append_right h1] at hd
      rcases Nat.eq_zero_or_pos (b - H.cells.length) with h2 | h2
      · rw [h2] at hd
        exact .inr (by simpa using hd.symm)
      · rw [List.getElem?_eq_none (by simp only [List.length_singleton]; omega)] at hd
        cases hd
  refine ⟨?_, ?_, ?_, ?_, ?_⟩
  · intro b d hd
    rcases key b d hd with hd | rfl
    · exact hH.own b d hd
    · rw [hl]
      simp
  · intro b d r hd hr
    rcases key b d hd with hd | rfl
    · exact hH.live b d r hd hr
    · rcases hc with hc | ⟨-, a, e, he, h1, -⟩
      · rw [hc] at hr
        cases hr
      · exact hH.live a e r he (h1.trans hr)
  · intro b d r s hd hr hs hp
    rcases key b d hd with hd | rfl
    · exact hH.soft b d r s hd hr hs hp
    · rcases hc with hc | ⟨-, a, e, he, h1, h2⟩
      · rw [hc] at hr
        cases hr
      · exact hH.soft a e r s he (h1.trans hr) hs (h2 ▸ hp)
  · intro b d r s hd hr hs hp
    rcases key b d hd with hd | rfl
    · exact hH.hardOwn b d r s hd hr hs hp
    · rcases hc with hc | ⟨h1, -⟩
      · rw [hc] at hr
        cases hr
      · rw [h1] at hp
        cases hp
  · intro b b' d d' r hd hd' hr hr' hp
    rcases key b d hd with hd₁ | rfl
    · clear hd
      rcases key b' d' hd' with hd' | rfl
      · exact hH.alone b b' d d' r hd₁ hd' hr hr' hp
      · rcases hc with hc | ⟨h1, a, e, he, h2, h3⟩
        · rw [hc] at hr'
          cases hr'
        · have h4 := hH.alone b a d e r hd₁ he hr (h2.trans hr') hp
          subst h4
          rw [hd₁] at he
          simp only [Option.some.injEq] at he
          subst he
          rw [h3, h1] at hp
          cases hp
    · rcases hc with hc | ⟨h1, -⟩
      · rw [hc] at hr
        cases hr
      · rw [h1] at hp
        cases hp

/-- The same for an object that takes the place of another one. -/
theorem NlHeap.Separate.assign {H : NlHeap h K} (hH : H.Separate) (b₀ : ℕ) {c : NlCell h K} (hl : c.limits = [])
    (hc : c.handle = none ∨ c.params.useSoft = true ∧ ∃ (a : ℕ) (d : NlCell h K), H.cells[a]? = some (some d) ∧
      d.handle = c.handle ∧ d.params = c.params) :
    ({ H with cells := H.cells.set b₀ (some c) } : NlHeap h K).Separate := by
  have key : ∀ (b : ℕ) (d : NlCell h K), (H.cells.set b₀ (some c))[b]? = some (some d) →
      H.cells[b]? = some (some d) ∨ d = c := by
    intro b d hd
    by_cases hb : b₀ = b
    · subst hb
      rw [List.getElem?_set_self'] at hd
      rcases h1 : H.cells[b₀]? with _ | x
      · rw [h1] at hd
        cases hd
      · rw [h1] at hd
        exact .inr (by simpa using hd.symm)
    · rw [List.getElem?_set_ne hb] at hd
      exact .inl hd
  refine ⟨?_, ?_, ?_, ?_, ?_⟩
  · intro b d hd
    rcases key b d hd with hd | rfl
    · exact hH.own b d hd
    · rw [hl]
      simp
  · intro b d r hd hr
    rcases key b d hd with hd | rfl
    · exact hH.live b d r hd hr
    · rcases hc with hc | ⟨-, a, e, he, h1, -⟩
      · rw [hc] at hr
        cases hr
      · exact hH.live a e r he (h1.trans hr)
  · intro b d r s hd hr hs hp
    rcases key b d hd with hd | rfl
    · exact hH.soft b d r s hd hr hs hp
    · rcases hc with hc | ⟨-, a, e, he, h1, h2⟩
      · rw [hc] at hr
        cases hr
      · exact hH.soft a e r s he (h1.trans hr) hs (h2 ▸ hp)
  · intro b d r s hd hr hs hp
    rcases key b d hd with hd | rfl
    · exact hH.hardOwn b d r s hd hr hs hp
    · rcases hc with hc | ⟨h1, -⟩
      · rw [hc] at hr
        cases hr
      · rw [h1] at hp
        cases hp
  · intro b b' d d' r hd hd' hr hr' hp
    rcases key b d hd with hd₁ | rfl
    · clear hd
      rcases key b' d' hd' with hd' | rfl
      · exact hH.alone b b' d d' r hd₁ hd' hr hr' hp
      · rcases hc with hc | ⟨h1, a, e, he, h2, h3⟩
        · rw [hc] at hr'
          cases hr'
        · have h4 := hH.alone b a d e r hd₁ he hr (h2.trans hr') hp
          subst h4
          rw [hd₁] at he
          simp only [Option.some.injEq] at he
          subst he
          rw [h3, h1] at hp
          cases hp
    · rcases hc with hc | ⟨h1, -⟩
      · rw [hc] at hr
        cases hr
      · rw [h1] at hp
        cases hp

theorem heap_append_world (H : NlHeap h K) (c : NlCell h K) :
    ({ H with cells := H.cells ++ [some c] } : NlHeap h K).world = H.world ++ [some (H.view c)] := by
  unfold NlHeap.world
  dsimp only
  rw [List.map_append]
  rfl

theorem NlHeap.Separate.destroy {H : NlHeap h K} (hH : H.Separate) (a : ℕ) :
    ({ H with cells := H.cells.set a none } : NlHeap h K).Separate := by
  have key : ∀ (b : ℕ) (d : NlCell h K), (H.cells.set a none)[b]? = some (some d) → H.cells[b]? = some (some d) := by
    intro b d hd
    by_cases hb : a = b
    · subst hb
      rw [List.getElem?_set_self'] at hd
      rcases h1 : H.cells[a]? with _ | x
      · rw [h1] at hd
        cases hd
      · rw [h1] at hd
        cases hd
    · rwa [List.getElem?_set_ne hb] at hd
  exact ⟨fun b d hd => hH.own b d (key b d hd), fun b d r hd => hH.live b d r (key b d hd),
    fun b d r s hd => hH.soft b d r s (key b d hd), fun b d r s hd => hH.hardOwn b d r s (key b d hd),
    fun b b' d d' r hd hd' => hH.alone b b' d d' r (key b d hd) (key b' d' hd')⟩

/-- Replacing one object and changing the NLopt objects in a way the other objects do not notice. -/
theorem world_change {H H' : NlHeap h K} {a : ℕ} {c c' : NlCell h K} (hc : H.cells[a]? = some (some c))
    (h1 : H'.cells = H.cells.set a (some c'))
    (h2 : ∀ (b : ℕ) (d : NlCell h K), b ≠ a → H.cells[b]? = some (some d) → H'.view d = H.view d) :
    H'.world = H.world.set a (some (H'.view c')) := by
  unfold NlHeap.world
  rw [h1]
  obtain ⟨ha, -⟩ := List.getElem?_eq_some_iff.mp hc
  refine List.ext_getElem? fun b => ?_
  by_cases hb : a = b
  · subst hb
    rw [List.getElem?_map, List.getElem?_set_self ha, List.getElem?_set_self (by simpa using ha)]
    rfl
  · rw [List.getElem?_map, List.getElem?_set_ne hb, List.getElem?_set_ne hb, List.getElem?_map]
    rcases h3 : H.cells[b]? with _ | _ | d
    · rfl
    · rfl
    · show some (some (H'.view d)) = some (some (H.view d))
      rw [h2 b d (Ne.symm hb) h3]

theorem view_eq {H H' : NlHeap h K} {d : NlCell h K}
    (h1 : ∀ r, d.handle = some r → H'.shared[r]? = H.shared[r]?) : H'.view d = H.view d := by
  unfold NlHeap.view
  rcases h2 : d.handle with _ | r
  · rfl
  · rw [Option.bind_some, Option.bind_some, h1 r h2]

theorem heap_setup {lib : NlLib h K} {H : NlHeap h K} (hH : H.Separate) (a : ℕ) (vertices : List (Vertex K))
    (times : List K) (k : ℤ) : Agrees (H.run lib (.setup a vertices times k))
      (worldRun lib H.world (.setup a vertices times k)) := by
  unfold NlHeap.run NlHeap.setup worldRun
  dsimp only
  rw [world_get]
  rcases heap_get_cases H a with ⟨c, hc, h1⟩ | h1
  swap
  · rw [h1]
    exact agrees_ub
  rw [h1, Res.ok_bind, Res.map_ok, Res.ok_bind]
  unfold NlOpt.setupFromVertices
  show Agrees ((c.lin.setupFromVertices lib.inv vertices times k >>= _) >>= _)
    ((c.lin.setupFromVertices lib.inv vertices times k >>= _) >>= _)
  rcases c.lin.setupFromVertices lib.inv vertices times k with l | _ | _ | _ | _
  rotate_left
  · exact agrees_abort
  · exact ⟨rfl, fun r hr => by cases hr⟩
  · exact agrees_ub
  · exact ⟨rfl, fun r hr => by cases hr⟩
  rw [Res.ok_bind, Res.ok_bind]
  dsimp only
  rw [Res.pure_eq, Res.ok_bind, Res.pure_eq, Res.pure_eq, Res.ok_bind, Res.pure_eq]
  show Agrees (.ok (_, ⟨H.cells.set a (some { c with lin := l, handle := some H.shared.length }),
    H.shared ++ [⟨(match c.params.method with
      | .squaredTime | .richterTime | .mellingerOuterLoop => times.length
      | _ => times.length + l.nFree * l.dimension), []⟩]⟩)) (.ok (_, H.world.set a (some
      ⟨some ⟨(match c.params.method with
      | .squaredTime | .richterTime | .mellingerOuterLoop => times.length
      | _ => times.length + l.nFree * l.dimension), []⟩, l, c.params, c.limits.map (·.2), c.info⟩)))
  generalize (match c.params.method with
      | .squaredTime | .richterTime | .mellingerOuterLoop => times.length
      | _ => times.length + l.nFree * l.dimension) = n
  obtain ⟨ha, -⟩ := List.getElem?_eq_some_iff.mp hc
  have old : ∀ (b : ℕ) (d : NlCell h K) (r : ℕ), H.cells[b]? = some (some d) → d.handle = some r →
      r < H.shared.length ∧ (H.shared ++ [(⟨n, []⟩ : NlShared K)])[r]? = H.shared[r]? := by
    intro b d r hd hr
    obtain ⟨s, hs⟩ := hH.live b d r hd hr
    obtain ⟨h2, -⟩ := List.getElem?_eq_some_iff.mp hs
    exact ⟨h2, List.getElem?_append_left h2⟩
  refine ⟨?_, ?_⟩
  · rw [Res.map_ok]
    dsimp only
    rw [world_change (H := H) (a := a) (c := c) (c' := { c with lin := l, handle := some H.shared.length }) hc rfl
      fun b d _ hd => view_eq fun r hr => (old b d r hd hr).2]
    unfold NlHeap.view
    simp
  · intro r hr
    rw [Res.ok.injEq] at hr
    subst hr
    dsimp only
    have key : ∀ (b : ℕ) (d : NlCell h K), (H.cells.set a (some { c with lin := l, handle := some H.shared.length }))[b]? =
        some (some d) → (b = a ∧ d = { c with lin := l, handle := some H.shared.length }) ∨
          (b ≠ a ∧ H.cells[b]? = some (some d)) := by
      intro b d hd
      by_cases hb : a = b
      · subst hb
        rw [List.getElem?_set_self ha] at hd
        exact .inl ⟨rfl, by simpa using hd.symm⟩
      · rw [List.getElem?_set_ne hb] at hd
        exact .inr ⟨Ne.symm hb, hd⟩
    have new : (H.shared ++ [(⟨n, []⟩ : NlShared K)])[H.shared.length]? = some ⟨n, []⟩ := by simp
    refine ⟨?_, ?_, ?_, ?_, ?_⟩
    · intro b d hd
      rcases key b d hd with ⟨rfl, rfl⟩ | ⟨-, hd⟩
      · exact hH.own b c hc
      · exact hH.own b d hd
    · intro b d r hd hr
      rcases key b d hd with ⟨rfl, rfl⟩ | ⟨-, hd⟩
      · simp only [Option.some.injEq] at hr
        subst hr
        exact ⟨_, new⟩
      · obtain ⟨s, hs⟩ := hH.live b d r hd hr
        exact ⟨s, (old b d r hd hr).2.trans hs⟩
    · intro b d r s hd hr hs hp
      rcases key b d hd with ⟨rfl, rfl⟩ | ⟨-, hd⟩
      · simp only [Option.some.injEq] at hr
        subst hr
        dsimp only at hs
        rw [new, Option.some.injEq] at hs
        rw [← hs]
      · exact hH.soft b d r s hd hr ((old b d r hd hr).2.symm.trans hs) hp
    · intro b d r s hd hr hs hp
      rcases key b d hd with ⟨rfl, rfl⟩ | ⟨-, hd⟩
      · simp only [Option.some.injEq] at hr
        subst hr
        dsimp only at hs
        rw [new, Option.some.injEq] at hs
        rw [← hs]
        simp
      · exact hH.hardOwn b d r s hd hr ((old b d r hd hr).2.symm.trans hs) hp
    · intro b b' d d' r hd hd' hr hr' hp
      rcases key b d hd with ⟨rfl, rfl⟩ | ⟨-, hd⟩ <;> rcases key b' d' hd' with ⟨rfl, rfl⟩ | ⟨-, hd'⟩
      · rfl
      · simp only [Option.some.injEq] at hr
        have := (old b' d' r hd' hr').1
        omega
      · simp only [Option.some.injEq] at hr'
        have := (old b d r (by assumption) hr).1
        omega
      · exact hH.alone b b' d d' r hd hd' hr hr' hp

theorem heap_limit {lib : NlLib h K} {H : NlHeap h K} (hH : H.Separate) (a : ℕ) (accepts : Bool) (d : ℤ)
    (value : K) : Agrees (H.run lib (.limit a accepts d value))
      (worldRun lib H.world (.limit a accepts d value)) := by
  unfold NlHeap.run NlHeap.addLimit worldRun
  dsimp only
  rw [world_get]
  rcases heap_get_cases H a with ⟨c, hc, h1⟩ | h1
  swap
  · rw [h1]
    exact agrees_ub
  rw [h1, Res.ok_bind, Res.map_ok, Res.ok_bind]
  unfold NlOpt.addMaximumMagnitudeConstraint
  by_cases h2 : 0 ≤ d
  swap
  · rw [Res.check_of_not h2]
    exact agrees_abort
  rw [Res.check_of h2, Res.ok_bind, Res.ok_bind]
  by_cases h3 : 0 ≤ value
  swap
  · rw [Res.check_of_not h3]
    exact agrees_abort
  rw [Res.check_of h3, Res.ok_bind, Res.ok_bind]
  dsimp only
  have hown : ∀ l ∈ c.limits ++ [(a, (⟨d, value⟩ : Limit K))], l.1 = a := by
    intro l hl
    rcases List.mem_append.mp hl with hl | hl
    · exact hH.own a c hc l hl
    · rw [List.mem_singleton.mp hl]
  have put : ∀ b : Bool, Agrees
      (.ok (.flag b, H.put a { c with limits := c.limits ++ [(a, ⟨d, value⟩)] }))
      (.ok (.flag b, H.world.set a (some { H.view c with
        constraints := (H.view c).constraints ++ [⟨d, value⟩] }))) := by
    intro b
    refine ⟨?_, ?_⟩
    · rw [Res.map_ok]
      dsimp only
      rw [heap_put_world]
      unfold NlHeap.view
      simp
    · intro r hr
      rw [Res.ok.injEq] at hr
      subst hr
      exact hH.put hc rfl rfl hown
  by_cases hs : c.params.useSoft = true
  · rw [if_pos hs, if_pos (show (H.view c).params.useSoft = true from hs)]
    exact put true
  rw [if_neg hs, if_neg (show ¬ (H.view c).params.useSoft = true from hs)]
  rcases hr : c.handle with _ | r
  · have : (H.view c).handle = none := by
      unfold NlHeap.view
      rw [hr]
      rfl
    rw [this]
    exact agrees_ub
  obtain ⟨s, hs'⟩ := hH.live a c r hc hr
  have hv : (H.view c).handle = some ⟨s.n, s.hard.map (·.2)⟩ := by
    unfold NlHeap.view
    rw [hr, Option.bind_some, hs']
    rfl
  rw [hv]
  dsimp only
  cases accepts
  · rw [if_neg (by decide), if_neg (by decide), ← hr, ← hv]
    exact put false
  rw [if_pos rfl, if_pos rfl]
  rw [Bool.not_eq_true] at hs
  obtain ⟨ha, -⟩ := List.getElem?_eq_some_iff.mp hc
  obtain ⟨hr', -⟩ := List.getElem?_eq_some_iff.mp hs'
  rw [← hr]
  set f : NlShared K → NlShared K := fun s => { s with hard := s.hard ++ [(a, ⟨d, value⟩)] } with hf
  set c' : NlCell h K := { c with limits := c.limits ++ [(a, ⟨d, value⟩)] } with hc'
  have other : ∀ (b : ℕ) (e : NlCell h K) (q : ℕ), b ≠ a → H.cells[b]? = some (some e) → e.handle = some q →
      (H.shared.modify r f)[q]? = H.shared[q]? := by
    intro b e q hb he hq
    rw [List.getElem?_modify]
    have : r ≠ q := by
      rintro rfl
      exact hb (hH.alone a b c e r hc he hr hq hs).symm
    simp only [if_neg this]
    simp
  have self : (H.shared.modify r f)[r]? = some (f s) := by
    rw [List.getElem?_modify, hs']
    simp
  have key : ∀ (b : ℕ) (e : NlCell h K), (H.cells.set a (some c'))[b]? = some (some e) →
      (b = a ∧ e = c') ∨ (b ≠ a ∧ H.cells[b]? = some (some e)) := by
    intro b e he
    by_cases hb : a = b
    · subst hb
      rw [List.getElem?_set_self ha] at he
      exact .inl ⟨rfl, by simpa using he.symm⟩
    · rw [List.getElem?_set_ne hb] at he
      exact .inr ⟨Ne.symm hb, he⟩
  refine ⟨?_, ?_⟩
  · show Res.ok (_, NlHeap.world ⟨H.cells.set a (some c'), H.shared.modify r f⟩) = _
    rw [world_change (H := H) (a := a) (c := c) (c' := c') hc rfl
      fun b e hb he => view_eq fun q hq => other b e q hb he hq]
    have : NlHeap.view ⟨H.cells.set a (some c'), H.shared.modify r f⟩ c' =
        ⟨some ⟨s.n, s.hard.map (·.2) ++ [⟨d, value⟩]⟩, c.lin, c.params, c.limits.map (·.2) ++ [⟨d, value⟩],
          c.info⟩ := by
      unfold NlHeap.view
      rw [show c'.handle = some r from hr]
      dsimp only
      rw [Option.bind_some, self]
      simp [hf, hc']
    rw [this]
    rfl
  · intro q hq
    have hq' : (⟨H.cells.set a (some c'), H.shared.modify r f⟩ : NlHeap h K) = q.2 := by
      have : (.ok (.flag true, ⟨H.cells.set a (some c'), H.shared.modify r f⟩) :
        Res (NlOut K × NlHeap h K)) = .ok q := hq
      rw [Res.ok.injEq] at this
      rw [← this]
    rw [← hq']
    refine ⟨?_, ?_, ?_, ?_, ?_⟩
    · intro b e he
      rcases key b e he with ⟨rfl, rfl⟩ | ⟨-, he⟩
      · exact hown
      · exact hH.own b e he
    · intro b e q he hq
      rcases key b e he with ⟨rfl, rfl⟩ | ⟨hb, he⟩
      · have : r = q := by rw [← Option.some.injEq, ← hr]; exact hq
        subst this
        exact ⟨_, self⟩
      · obtain ⟨s', h4⟩ := hH.live b e q he hq
        exact ⟨s', (other b e q hb he hq).trans h4⟩
    · intro b e q s' he hq h4 h5
      rcases key b e he with ⟨rfl, rfl⟩ | ⟨hb, he⟩
      · rw [show c'.params = c.params from rfl, hs] at h5
        cases h5
      · exact hH.soft b e q s' he hq ((other b e q hb he hq).symm.trans h4) h5
    · intro b e q s' he hq h4 h5
      rcases key b e he with ⟨rfl, rfl⟩ | ⟨hb, he⟩
      · have : r = q := by rw [← Option.some.injEq, ← hr]; exact hq
        subst this
        dsimp only at h4
        rw [self, Option.some.injEq] at h4
        subst h4
        intro l hl
        rcases List.mem_append.mp hl with hl | hl
        · exact hH.hardOwn b c r s hc hr hs' hs l hl
        · rw [List.mem_singleton.mp hl]
      · exact hH.hardOwn b e q s' he hq ((other b e q hb he hq).symm.trans h4) h5
    · clear hq' hq
      intro b b' e e' q he he' hq hq' hp
      rcases key b e he with ⟨rfl, rfl⟩ | ⟨hb, he⟩ <;> rcases key b' e' he' with ⟨rfl, rfl⟩ | ⟨hb', he'⟩
      · rfl
      · exact hH.alone b b' c e' q hc he' hq hq' hs
      · exact absurd (hH.alone b b' e c q (by assumption) hc hq hq' hp) hb
      · exact hH.alone b b' e e' q he he' hq hq' hp

theorem objective_same_parts {lib : NlLib h K} {o : NlOpt h K} {x : List K} {grad : Bool}
    {r : K × NlOpt h K} (hr : NlOpt.objective lib o.params.method o x grad = .ok r) :
    r.2 = { o with lin := r.2.lin, info := r.2.info } := by
  have htime : ∀ r, o.objectiveTime lib x grad = .ok r → r.2 = { o with lin := r.2.lin, info := r.2.info } := by
    intro r hr
    unfold NlOpt.objectiveTime at hr
    rw [Res.bind_eq_ok] at hr
    obtain ⟨-, -, hr⟩ := hr
    rw [Res.bind_eq_ok] at hr
    obtain ⟨-, -, hr⟩ := hr
    rw [Res.bind_eq_ok] at hr
    obtain ⟨l1, -, hr⟩ := hr
    rw [Res.bind_eq_ok] at hr
    obtain ⟨l2, -, hr⟩ := hr
    rw [totalCost_info hr]
  have hfull : ∀ r, o.objectiveFull lib x grad = .ok r → r.2 = { o with lin := r.2.lin, info := r.2.info } := by
    intro r hr
    unfold NlOpt.objectiveFull at hr
    rw [Res.bind_eq_ok] at hr
    obtain ⟨-, -, hr⟩ := hr
    dsimp only at hr
    rw [Res.bind_eq_ok] at hr
    obtain ⟨-, -, hr⟩ := hr
    rw [Res.bind_eq_ok] at hr
    obtain ⟨l1, -, hr⟩ := hr
    rw [Res.bind_eq_ok] at hr
    obtain ⟨l2, -, hr⟩ := hr
    rw [totalCost_info hr]
  unfold NlOpt.objective at hr
  cases hm : o.params.method <;> rw [hm] at hr <;> dsimp only at hr
  · exact htime r hr
  · exact htime r hr
  · rw [Res.bind_eq_ok] at hr
    obtain ⟨q, hq, hr⟩ := hr
    rw [Res.pure_eq, Res.ok.injEq] at hr
    subst hr
    unfold NlOpt.objectiveMellinger at hq
    rw [Res.bind_eq_ok] at hq
    obtain ⟨-, -, hq⟩ := hq
    rw [Res.bind_eq_ok] at hq
    obtain ⟨-, -, hq⟩ := hq
    rw [Res.bind_eq_ok] at hq
    obtain ⟨l1, -, hq⟩ := hq
    rw [Res.bind_eq_ok] at hq
    obtain ⟨l2, -, hq⟩ := hq
    rw [Res.bind_eq_ok] at hq
    obtain ⟨r, -, hq⟩ := hq
    rw [Res.pure_eq, Res.ok.injEq] at hq
    subst hq
    rfl
  · exact hfull r hr
  · exact hfull r hr
  · exact hfull r hr

theorem heap_callback {lib : NlLib h K} {H : NlHeap h K} (hH : H.Separate) (a : ℕ) (q : NlQuery K) :
    Agrees (H.run lib (.callback a q)) (worldRun lib H.world (.callback a q)) := by
  unfold NlHeap.run worldRun
  dsimp only
  rw [world_get]
  rcases q with ⟨x, grad⟩ | ⟨i, x, grad⟩
  · unfold NlHeap.answer NlOpt.answer
    dsimp only
    rcases heap_get_cases H a with ⟨c, hc, h1⟩ | h1
    swap
    · unfold NlHeap.objective
      rw [h1]
      exact agrees_ub
    rw [heap_objective hH hc, h1, Res.map_ok, Res.ok_bind]
    have := agrees_put hH hc (X := NlOpt.objective lib c.params.method (H.view c) x grad)
      (out := fun r => .value r.1) (c' := fun r => { c with lin := r.2.lin, info := r.2.info })
      (o' := fun r => r.2) (fun r hr => (objective_same_parts (o := H.view c) hr).symm) (fun _ _ => rfl)
      (fun _ _ => rfl) (fun _ _ => hH.own a c hc)
    show Agrees _ (NlOpt.objective lib c.params.method (H.view c) x grad >>= _)
    revert this
    rcases NlOpt.objective lib c.params.method (H.view c) x grad with r | _ | _ | _ | _ <;> exact fun h => h
  · unfold NlHeap.answer NlOpt.answer
    dsimp only
    rcases heap_get_cases H a with ⟨c, hc, h1⟩ | h1
    swap
    · rw [h1]
      exact agrees_ub
    rw [h1, Res.ok_bind, Res.map_ok, Res.ok_bind]
    by_cases h2 : grad = false
    swap
    · rw [Res.check_of_not h2]
      exact agrees_abort
    rw [Res.check_of h2, Res.ok_bind, Res.ok_bind]
    rcases hr : c.handle with _ | r
    · have : (H.view c).handle = none := by
        unfold NlHeap.view
        rw [hr]
        rfl
      rw [this]
      exact agrees_ub
    obtain ⟨s, hs'⟩ := hH.live a c r hc hr
    have hv : (H.view c).handle = some ⟨s.n, s.hard.map (·.2)⟩ := by
      unfold NlHeap.view
      rw [hr, Option.bind_some, hs']
      rfl
    rw [hv]
    dsimp only
    rw [Res.at'_eq_ok.mpr hs', Res.ok_bind]
    rcases lt_or_ge i s.hard.length with h3 | h3
    swap
    · rw [Res.at'_of_ge h3, Res.at'_of_ge (by simpa using h3)]
      exact agrees_ub
    rw [Res.at'_of_lt h3, Res.at'_of_lt (by simpa using h3), Res.ok_bind, Res.ok_bind, List.getElem_map]
    have hown : (s.hard[i]).1 = a := by
      cases hs : c.params.useSoft
      · exact hH.hardOwn a c r s hc hr hs' hs _ (List.getElem_mem h3)
      · rw [hH.soft a c r s hc hr hs' hs] at h3
        exact absurd h3 (by simp)
    rw [heap_evaluate hc hown]
    have := agrees_put hH hc (X := (H.view c).evaluateConstraint lib (s.hard[i]).2)
      (out := fun r => .value r.1) (c' := fun r => { c with info := r.2.info })
      (o' := fun r => r.2) (fun r hr => (evaluateConstraint_info (o := H.view c) hr).symm) (fun _ _ => rfl)
      (fun _ _ => rfl) (fun _ _ => hH.own a c hc)
    revert this
    rcases (H.view c).evaluateConstraint lib (s.hard[i]).2 with r | _ | _ | _ | _ <;> exact fun h => h

theorem heap_totalOp {lib : NlLib h K} {H : NlHeap h K} (hH : H.Separate) (a : ℕ) :
    Agrees (H.run lib (.total a)) (worldRun lib H.world (.total a)) := by
  unfold NlHeap.run worldRun
  dsimp only
  rw [world_get]
  rcases heap_get_cases H a with ⟨c, hc, h1⟩ | h1
  swap
  · rw [h1]
    exact agrees_ub
  rw [h1, Res.ok_bind, Res.map_ok, Res.ok_bind]
  unfold NlOpt.getTotalCost
  show Agrees (c.lin.computeCost >>= _) ((c.lin.computeCost >>= _) >>= _)
  rcases c.lin.computeCost with cost | _ | _ | _ | _
  rotate_left
  · exact agrees_abort
  · exact ⟨rfl, fun r hr => by cases hr⟩
  · exact agrees_ub
  · exact ⟨rfl, fun r hr => by cases hr⟩
  rw [Res.ok_bind, Res.ok_bind]
  dsimp only
  rw [heap_soft c.limits 0 H c hc (hH.own a c hc)]
  have := agrees_put hH hc
    (X := softCost lib c.params.softWeight (10 ^ 9) (c.limits.map (·.2)) 0 (H.view c))
    (out := fun r => .value (cost + c.lin.segmentTimes.foldl (· + ·) 0 * c.lin.segmentTimes.foldl (· + ·) 0 *
      c.params.timePenalty + r.1)) (c' := fun r => { c with info := r.2.info })
    (o' := fun r => r.2) (fun r hr => (softCost_info _ _ (H.view c) r hr).symm) (fun _ _ => rfl)
    (fun _ _ => rfl) (fun _ _ => hH.own a c hc)
  show Agrees _ ((softCost lib c.params.softWeight (10 ^ 9) (c.limits.map (·.2)) 0 (H.view c) >>= _) >>= _)
  revert this
  generalize softCost lib c.params.softWeight (10 ^ 9) (c.limits.map (·.2)) 0 (H.view c) = q
  rcases q with r | _ | _ | _ | _ <;> exact fun h => h

theorem heap_step {lib : NlLib h K} {H : NlHeap h K} (hH : H.Separate) (op : NlOp K)
    (hcopy : ∀ a o, CopiesObject a op → H.world[a]? = some (some o) → CopySafe o) :
    Agrees (H.run lib op) (worldRun lib H.world op) := by
  cases op with
  | new dim params =>
    refine ⟨?_, ?_⟩
    · show Res.ok (_, NlHeap.world { H with cells := H.cells ++ [_] }) = _
      rw [heap_append_world]
      rfl
    · intro r hr
      have := Res.ok.inj (show (.ok _ : Res (NlOut K × NlHeap h K)) = .ok r from hr)
      subst this
      exact hH.append rfl (.inl rfl)
  | setup a vertices times k => exact heap_setup hH a vertices times k
  | solve a =>
    unfold NlHeap.run worldRun
    dsimp only
    rw [world_get]
    rcases heap_get_cases H a with ⟨c, hc, h1⟩ | h1
    swap
    · rw [h1]
      exact agrees_ub
    rw [h1, Res.ok_bind, Res.map_ok, Res.ok_bind]
    have := agrees_put hH hc (X := c.lin.solveLinear lib.solve)
      (out := fun _ => .nothing) (c' := fun l => { c with lin := l })
      (o' := fun l => { H.view c with lin := l }) (fun r hr => rfl) (fun _ _ => rfl)
      (fun _ _ => rfl) (fun _ _ => hH.own a c hc)
    unfold NlOpt.solveLinear
    show Agrees _ ((c.lin.solveLinear lib.solve >>= _) >>= _)
    revert this
    rcases c.lin.solveLinear lib.solve with r | _ | _ | _ | _ <;> exact fun h => h
  | limit a accepts d value => exact heap_limit hH a accepts d value
  | callback a q => exact heap_callback hH a q
  | total a => exact heap_totalOp hH a
  | copy a =>
    unfold NlHeap.run worldRun
    dsimp only
    rw [world_get]
    rcases heap_get_cases H a with ⟨c, hc, h1⟩ | h1
    swap
    · rw [h1]
      exact agrees_ub
    rw [h1, Res.ok_bind, Res.map_ok, Res.ok_bind]
    have hw : H.world[a]? = some (some (H.view c)) := by
      unfold NlHeap.world
      rw [List.getElem?_map, hc]
      rfl
    obtain ⟨h2, h3⟩ := hcopy a _ (.inl rfl) hw
    refine ⟨?_, ?_⟩
    · show Res.ok (_, NlHeap.world { H with cells := H.cells ++ [_] }) = _
      rw [heap_append_world]
      rfl
    · intro r hr
      have := Res.ok.inj (show (.ok _ : Res (NlOut K × NlHeap h K)) = .ok r from hr)
      subst this
      refine hH.append (List.map_eq_nil_iff.mp h2) ?_
      rcases h3 with h3 | h3
      · exact .inr ⟨h3, a, c, hc, rfl, rfl⟩
      · refine .inl ?_
        rcases hr : c.handle with _ | r
        · rfl
        · obtain ⟨s, hs⟩ := hH.live a c r hc hr
          unfold NlHeap.view at h3
          rw [hr, Option.bind_some, hs] at h3
          cases h3
  | assign a b =>
    unfold NlHeap.run worldRun
    dsimp only
    rw [world_get, world_get]
    rcases heap_get_cases H a with ⟨c, hc, h1⟩ | h1
    swap
    · rw [h1]
      exact agrees_ub
    rw [h1, Res.ok_bind, Res.map_ok, Res.ok_bind]
    rcases heap_get_cases H b with ⟨c', hc', h1'⟩ | h1'
    swap
    · rw [h1']
      exact agrees_ub
    rw [h1', Res.ok_bind, Res.map_ok, Res.ok_bind]
    have hw : H.world[a]? = some (some (H.view c)) := by
      unfold NlHeap.world
      rw [List.getElem?_map, hc]
      rfl
    refine ⟨?_, ?_⟩
    · show Res.ok (_, NlHeap.world { H with cells := H.cells.set b (some c) }) = _
      unfold NlHeap.world
      dsimp only
      rw [List.map_set]
      rfl
    · intro r hr
      have := Res.ok.inj (show (.ok _ : Res (NlOut K × NlHeap h K)) = .ok r from hr)
      subst this
      by_cases hb : b = a
      · subst hb
        have : H.cells.set b (some c) = H.cells := by
          refine List.ext_getElem? fun i => ?_
          by_cases hi : b = i
          · subst hi
            obtain ⟨hl, -⟩ := List.getElem?_eq_some_iff.mp hc
            rw [List.getElem?_set_self hl, hc]
          · rw [List.getElem?_set_ne hi]
        show ({ H with cells := H.cells.set b (some c) } : NlHeap h K).Separate
        rw [this]
        exact hH
      obtain ⟨h2, h3⟩ := hcopy a _ (.inr ⟨b, hb, rfl⟩) hw
      refine hH.assign b (List.map_eq_nil_iff.mp h2) ?_
      rcases h3 with h3 | h3
      · exact .inr ⟨h3, a, c, hc, rfl, rfl⟩
      · refine .inl ?_
        rcases hr : c.handle with _ | r
        · rfl
        · obtain ⟨s, hs⟩ := hH.live a c r hc hr
          unfold NlHeap.view at h3
          rw [hr, Option.bind_some, hs] at h3
          cases h3
  | destroy a =>
    unfold NlHeap.run worldRun
    dsimp only
    rw [world_get]
    rcases heap_get_cases H a with ⟨c, hc, h1⟩ | h1
    swap
    · rw [h1]
      exact agrees_ub
    rw [h1, Res.ok_bind, Res.map_ok, Res.ok_bind]
    refine ⟨?_, ?_⟩
    · show Res.ok (_, NlHeap.world { H with cells := H.cells.set a none }) = _
      unfold NlHeap.world
      dsimp only
      rw [List.map_set]
      rfl
    · intro r hr
      have := Res.ok.inj (show (.ok _ : Res (NlOut K × NlHeap h K)) = .ok r from hr)
      subst this
      exact hH.destroy a

theorem heap_runs {lib : NlLib h K} : ∀ (ops : List (NlOp K)) (H : NlHeap h K), H.Separate →
    (∀ pre op a post outs W o, ops = pre ++ op :: post → CopiesObject a op → worldRuns lib pre H.world = .ok (outs, W) →
      W[a]? = some (some o) → CopySafe o) →
    (fun r => (r.1, r.2.world)) <$> NlHeap.runs lib ops H = worldRuns lib ops H.world
  | [], _, _, _ => rfl
  | op :: ops, H, hH, hc => by
    rw [NlHeap.runs, worldRuns]
    obtain ⟨h1, h2⟩ := heap_step (lib := lib) hH op fun a o hop ha =>
      hc [] op a ops [] H.world o rfl hop rfl ha
    rw [← h1]
    rcases hr : H.run lib op with r | _ | _ | _ | _ <;> try rfl
    rw [hr] at h1
    rw [Res.map_ok, Res.ok_bind, Res.ok_bind]
    dsimp only
    rw [← heap_runs ops r.2 (h2 r hr) ?_]
    · rcases NlHeap.runs lib ops r.2 with q | _ | _ | _ | _ <;> rfl
    · intro pre op' a post outs W o hops hop hrun ha
      refine hc (op :: pre) op' a post (r.1 :: outs) W o (by rw [hops]; rfl) hop ?_ ha
      rw [worldRuns, ← h1, Res.map_ok, Res.ok_bind]
      dsimp only
      rw [hrun, Res.ok_bind]
      rfl

end Verif
