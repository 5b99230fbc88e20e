import Mathlib.Tactic.Linarith
import Mathlib.Tactic.Positivity
import Verif.Proofs.NlOptRun
import Verif.Spec.DebugOutput

/-! Helper lemmas for C139: printing does not change the results. -/

set_option linter.unusedSectionVars false

namespace Verif

open Spec

variable {K : Type}

theorem resultOf_bind {α β : Type} (a : Res α) (f : α → Res (β × List (DebugLine K))) :
    resultOf (a >>= f) = a >>= fun x => resultOf (f x) := by cases a <;> rfl

theorem resultOf_bind' {α β : Type} (a : Res (α × List (DebugLine K)))
    (f : α × List (DebugLine K) → Res (β × List (DebugLine K))) (b : Res α) (g : α → Res β)
    (ha : resultOf a = b) (hf : ∀ x l, resultOf (f (x, l)) = g x) : resultOf (a >>= f) = b >>= g := by
  subst ha
  cases a with
  | ok x => exact hf x.1 x.2
  | _ => rfl

theorem resultOf_pure {α : Type} (x : α) (l : List (DebugLine K)) : resultOf (pure (x, l)) = pure x := rfl

theorem resultOf_ite {α : Type} (c : Prop) [Decidable c] (a b : Res (α × List (DebugLine K))) :
    resultOf (if c then a else b) = if c then resultOf a else resultOf b := by split <;> rfl

variable [Field K] [LinearOrder K] {h : ℕ}

theorem softCostP_same (fl : DebugFlags) (lib : NlLib h K) (w m : K) (cs : List (Limit K)) :
    ∀ (acc : K) (o : NlOpt h K), resultOf (softCostP fl lib w m cs acc o) = softCost lib w m cs acc o := by
  induction cs with
  | nil => exact fun _ _ => rfl
  | cons c cs ih =>
    intro acc o
    rw [softCostP, softCost, resultOf_bind]
    congr 1
    funext r
    dsimp only
    rw [← ih (acc + softTerm lib.ex w m r.1 c.value) r.2]
    cases softCostP fl lib w m cs (acc + softTerm lib.ex w m r.1 c.value) r.2 <;> rfl

theorem totalCostP_same (fl : DebugFlags) (lib : NlLib h K) (o : NlOpt h K) (times : List K) (b : Bool) :
    resultOf (o.totalCostP fl lib times b) = o.totalCost lib times b := by
  unfold NlOpt.totalCostP NlOpt.totalCost
  rw [resultOf_bind]
  congr 1
  funext c
  dsimp only
  by_cases hs : o.params.useSoft
  · rw [if_pos hs, if_pos hs]
    apply resultOf_bind' _ _ _ _ (softCostP_same fl lib _ _ _ _ _)
    intro x l
    rfl
  · rw [if_neg hs, if_neg hs]
    rfl

theorem objectiveP_same (fl : DebugFlags) (lib : NlLib h K) (method : TimeAlloc) (o : NlOpt h K) (x : List K)
    (grad : Bool) : resultOf (o.objectiveP fl lib method x grad) = o.objective lib method x grad := by
  have htime : resultOf (o.objectiveTimeP fl lib x grad) = o.objectiveTime lib x grad := by
    unfold NlOpt.objectiveTimeP NlOpt.objectiveTime
    simp only [resultOf_bind, totalCostP_same]
  have hfull : resultOf (o.objectiveFullP fl lib x grad) = o.objectiveFull lib x grad := by
    unfold NlOpt.objectiveFullP NlOpt.objectiveFull
    simp only [resultOf_bind, totalCostP_same]
  unfold NlOpt.objectiveP NlOpt.objective
  cases method with
  | squaredTime => exact htime
  | richterTime => exact htime
  | mellingerOuterLoop =>
    unfold NlOpt.objectiveMellingerP
    rw [resultOf_bind]
    rfl
  | squaredTimeAndConstraints => exact hfull
  | richterTimeAndConstraints => exact hfull
  | unknown => exact hfull

theorem answerP_same (fl : DebugFlags) (lib : NlLib h K) (method : TimeAlloc) (o : NlOpt h K) (q : NlQuery K) :
    resultOf (o.answerP fl lib method q) = o.answer lib (NlOpt.objective lib method) q := by
  cases q with
  | objective x grad => exact objectiveP_same fl lib method o x grad
  | constraint i x grad =>
    unfold NlOpt.answerP NlOpt.answer
    rw [resultOf_bind]
    congr 1
    funext _
    cases o.handle with
    | none => rfl
    | some hd =>
      rw [resultOf_bind]
      congr 1
      funext c
      cases o.evaluateConstraint lib c <;> rfl

theorem answersP_same (fl : DebugFlags) (lib : NlLib h K) (method : TimeAlloc) (qs : List (NlQuery K)) :
    ∀ o : NlOpt h K, resultOf (NlOpt.answersP fl lib method qs o) =
      NlOpt.answers lib (NlOpt.objective lib method) qs o := by
  induction qs with
  | nil => exact fun _ => rfl
  | cons q qs ih =>
    intro o
    rw [NlOpt.answersP, NlOpt.answers]
    apply resultOf_bind' _ _ _ _ (answerP_same fl lib method o q)
    intro x l
    dsimp only
    apply resultOf_bind' _ _ _ _ (ih x.2)
    intro y l'
    rfl

/-! ### the maxima that are only printed -/

section Order
variable [IsStrictOrderedRing K]

theorem getCoefficients_shape {p q : Poly K} (hN : p.N = q.N) {d : ℤ} {c : List K} (e : p.getCoefficients d = .ok c) :
    ∃ c', q.getCoefficients d = .ok c' ∧ c'.length = c.length := by
  unfold Poly.getCoefficients at e ⊢
  rw [Res.bind_eq_ok] at e
  obtain ⟨_, e1, e2⟩ := e
  rw [Res.check_eq_ok] at e1
  rw [Res.check_of (by rw [← hN]; exact e1), Res.ok_bind, ← hN]
  split at e2
  · rw [Res.pure_eq, Res.ok.injEq] at e2
    subst e2
    rw [if_pos ‹_›]
    exact ⟨_, rfl, hN.symm⟩
  · split at e2
    · cases e2
    · rw [Res.pure_eq, Res.ok.injEq] at e2
      subst e2
      rw [if_neg ‹_›, if_neg ‹_›]
      exact ⟨_, rfl, by simp⟩

theorem evaluate_of_coefficients {p : Poly K} {d : ℤ} (hd : 0 ≤ d) {c : List K}
    (e : p.getCoefficients (d + 1) = .ok c) (t : K) : ∃ v, p.evaluate t d = .ok v := by
  unfold Poly.getCoefficients at e
  rw [Res.bind_eq_ok] at e
  obtain ⟨_, e1, e2⟩ := e
  rw [if_neg (by omega)] at e2
  split at e2
  · cases e2
  · unfold Poly.evaluate
    split
    · exact ⟨_, rfl⟩
    · rw [if_neg (by omega)]
      exact ⟨_, rfl⟩

/-- Same numbers of polynomials and coefficients. -/
def SameShape (s s' : Segment K) : Prop := s'.polys.map (fun p => p.N) = s.polys.map (fun p => p.N) ∧ s'.N = s.N

theorem SameShape.at {s s' : Segment K} (hs : SameShape s s') {i : ℕ} {p : Poly K} (e : Res.at' s.polys i = .ok p) :
    ∃ p', Res.at' s'.polys i = .ok p' ∧ p.N = p'.N := by
  rw [Res.at'_eq_ok] at e
  have h1 : (s'.polys.map fun p => p.N)[i]? = some p.N := by
    rw [hs.1, List.getElem?_map, e]
    rfl
  rw [List.getElem?_map, Option.map_eq_some_iff] at h1
  obtain ⟨p', h2, h3⟩ := h1
  exact ⟨p', Res.at'_eq_ok.mpr h2, h3.symm⟩

theorem SameShape.D {s s' : Segment K} (hs : SameShape s s') : s'.D = s.D := by
  have := congrArg List.length hs.1
  simpa [Segment.D] using this

/-- All these dimensions can be evaluated. -/
def Evaluable (s : Segment K) (d : ℤ) (dims : List ℤ) : Prop :=
  ∀ dim ∈ dims, 0 ≤ dim ∧ ∃ p, Res.at' s.polys dim.toNat = .ok p ∧ ∃ c, p.getCoefficients (d + 1) = .ok c

theorem squares_evaluable {s : Segment K} {d : ℤ} (hd : 0 ≤ d) (t : K) (dims : List ℤ) (h : Evaluable s d dims) :
    ∀ acc, ∃ v, s.squares d t dims acc = .ok v := by
  induction dims with
  | nil => exact fun acc => ⟨acc, rfl⟩
  | cons dim dims ih =>
    intro acc
    obtain ⟨h1, p, h2, c, h3⟩ := h dim (by simp)
    obtain ⟨v, h4⟩ := evaluate_of_coefficients hd h3 t
    rw [Segment.squares, if_neg (by omega), h2, Res.ok_bind, h4, Res.ok_bind]
    exact ih (fun x hx => h x (by simp [hx])) _

theorem headN_shape {l l' : List K} (hl : l'.length = l.length) {n : ℕ} {r : List K} (e : headN l n = .ok r) :
    ∃ r', headN l' n = .ok r' ∧ r'.length = r.length := by
  unfold headN at e ⊢
  rw [hl]
  split at e
  · rw [Res.ok.injEq] at e
    subst e
    rw [if_pos ‹_›]
    exact ⟨_, rfl, by simp [hl]⟩
  · cases e

theorem convolve_shape {a b a' b' : List K} (ha : a'.length = a.length) (hb : b'.length = b.length) {r : List K}
    (e : convolve a b = .ok r) : ∃ r', convolve a' b' = .ok r' ∧ r'.length = r.length := by
  unfold convolve at e ⊢
  rw [ha, hb]
  split at e
  · cases e
  · rw [Res.ok.injEq] at e
    subst e
    rw [if_neg ‹_›]
    exact ⟨_, rfl, by simp⟩

theorem convolvedLoop_shape {s s' : Segment K} (hs : SameShape s s') (d : ℤ) (nd ndd : ℕ) (dims : List ℤ) :
    ∀ (acc acc' : List K), acc'.length = acc.length → ∀ r, convolvedLoop s d nd ndd dims acc = .ok r →
      ∃ r', convolvedLoop s' d nd ndd dims acc' = .ok r' ∧ r'.map List.length = r.map List.length ∧
        (r ≠ none → Evaluable s' d dims) := by
  induction dims with
  | nil =>
    intro acc acc' hl r e
    rw [convolvedLoop, Res.ok.injEq] at e
    subst e
    refine ⟨some acc', rfl, by simp [hl], fun _ x hx => by cases hx⟩
  | cons dim dims ih =>
    intro acc acc' hl r e
    rw [convolvedLoop] at e ⊢
    rw [hs.D]
    by_cases hd : dim < 0 ∨ dim ≥ s.D
    · rw [if_pos hd, Res.ok.injEq] at e
      subst e
      rw [if_pos hd]
      exact ⟨none, rfl, rfl, fun h => absurd rfl h⟩
    · rw [if_neg hd] at e ⊢
      rw [Res.bind_eq_ok] at e
      obtain ⟨p, e1, e⟩ := e
      rw [Res.bind_eq_ok] at e
      obtain ⟨c, e2, e⟩ := e
      rw [Res.bind_eq_ok] at e
      obtain ⟨cd, e3, e⟩ := e
      rw [Res.bind_eq_ok] at e
      obtain ⟨c2, e4, e⟩ := e
      rw [Res.bind_eq_ok] at e
      obtain ⟨cdd, e5, e⟩ := e
      rw [Res.bind_eq_ok] at e
      obtain ⟨conv, e6, e⟩ := e
      obtain ⟨p', f1, hN⟩ := hs.at e1
      obtain ⟨c', f2, g2⟩ := getCoefficients_shape hN e2
      obtain ⟨cd', f3, g3⟩ := headN_shape g2 e3
      obtain ⟨c2', f4, g4⟩ := getCoefficients_shape hN e4
      obtain ⟨cdd', f5, g5⟩ := headN_shape g4 e5
      obtain ⟨conv', f6, g6⟩ := convolve_shape g3 g5 e6
      rw [f1, Res.ok_bind, f2, Res.ok_bind, f3, Res.ok_bind, f4, Res.ok_bind, f5, Res.ok_bind, f6, Res.ok_bind, g6, hl]
      by_cases hc : conv.length = acc.length
      · rw [if_pos hc] at e ⊢
        obtain ⟨r', i1, i2, i3⟩ := ih _ (List.zipWith (· + ·) acc' conv') (by simp [hl, g6]) r e
        refine ⟨r', i1, i2, fun hr x hx => ?_⟩
        rcases List.mem_cons.mp hx with rfl | hx
        · exact ⟨by omega, p', f1, c2', f4⟩
        · exact i3 hr x hx
      · rw [if_neg hc] at e
        cases e

theorem candidates_shape {p p' : Poly K} (hN : p.N = p'.N) (rf : RootFinder K) {d : ℤ} {a b a' b' : K}
    {r : Bool × List K} (e : p.computeMinMaxCandidates rf a b d = .ok r) :
    ∃ r', p'.computeMinMaxCandidates rf a' b' d = .ok r' ∧ (r'.2 ≠ [] → ∃ c, p'.getCoefficients (d + 1) = .ok c) := by
  unfold Poly.computeMinMaxCandidates at e ⊢
  rw [← hN]
  split at e
  · rw [if_pos ‹_›]
    exact ⟨_, rfl, fun h => absurd rfl h⟩
  · rw [if_neg ‹_›]
    rw [Res.bind_eq_ok] at e
    obtain ⟨x, e1, e⟩ := e
    unfold Poly.getRoots at e1 ⊢
    rw [Res.bind_eq_ok] at e1
    obtain ⟨c, e2, -⟩ := e1
    obtain ⟨c', f2, -⟩ := getCoefficients_shape hN e2
    rw [f2, Res.ok_bind, Res.pure_eq, Res.ok_bind]
    split
    · exact ⟨_, rfl, fun _ => ⟨c', rfl⟩⟩
    · exact ⟨_, rfl, fun _ => ⟨c', rfl⟩⟩

theorem candidateTimes_shape {s s' : Segment K} (hs : SameShape s s') (rf : RootFinder K) {d : ℤ}
    {dims : List ℤ} {a b a' b' : K} {r : Bool × List K} (e : s.candidateTimes rf d a b dims = .ok r) :
    ∃ r', s'.candidateTimes rf d a' b' dims = .ok r' ∧ (r'.2 ≠ [] → Evaluable s' d dims) := by
  rcases dims with - | ⟨dim, - | ⟨dim2, dims⟩⟩
  · exact ⟨_, rfl, fun h => absurd rfl h⟩
  · unfold Segment.candidateTimes at e ⊢
    dsimp only at e ⊢
    split at e
    · cases e
    · rw [if_neg ‹_›]
      rw [Res.bind_eq_ok] at e
      obtain ⟨p, e1, e⟩ := e
      obtain ⟨p', f1, hN⟩ := hs.at e1
      obtain ⟨r', f2, f3⟩ := candidates_shape (a' := a') (b' := b') hN rf e
      rw [f1, Res.ok_bind, f2]
      refine ⟨r', rfl, fun h x hx => ?_⟩
      obtain rfl := List.mem_singleton.mp hx
      exact ⟨by omega, p', f1, f3 h⟩
  · unfold Segment.candidateTimes at e ⊢
    dsimp only at e ⊢
    rw [hs.2]
    split at e
    · cases e
    · rw [if_neg ‹_›]
      rw [Res.bind_eq_ok] at e
      obtain ⟨x, e1, e⟩ := e
      obtain ⟨x', f1, g1, g2⟩ := convolvedLoop_shape hs d _ _ _ _ _ rfl x e1
      rw [f1, Res.ok_bind]
      cases x with
      | none =>
        cases x' with
        | none => exact ⟨_, rfl, fun h => absurd rfl h⟩
        | some c' => simp at g1
      | some c =>
        cases x' with
        | none => simp at g1
        | some c' =>
          have hN : (Poly.mk c).N = (Poly.mk c').N := by simpa [Poly.N] using g1.symm
          obtain ⟨r', f2, -⟩ := candidates_shape (a' := a') (b' := b') hN rf e
          exact ⟨r', f2, fun _ => g2 (by simp)⟩

theorem magnitudeCandidates_shape {s s' : Segment K} (hs : SameShape s s') (rf : RootFinder K) (sq : K → K) {d : ℤ}
    (hd : 0 ≤ d) {dims : List ℤ} {a b a' b' : K} {r : Bool × List (Extremum K)}
    (e : s.magnitudeCandidates rf sq d a b dims = .ok r) :
    ∃ es, s'.magnitudeCandidates rf sq d a' b' dims = .ok (true, es) := by
  unfold Segment.magnitudeCandidates at e ⊢
  rw [Res.bind_eq_ok] at e
  obtain ⟨ct, e1, -⟩ := e
  obtain ⟨ct', f1, f2⟩ := candidateTimes_shape (a' := a') (b' := b') hs rf e1
  rw [f1, Res.ok_bind]
  have : ∃ es, (ct'.2.mapM fun t => do
      let m ← s'.squares d t dims 0
      pure (Extremum.mk t (sq m) 0)) = Res.ok es := by
    by_cases h0 : ct'.2 = []
    · rw [h0]
      exact ⟨[], rfl⟩
    · have hE := f2 h0
      generalize ct'.2 = ts
      induction ts with
      | nil => exact ⟨[], rfl⟩
      | cons t ts ih =>
        obtain ⟨v, hv⟩ := squares_evaluable hd t dims hE 0
        obtain ⟨es, he⟩ := ih
        rw [List.mapM_cons, hv, Res.ok_bind, Res.pure_eq, Res.ok_bind, he]
        exact ⟨_, rfl⟩
  obtain ⟨es, he⟩ := this
  rw [he]
  exact ⟨es, rfl⟩

theorem scaleTime_sameShape (s : Segment K) (c : K) : SameShape s (s.scaleTime c) := by
  refine ⟨?_, rfl⟩
  unfold Segment.scaleTime
  rw [List.map_map]
  apply List.map_congr_left
  intro p _
  exact scaleLoop_length _ _ _

theorem minMaxLoop_shape (rf : RootFinder K) (sq : K → K) {d : ℤ} (hd : 0 ≤ d) (dims : List ℤ) {c : K} (hc : 0 < c)
    (segs : List (Segment K)) : ∀ (i : ℕ) (mn mx mn' mx' : Extremum K) (r : Bool × Extremum K × Extremum K),
      minMaxMagnitudeLoop rf sq d dims segs i mn mx = .ok r →
      ∃ r', minMaxMagnitudeLoop rf sq d dims (segs.map fun s => s.scaleTime c) i mn' mx' = .ok r' := by
  induction segs with
  | nil => exact fun _ _ _ _ _ _ _ => ⟨_, rfl⟩
  | cons s segs ih =>
    intro i mn mx mn' mx' r e
    rw [minMaxMagnitudeLoop, Res.bind_eq_ok] at e
    obtain ⟨x, e1, e⟩ := e
    have hx : x.1 = true := by
      unfold Segment.magnitudeCandidates at e1
      rw [Res.bind_eq_ok] at e1
      obtain ⟨_, _, e1⟩ := e1
      rw [Res.bind_eq_ok] at e1
      obtain ⟨_, _, e1⟩ := e1
      rw [Res.pure_eq, Res.ok.injEq] at e1
      rw [← e1]
    obtain ⟨es, f1⟩ := magnitudeCandidates_shape (a' := 0) (b' := (s.scaleTime c).time) (scaleTime_sameShape s c) rf sq hd e1
    rw [List.map_cons, minMaxMagnitudeLoop, f1, Res.ok_bind]
    dsimp only
    rw [if_neg (by simp)]
    rw [if_neg (by simp [hx])] at e
    have ht : (s.scaleTime c).time = s.time * c := rfl
    by_cases h0 : 0 > s.time
    · have h1 : (0 : K) > s.time * c := mul_neg_of_neg_of_pos h0 hc
      unfold selectMinMaxMagnitude
      rw [ht, if_pos h1]
      dsimp only
      rw [if_pos (by simp)]
      exact ⟨_, rfl⟩
    · have h1 : ¬ (0 : K) > s.time * c := not_lt.mpr (mul_nonneg (not_lt.mp h0) hc.le)
      unfold selectMinMaxMagnitude at e ⊢
      rw [ht, if_neg h1]
      rw [if_neg h0] at e
      dsimp only at e ⊢
      rw [if_neg (by simp)] at e ⊢
      exact ih _ _ _ _ _ _ e

theorem maxVA_shape (rf : RootFinder K) (sq : K → K) {tr : Trajectory K} {c : K} (hc : 0 < c) {r : Bool × K × K}
    (e : tr.maxVelocityAndAcceleration rf sq = .ok r) :
    ∃ r', (tr.scaleCore c).maxVelocityAndAcceleration rf sq = .ok r' := by
  unfold Trajectory.maxVelocityAndAcceleration Trajectory.computeMinMaxMagnitude at e ⊢
  dsimp only at e ⊢
  rw [Res.bind_eq_ok] at e
  obtain ⟨v, e1, e⟩ := e
  rw [Res.bind_eq_ok] at e
  obtain ⟨a, e2, e⟩ := e
  obtain ⟨v', f1⟩ := minMaxLoop_shape rf sq (by norm_num) _ hc _ _ _ _
    { (Extremum.zero : Extremum K) with value := dblMax } { (Extremum.zero : Extremum K) with value := -dblMax } _ e1
  obtain ⟨a', f2⟩ := minMaxLoop_shape rf sq (by norm_num) _ hc _ _ _ _
    { (Extremum.zero : Extremum K) with value := dblMax } { (Extremum.zero : Extremum K) with value := -dblMax } _ e2
  refine ⟨(v'.1 && a'.1, v'.2.2.value, a'.2.2.value), ?_⟩
  unfold Trajectory.scaleCore
  dsimp only
  rw [f1, Res.ok_bind, f2, Res.ok_bind]
  rfl

/-- If the scaling returns, the maxima before and after it can be computed. -/
theorem scale_measures (rf : RootFinder K) (sq : K → K) (vMax aMax : K) (n : ℕ) : ∀ (tr : Trajectory K)
    (r : Bool × Trajectory K), scaleToMeetLoop rf sq vMax aMax (n + 1) tr = .ok r →
    (∃ m, tr.maxVelocityAndAcceleration rf sq = .ok m) ∧
    ∃ m, r.2.maxVelocityAndAcceleration rf sq = .ok m ∧
      (r.1 = true → m.2.1 / vMax ≤ 1 + 1 / 1000 ∧ m.2.2 / aMax ≤ 1 + 1 / 1000) := by
  induction n with
  | zero =>
    intro tr r e
    rw [scaleToMeetLoop_succ, Res.bind_eq_ok] at e
    obtain ⟨m, e1, e⟩ := e
    refine ⟨⟨m, e1⟩, ?_⟩
    dsimp only at e
    split at e
    · rw [Res.pure_eq, Res.ok.injEq] at e
      subst e
      exact ⟨m, e1, fun _ => ‹_›⟩
    · rw [scaleToMeetLoop, Res.ok.injEq] at e
      subst e
      obtain ⟨m', e2⟩ := maxVA_shape rf sq (c := max 1 (max (m.2.1 / vMax) (sq (m.2.2 / aMax))))
        (lt_of_lt_of_le one_pos (le_max_left _ _)) e1
      exact ⟨m', e2, fun h => by cases h⟩
  | succ n ih =>
    intro tr r e
    rw [scaleToMeetLoop_succ, Res.bind_eq_ok] at e
    obtain ⟨m, e1, e⟩ := e
    refine ⟨⟨m, e1⟩, ?_⟩
    dsimp only at e
    split at e
    · rw [Res.pure_eq, Res.ok.injEq] at e
      subst e
      exact ⟨m, e1, fun _ => ‹_›⟩
    · exact (ih _ _ e).2

end Order

end Verif
