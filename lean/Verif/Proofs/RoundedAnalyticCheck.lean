import Verif.Proofs.RoundedAnalytic

/-
The analytic feasibility check with rounded numbers: what its verdicts mean, that it returns, and that it is the check over a field
when nothing is rounded.
-/
set_option linter.unusedSectionVars false
namespace Verif
open Polynomial Set Filter Verif.Spec

section
variable {rnd : ℝ → ℝ} {u : ℝ}
variable (h : Rounding rnd u) (dot : Dot (Fl rnd)) (ic : InputConstraints (Fl rnd)) (g : Fin 3 → Fl rnd) (s : Segment (Fl rnd))
  (hs : s.WF) (hD : s.D = 3 ∨ s.D = 4) (hN : 4 ≤ s.N) (hT : 0 ≤ s.time.val) (A E V : ℝ) (he : AnalyticErrors u s g A E V)
  (Ey By : ℕ → ℝ) (F : ℝ) (hy : FeasErrors u s g Ey By F)
include h hs hD hN hT he hy

/-- The verdicts of the check, for any call of the root finder. -/
theorem checkAnalyticG_near (rc : RootCall (Fl rnd)) (m : Fl rnd) (fuel : ℕ) (r : Verdict)
    (hr : s.checkAnalyticG (flFeasLib rnd dot) rc ic g m fuel = .ok r) :
    (r = .indeterminable ∧ ic.hasConstraint kOmegaXYMax = true) ∨
    (r = .feasible ∧ ∀ ε, 0 ≤ ε → ApproxCall ε 0 s.time.val rc → ∀ t ∈ Icc 0 s.time.val,
      ThrustSpeedKept (fun k => candidateErrors E V k + searchError u ε s A E) ic g (realPolys s) t ∧
      (s.D = 4 → YawLimitsUpTo (fun k => 3 * Ey k + By (k + 2) * ε ^ 2) ic (realPolys s) t)) ∨
    (r ≠ .indeterminable ∧ r ≠ .feasible ∧
      ∃ t ∈ Icc 0 s.time.val, ViolatedUpTo 0 (candidateErrors E V) Ey ic g (realPolys s) t r) := by
  have hD3 : 3 ≤ s.D := by omega
  have c1 : candidateErrors E V 1 = V := by simp [candidateErrors]
  have c2 : candidateErrors E V 2 = V + E := by simp [candidateErrors]
  unfold Segment.checkAnalyticG at hr
  rw [if_pos hD, if_neg (by omega), Res.bind_eq_ok] at hr
  obtain ⟨tp, etp, hr⟩ := hr
  have hthrust : (tp.1 = .feasible ∧ ∀ ε, 0 ≤ ε → ApproxCall ε 0 s.time.val rc → ∀ t ∈ Icc 0 s.time.val,
          (∀ l, ic.getConstraint kFMin = some l →
            l.val ≤ thrust (fun i => (g i).val) (realPolys s) t + (V + E + searchError u ε s A E)) ∧
          (∀ l, ic.getConstraint kFMax = some l →
            thrust (fun i => (g i).val) (realPolys s) t ≤ l.val + (V + E + searchError u ε s A E))) ∨
       (tp.1 ≠ .feasible ∧ tp.1 ≠ .indeterminable ∧ ∃ t ∈ Icc 0 s.time.val, ∀ y,
          ViolatedUpTo 0 (candidateErrors E V) y ic g (realPolys s) t tp.1) := by
    unfold thrustPartG at etp
    split_ifs at etp with hc
    · obtain ⟨c, -, hcc⟩ := analyticThrustG_near h dot ic g s hs hD3 hN hT A E V he
      obtain ⟨x, hx⟩ := (hcc rc).1 tp etp
      obtain ⟨v, cands, e, hv⟩ := (hcc rc).2 x hx
      rw [etp] at e
      cases e
      exact hv
    · cases etp
      rw [not_or, not_or] at hc
      left
      refine ⟨rfl, fun ε hε hA t ht => ⟨fun l hl => ?_, fun l hl => ?_⟩⟩
      · exact absurd ((hasConstraintG_iff ic _).mpr ⟨l, hl⟩) hc.1
      · exact absurd ((hasConstraintG_iff ic _).mpr ⟨l, hl⟩) hc.2.1
  rcases hthrust with ⟨t1, t2⟩ | ⟨t1, t2, t, ht, t3⟩
  swap
  · rw [if_pos t1] at hr
    cases hr
    exact Or.inr (Or.inr ⟨t2, t1, t, ht, t3 Ey⟩)
  rw [if_neg (by rw [not_not]; exact t1), Res.bind_eq_ok] at hr
  obtain ⟨v, ev, hr⟩ := hr
  have hspeed : (v = none ∧ ∀ ε, 0 ≤ ε → ApproxCall ε 0 s.time.val rc → ∀ t ∈ Icc 0 s.time.val,
          ∀ l, ic.getConstraint kVMax = some l → speed (realPolys s) t ≤ l.val + (V + searchError u ε s A E)) ∨
       (v = some .velocity ∧ ∃ t ∈ Icc 0 s.time.val, ∀ y,
          ViolatedUpTo 0 (candidateErrors E V) y ic g (realPolys s) t .velocity) := by
    obtain ⟨c, -, hcc⟩ := analyticVelocityG_near h dot ic g s hs hD3 hN hT A E V he
    obtain ⟨q1, q2⟩ := hcc rc
    rcases q2 with ⟨q2, q3⟩ | q2
    · rw [ev] at q3
      cases q3
      exact Or.inl ⟨rfl, fun _ _ _ _ _ l hl => by rw [q2] at hl; cases hl⟩
    · by_cases hne : ic.getConstraint kVMax = none
      · unfold analyticVelocityG at ev
        rw [hne] at ev
        cases ev
        exact Or.inl ⟨rfl, fun _ _ _ _ _ l hl => by rw [hne] at hl; cases hl⟩
      obtain ⟨x, hx⟩ := q1 v ev hne
      obtain ⟨v', e, hv⟩ := q2 x hx
      rw [ev] at e
      cases e
      exact hv
  rcases hspeed with ⟨rfl, v2⟩ | ⟨rfl, t, ht, v2⟩
  swap
  · cases hr
    exact Or.inr (Or.inr ⟨by simp, by simp, t, ht, v2 Ey⟩)
  dsimp only at hr
  rw [Res.bind_eq_ok] at hr
  obtain ⟨y, ey, hr⟩ := hr
  rcases yawChecksG_near h dot rc 0 ic s hs hN g Ey By F hy hT y ey with ⟨rfl, -⟩ | ⟨w, rfl, hw, t, ht, y2⟩
  swap
  · cases hr
    refine Or.inr (Or.inr ⟨?_, ?_, t, ht, y2 _ _⟩)
    · rcases hw with rfl | rfl <;> simp
    · rcases hw with rfl | rfl <;> simp
  dsimp only at hr
  have hkept : ∀ ε, 0 ≤ ε → ApproxCall ε 0 s.time.val rc → ∀ t ∈ Icc 0 s.time.val,
      ThrustSpeedKept (fun k => candidateErrors E V k + searchError u ε s A E) ic g (realPolys s) t ∧
      (s.D = 4 → YawLimitsUpTo (fun k => 3 * Ey k + By (k + 2) * ε ^ 2) ic (realPolys s) t) := by
    intro ε hε hA t ht
    obtain ⟨f1, f2⟩ := t2 ε hε hA t ht
    refine ⟨⟨fun l hl => ?_, fun l hl => ?_, fun l hl => ?_⟩, fun hD4 => ?_⟩
    · obtain ⟨x, hx, rfl⟩ := Option.map_eq_some_iff.mp hl
      have := f1 x hx
      rw [c2]
      linarith
    · obtain ⟨x, hx, rfl⟩ := Option.map_eq_some_iff.mp hl
      have := f2 x hx
      rw [c2]
      linarith
    · obtain ⟨x, hx, rfl⟩ := Option.map_eq_some_iff.mp hl
      have := v2 ε hε hA t ht x hx
      rw [c1]
      linarith
    · rcases yawChecksG_near h dot rc ε ic s hs hN g Ey By F hy hT none ey with ⟨-, y2⟩ | ⟨w, hw, -⟩
      · exact y2 hD4 ⟨hε, hA⟩ t ht
      · cases hw
  unfold rollPitchPartG at hr
  split_ifs at hr with ho
  · rw [Res.bind_eq_ok] at hr
    obtain ⟨j, ej, hr⟩ := hr
    split_ifs at hr with hj
    · cases hr
      exact Or.inl ⟨rfl, ho⟩
    · rcases recursiveRollPitchG_cases _ _ _ _ _ _ _ _ _ hr with rfl | rfl
      · exact Or.inr (Or.inl ⟨rfl, hkept⟩)
      · exact Or.inl ⟨rfl, ho⟩
  · cases hr
    exact Or.inr (Or.inl ⟨rfl, hkept⟩)

/-- The check returns if the root finder does. -/
theorem checkAnalyticG_returns (hu : u ≤ 1 / 100) (m : Fl rnd) (hm : 0 < m.val) (hmT : 8 * u * s.time.val ≤ m.val)
    (rc : RootCall (Fl rnd)) (hrc : ∀ c, c.length ≤ 101 → ∃ x, rc c = .ok x) (n : ℕ)
    (hn : s.time.val < m.val / 2 * (5 / 4) ^ n) :
    ∃ r, ∀ fuel, n < fuel → s.checkAnalyticG (flFeasLib rnd dot) rc ic g m fuel = .ok r := by
  have hD3 : 3 ≤ s.D := by omega
  obtain ⟨tp, etp⟩ : ∃ tp, thrustPartG (flFeasLib rnd dot) rc ic g s = .ok tp := by
    unfold thrustPartG
    split_ifs
    · obtain ⟨c, hlen, hcc⟩ := analyticThrustG_near h dot ic g s hs hD3 hN hT A E V he
      obtain ⟨x, hx⟩ := hrc c hlen
      obtain ⟨v, cands, e, -⟩ := (hcc rc).2 x hx
      exact ⟨_, e⟩
    · exact ⟨_, rfl⟩
  obtain ⟨v, ev⟩ : ∃ v, analyticVelocityG (flFeasLib rnd dot) rc ic s = .ok v := by
    obtain ⟨c, hlen, hcc⟩ := analyticVelocityG_near h dot ic g s hs hD3 hN hT A E V he
    obtain ⟨x, hx⟩ := hrc c hlen
    rcases (hcc rc).2 with ⟨-, q⟩ | q
    · exact ⟨_, q⟩
    · obtain ⟨v, e, -⟩ := q x hx
      exact ⟨_, e⟩
  obtain ⟨y, ey⟩ := yawChecksG_returns h dot rc ic s hs hN g Ey By F hy hT (fun c hc => hrc c (by have := hs.small; omega))
  obtain ⟨r, hr⟩ := rollPitchPartG_returns h dot ic g s hs hD3 hN hT A E V he hu m hm hmT tp.2 rc hrc n hn
  have hex : ∃ r', ∀ fuel, n < fuel → (if tp.1 ≠ .feasible then pure tp.1 else
      match v with
      | some r => pure r
      | none =>
        match y with
        | some r => pure r
        | none => rollPitchPartG (flFeasLib rnd dot) rc ic m fuel s tp.2 : Res Verdict) = .ok r' := by
    by_cases h1 : tp.1 = .feasible
    · cases v with
      | some v => exact ⟨v, fun fuel _ => by rw [if_neg (by rw [not_not]; exact h1)]; rfl⟩
      | none =>
        cases y with
        | some y => exact ⟨y, fun fuel _ => by rw [if_neg (by rw [not_not]; exact h1)]; rfl⟩
        | none => exact ⟨r, fun fuel hf => by rw [if_neg (by rw [not_not]; exact h1)]; exact hr fuel hf⟩
    · exact ⟨tp.1, fun fuel _ => by rw [if_pos h1]; rfl⟩
  obtain ⟨r', hr'⟩ := hex
  refine ⟨r', fun fuel hf => ?_⟩
  rw [← hr' fuel hf]
  unfold Segment.checkAnalyticG
  rw [if_pos hD, if_neg (by omega), etp, Res.ok_bind, ev]
  split_ifs
  · rfl
  · rw [Res.ok_bind]
    cases v with
    | some v => rfl
    | none =>
      dsimp only
      rw [ey, Res.ok_bind]
      cases y <;> rfl

end

section Field
variable {K : Type} [Field K] [LinearOrder K]

theorem candidateTimesM_field (lib : MagLib K) (rf : RootFinder K) (s : Segment K) (d : ℤ) (a b : K) (dims : List ℤ) :
    s.candidateTimesM lib (fun c => .ok (rf c)) d a b dims = s.candidateTimesG lib rf d a b dims := by
  have hp : ∀ (p : Poly K) (d : ℤ), p.computeMinMaxCandidatesM lib.abs lib.eps (fun c => .ok (rf c)) a b d =
      p.computeMinMaxCandidatesG lib.abs lib.eps rf a b d := by
    intro p d
    unfold Poly.computeMinMaxCandidatesM Poly.computeMinMaxCandidatesG
    split_ifs
    · rfl
    · congr 1
  unfold Segment.candidateTimesM Segment.candidateTimesG
  match dims with
  | [] => rfl
  | [dim] => simp only [hp]
  | d1 :: d2 :: ds =>
    dsimp only
    simp only [hp]
    rfl

theorem magnitudeCandidatesM_field (sq : K → K) (rf : RootFinder K) (s : Segment K) (d : ℤ) (a b : K) (dims : List ℤ) :
    s.magnitudeCandidatesM (fieldFeasLib sq).toMagLib (fun c => .ok (rf c)) d a b dims = s.magnitudeCandidates rf sq d a b dims := by
  rw [← magnitudeCandidatesG_field]
  unfold Segment.magnitudeCandidatesM Segment.magnitudeCandidatesG
  rw [candidateTimesM_field]
  rfl

theorem recursiveRollPitchG_field (sq : K → K) (ic : InputConstraints K) (m : K) (tc jc : List (Extremum K)) (fuel : ℕ) (a b : K) :
    recursiveRollPitchG (fieldFeasLib sq) ic m tc jc fuel a b = recursiveRollPitch sq ic m tc jc fuel a b := by
  induction fuel generalizing a b with
  | zero => rfl
  | succ fuel ih =>
    rw [recursiveRollPitchG, recursiveRollPitch]
    simp only [ih]
    rfl

theorem minElementG_eq (l : List (Extremum K)) : minElementG l = minElement l := by cases l <;> rfl

theorem maxElementG_eq (l : List (Extremum K)) : maxElementG l = maxElement l := by cases l <;> rfl

theorem checkAnalyticG_field (rf : RootFinder K) (sq : K → K) (ic : InputConstraints K) (g : Fin 3 → K) (m : K) (fuel : ℕ)
    (s : Segment K) :
    s.checkAnalyticG (fieldFeasLib sq) (fun c => .ok (rf c)) ic g m fuel = s.checkAnalytic rf sq ic g m fuel := by
  have ht : thrustPartG (fieldFeasLib sq) (fun c => .ok (rf c)) ic g s = thrustPart rf sq ic g s := by
    unfold thrustPartG thrustPart analyticThrustG analyticThrust
    simp only [magnitudeCandidatesM_field, minElementG_eq, maxElementG_eq]
    split_ifs
    · have e : thrustSegmentG g s = thrustSegment g s := rfl
      rw [e]
      cases thrustSegment g s with
      | ok ts =>
        simp only [Res.ok_bind]
        cases Segment.magnitudeCandidates rf sq ts 0 0 ts.time kPosDim with
        | ok c =>
          simp only [Res.ok_bind]
          split_ifs
          · rfl
          · have e1 : ∀ ty el p, candidatesViolateG ic ty el p = candidatesViolate ic ty el p := fun _ _ _ => rfl
            simp only [e1]
            cases candidatesViolate ic kFMin (minElement c.2) fun v lim => decide (v < lim) with
            | ok low =>
              simp only [Res.ok_bind]
              split_ifs
              · rfl
              · cases candidatesViolate ic kFMax (maxElement c.2) fun v lim => decide (v > lim) with
                | ok high =>
                  simp only [Res.ok_bind]
                  split_ifs <;> rfl
                | _ => rfl
            | _ => rfl
        | _ => rfl
      | _ => rfl
    · rfl
  have hv : analyticVelocityG (fieldFeasLib sq) (fun c => .ok (rf c)) ic s = analyticVelocity rf sq ic s := by
    unfold analyticVelocityG analyticVelocity
    simp only [magnitudeCandidatesM_field, maxElementG_eq]
    rfl
  have hyaw : yawChecksG (fieldFeasLib sq) (fun c => .ok (rf c)) ic s = yawChecks rf ic s := by
    unfold yawChecksG yawChecks
    simp only [yawCheckG_field]
    rfl
  unfold Segment.checkAnalyticG Segment.checkAnalytic rollPitchPartG
  simp only [ht, hv, hyaw, magnitudeCandidatesM_field, recursiveRollPitchG_field]
  rfl

end Field

section Settles
variable {K : Type} [Zero K] [One K] [Add K] [Sub K] [Mul K] [Div K] [Neg K] [NatCast K] [LT K] [DecidableLT K]

theorem thrustSegmentG_small (g : Fin 3 → K) (s ts : Segment K) (hs : s.Small) (h : thrustSegmentG g s = .ok ts) : ts.Small := by
  unfold thrustSegmentG at h
  rw [Res.bind_eq_ok] at h
  obtain ⟨ps, hps, h⟩ := h
  rw [← Res.ok.inj h]
  refine ⟨by have := hs.1; dsimp only; omega, fun p hp => ?_⟩
  obtain ⟨i, _, hi⟩ := Res.mapM_eq_ok hps p hp
  unfold thrustPolyG at hi
  rw [Res.bind_eq_ok] at hi
  obtain ⟨q, _, hi⟩ := hi
  rw [Res.bind_eq_ok] at hi
  obtain ⟨c, _, hi⟩ := hi
  rw [Res.bind_eq_ok] at hi
  obtain ⟨c', hc', hi⟩ := hi
  unfold headN at hc'
  split_ifs at hc'
  have hlen : c'.length ≤ 22 := by
    rw [← Res.ok.inj hc', List.length_take]
    have := hs.1
    omega
  cases c' with
  | nil => cases hi
  | cons a as =>
    rw [← Res.ok.inj hi]
    exact hlen

theorem checkAnalyticG_ev {rc : ℕ → RootCall K} {rf : RootFinder K} (hl : RootLimit rc rf) (lib : FeasLib K)
    (ic : InputConstraints K) (g : Fin 3 → K) (minSection : K) (s : Segment K) (hs : s.Small) :
    ∀ᶠ n in atTop, ∀ fuel, s.checkAnalyticG lib (rc n) ic g minSection fuel =
      s.checkAnalyticG lib (fun c => .ok (rf c)) ic g minSection fuel := by
  have hmag : ∀ (s : Segment K), s.Small → ∀ d : ℤ, 0 ≤ d → ∀ a b dims,
      ∀ᶠ n in atTop, s.magnitudeCandidatesM lib.toMagLib (rc n) d a b dims =
        s.magnitudeCandidatesM lib.toMagLib (fun c => .ok (rf c)) d a b dims := by
    intro s hs d hd a b dims
    have h2 : RootLimit (fun _ : ℕ => fun c => .ok (rf c)) rf := fun c _ => Eventually.of_forall fun _ => rfl
    filter_upwards [magnitudeCandidatesM_ev hl lib.toMagLib s hs d hd a b dims,
      magnitudeCandidatesM_ev h2 lib.toMagLib s hs d hd a b dims] with n e1 e2
    rw [e1, e2]
  unfold Segment.checkAnalyticG
  refine ev_ite_all (fun _ => ?_) fun _ => ev_rfl_all
  refine ev_ite_all (fun _ => ev_rfl_all) fun _ => ?_
  refine ev_bind_all ?_ fun t _ => ?_
  · unfold thrustPartG
    refine ev_ite (fun _ => ?_) fun _ => ev_rfl
    unfold analyticThrustG
    exact ev_bind_const fun ts hts => ev_bind (hmag ts (thrustSegmentG_small g s ts hs hts) 0 le_rfl _ _ _) fun c _ => ev_rfl
  refine ev_ite_all (fun _ => ev_rfl_all) fun _ => ?_
  refine ev_bind_all ?_ fun v _ => ?_
  · unfold analyticVelocityG
    cases ic.getConstraint kVMax with
    | none => exact ev_rfl
    | some lim => exact ev_bind (hmag s hs 1 (by norm_num) _ _ _) fun c _ => ev_rfl
  cases v with
  | some v => exact ev_rfl_all
  | none =>
  dsimp only
  refine ev_bind_all (yawChecksG_on lib ic s fun p hp d _ => hl.coefficients p ((hs.2 p hp).trans (by norm_num)) d) fun y _ => ?_
  cases y with
  | some v => exact ev_rfl_all
  | none =>
  unfold rollPitchPartG
  dsimp only
  refine ev_ite_all (fun _ => ?_) fun _ => ev_rfl_all
  exact ev_bind_all (hmag s hs 3 (by norm_num) _ _ _) fun j _ => ev_rfl_all

end Settles

end Verif
