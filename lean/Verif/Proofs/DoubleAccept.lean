import Verif.Proofs.DoubleRecursive

/-
Lemmas about the other feasibility checks with NaN.
-/
namespace Verif

open Spec

variable {dot : Dot Dbl} {ic : InputConstraints Dbl} {g : Fin 3 → Dbl} {s : Segment Dbl}

/-! ### Half planes -/

theorem candidatesInside_nan (hdot : NanDot dot) {i : Fin 3} {p : Poly Dbl} (hp : s.polys[(i : ℕ)]? = some p) (hn : HasNan p 0)
    (hN : p.N ≤ 22) (hp' : HalfPlane Dbl) (ts : List Dbl) : (candidatesInsideG dot s hp' ts).Sat (· = true) := by
  induction ts with
  | nil => exact Res.sat_ok rfl
  | cons t ts ih =>
    intro b h
    rw [candidatesInsideG, Res.bind_eq_ok] at h
    obtain ⟨v, hv, h⟩ := h
    rw [Res.bind_eq_ok] at h
    obtain ⟨x, hx, h⟩ := h
    have h1 := segment_evaluate_nan (d := 0) hv hp (evaluate_nan hn hN t)
    have h2 := vecHead3_nan hx i h1
    rw [hdot 3 _ _ i (by rw [h2, nan_sub]), if_neg (not_nan_le _)] at h
    exact ih b h

theorem halfPlanes_nan (hdot : NanDot dot) (rf : RootCall Dbl) {i : Fin 3} {p : Poly Dbl} (hp : s.polys[(i : ℕ)]? = some p)
    (hn : HasNan p 0) (hN : p.N ≤ 22) (hD : s.D = 3 ∨ s.D = 4) (hps : List (HalfPlane Dbl)) :
    (s.checkHalfPlanesDbl dot rf hps).Sat (· = true) := by
  unfold Segment.checkHalfPlanesDbl Segment.checkHalfPlanesM
  rw [if_pos hD]
  induction hps with
  | nil => exact Res.sat_ok rfl
  | cons h hs ih =>
    intro b hb
    rw [halfPlaneLoopM, Res.bind_eq_ok] at hb
    obtain ⟨q, -, hb⟩ := hb
    rw [Res.bind_eq_ok] at hb
    obtain ⟨c, -, hb⟩ := hb
    rw [Res.bind_eq_ok] at hb
    obtain ⟨b', hb', hb⟩ := hb
    have := candidatesInside_nan hdot hp hn hN h c.2 b' hb'
    subst this
    rw [if_pos rfl] at hb
    exact ih b hb

/-! ### Magnitudes -/

theorem squares_nan {d : ℕ} {t : Dbl} {i : ℕ} {p : Poly Dbl} (hp : s.polys[i]? = some p) (hn : p.evaluate t d = .ok .nan)
    (dims : List ℤ) : ∀ acc v, s.squaresG dblLib d t dims acc = .ok v → acc = .nan ∨ (i : ℤ) ∈ dims → v = .nan := by
  induction dims with
  | nil =>
    intro acc v h hi
    rw [Segment.squaresG, Res.ok.injEq] at h
    rcases hi with hi | hi
    · rw [← h, hi]
    · simp at hi
  | cons j dims ih =>
    intro acc v h hi
    rw [Segment.squaresG] at h
    split_ifs at h with hj
    rw [Res.bind_eq_ok] at h
    obtain ⟨q, hq, h⟩ := h
    rw [Res.bind_eq_ok] at h
    obtain ⟨w, hw, h⟩ := h
    refine ih _ _ h ?_
    rcases hi with hi | hi
    · left; rw [hi, nan_add]
    · rcases List.mem_cons.mp hi with hi | hi
      · left
        have e : j.toNat = i := by omega
        have hlt := (List.getElem?_eq_some_iff.mp hp).1
        rw [e, Res.at'_of_lt hlt, Res.ok.injEq, (List.getElem?_eq_some_iff.mp hp).2] at hq
        rw [← hq, hn, Res.ok.injEq] at hw
        rw [← hw]
        change acc + .nan * .nan = .nan
        rw [nan_mul, add_nan]
      · exact Or.inr hi

theorem magnitudes_nan (rf : RootCall Dbl) {d : ℕ} {i : Fin 3} {p : Poly Dbl} (hp : s.polys[(i : ℕ)]? = some p)
    (hn : ∀ t, p.evaluate t d = .ok .nan) (a b : Dbl) :
    (s.magnitudeCandidatesM dblLib rf d a b kPosDim).Sat fun r => r.1 = true ∧ ∀ e ∈ r.2, e.value = .nan := by
  intro r h
  unfold Segment.magnitudeCandidatesM at h
  rw [Res.bind_eq_ok] at h
  obtain ⟨ct, -, h⟩ := h
  rw [Res.bind_eq_ok] at h
  obtain ⟨es, hes, h⟩ := h
  rw [Res.pure_eq, Res.ok.injEq] at h
  subst h
  refine ⟨rfl, fun e he => ?_⟩
  obtain ⟨t, -, ht⟩ := Res.mapM_eq_ok hes e he
  rw [Res.bind_eq_ok] at ht
  obtain ⟨m, hm, ht⟩ := ht
  rw [Res.pure_eq, Res.ok.injEq] at ht
  have := squares_nan hp (hn t) _ _ _ hm (Or.inr (by unfold kPosDim; fin_cases i <;> simp))
  rw [← ht, this]
  rfl

theorem foldMin_nan (es : List (Extremum Dbl)) (h : ∀ e ∈ es, e.value = .nan) (a : Extremum Dbl) : es.foldl Extremum.stdMin a = a := by
  induction es generalizing a with
  | nil => rfl
  | cons e es ih =>
    rw [List.foldl_cons]
    have : a.stdMin e = a := by
      unfold Extremum.stdMin
      rw [h e (List.mem_cons_self ..), if_neg (not_nan_lt _)]
    rw [this]
    exact ih (fun x hx => h x (List.mem_cons_of_mem _ hx)) a

theorem foldMax_nan (es : List (Extremum Dbl)) (h : ∀ e ∈ es, e.value = .nan) (a : Extremum Dbl) : es.foldl Extremum.stdMax a = a := by
  induction es generalizing a with
  | nil => rfl
  | cons e es ih =>
    rw [List.foldl_cons]
    have : a.stdMax e = a := by
      unfold Extremum.stdMax
      rw [h e (List.mem_cons_self ..), if_neg (not_lt_nan _)]
    rw [this]
    exact ih (fun x hx => h x (List.mem_cons_of_mem _ hx)) a

theorem minElement_nan {es : List (Extremum Dbl)} (h : ∀ e ∈ es, e.value = .nan) : (minElementG es).Sat fun e => e.value = .nan := by
  intro e he
  cases es with
  | nil => simp [minElementG] at he
  | cons a es =>
    rw [minElementG, Res.ok.injEq, foldMin_nan es fun x hx => h x (List.mem_cons_of_mem _ hx)] at he
    rw [← he]
    exact h a (List.mem_cons_self ..)

theorem maxElement_nan {es : List (Extremum Dbl)} (h : ∀ e ∈ es, e.value = .nan) : (maxElementG es).Sat fun e => e.value = .nan := by
  intro e he
  cases es with
  | nil => simp [maxElementG] at he
  | cons a es =>
    rw [maxElementG, Res.ok.injEq, foldMax_nan es fun x hx => h x (List.mem_cons_of_mem _ hx)] at he
    rw [← he]
    exact h a (List.mem_cons_self ..)

/-! ### The analytic check -/

theorem violate_nan {type : ℤ} {el : Res (Extremum Dbl)} (h : el.Sat fun e => e.value = .nan) {q : Dbl → Dbl → Bool}
    (hq : ∀ x, q .nan x = false) : (candidatesViolateG ic type el q).Sat (· = false) := by
  intro b hb
  unfold candidatesViolateG at hb
  split at hb
  · rw [Res.bind_eq_ok] at hb
    obtain ⟨e, he, hb⟩ := hb
    rw [Res.pure_eq, Res.ok.injEq, h e he, hq] at hb
    exact hb.symm
  · rw [Res.ok.injEq] at hb
    exact hb.symm

theorem thrustSegment_nan {i : Fin 3} {p : Poly Dbl} (hp : s.polys[(i : ℕ)]? = some p) (hn : HasNan p 3) (hsN : p.N = s.N)
    (hN : s.N ≤ 22) {ts : Segment Dbl} (h : thrustSegmentG g s = .ok ts) :
    ∃ q, ts.polys[(i : ℕ)]? = some q ∧ HasNan q 1 ∧ q.N ≤ 22 := by
  unfold thrustSegmentG at h
  rw [Res.bind_eq_ok] at h
  obtain ⟨ps, hps, h⟩ := h
  rw [Res.pure_eq, Res.ok.injEq] at h
  subst h
  rw [Res.mapM_forall₂] at hps
  have hl := hps.length_eq
  have hl' : ps.length = 3 := by rw [← hl]; rfl
  have hg := hps.get (i := i) (by simp) (by omega)
  have e : ([0, 1, 2] : List (Fin 3)).get ⟨i, by simp⟩ = i := by fin_cases i <;> rfl
  rw [e] at hg
  have hips : (i : ℕ) < ps.length := by omega
  refine ⟨ps[(i : ℕ)], List.getElem?_eq_getElem hips, ?_⟩
  rw [List.get_eq_getElem] at hg
  dsimp only at hg
  generalize ps[(i : ℕ)] = q at *
  unfold thrustPolyG at hg
  rw [Res.bind_eq_ok] at hg
  obtain ⟨p', hp', hg⟩ := hg
  have hi := (List.getElem?_eq_some_iff.mp hp).1
  unfold Segment.get at hp'
  rw [Res.check_of (by exact hi), Res.ok_bind, Res.at'_of_lt hi, Res.ok.injEq, (List.getElem?_eq_some_iff.mp hp).2] at hp'
  subst hp'
  rw [Res.bind_eq_ok] at hg
  obtain ⟨c, hc, hg⟩ := hg
  rw [Res.bind_eq_ok] at hg
  obtain ⟨c', hc', hg⟩ := hg
  obtain ⟨j, hj, hx⟩ := hn
  have hjN : j < p.N := (List.getElem?_eq_some_iff.mp hx).1
  unfold Poly.getCoefficients at hc
  rw [Res.check_of (by omega), Res.ok_bind, if_neg (by norm_num), if_neg (by unfold kMaxConvolutionSize; omega), Res.pure_eq,
    Res.ok.injEq] at hc
  have hk : (2 : ℤ).toNat = 2 := rfl
  rw [hk] at hc
  have hcl : c.length = p.N := by
    rw [← hc, List.length_append, List.length_map, List.length_range, List.length_replicate]
    omega
  have hcj : c[j - 2]? = some .nan := by
    rw [← hc, List.getElem?_append_left (by rw [List.length_map, List.length_range]; omega), List.getElem?_map,
      List.getElem?_range (by omega), Option.map_some, show 2 + (j - 2) = j by omega, List.getD_eq_getElem?_getD, hx,
      Option.getD_some, nan_mul]
  unfold headN at hc'
  rw [if_pos (by omega), Res.ok.injEq] at hc'
  have hc'j : c'[j - 2]? = some .nan := by
    rw [← hc', List.getElem?_take_of_lt (by omega), hcj]
  cases c' with
  | nil => simp at hc'j
  | cons a as =>
    dsimp only at hg
    rw [Res.pure_eq, Res.ok.injEq] at hg
    subst hg
    have hlen := congrArg List.length hc'
    rw [List.length_take, List.length_cons] at hlen
    refine ⟨⟨j - 2, by omega, ?_⟩, ?_⟩
    · rw [show j - 2 = (j - 3) + 1 by omega, List.getElem?_cons_succ] at hc'j ⊢
      exact hc'j
    · unfold Poly.N
      rw [List.length_cons]
      omega

theorem select_magnitude_nan {t1 t2 : Dbl} (h : ¬ t1 > t2) {es : List (Extremum Dbl)} (he : ∀ e ∈ es, e.value = .nan) :
    selectMinMaxMagnitudeG dblLib t1 t2 es Extremum.zero Extremum.zero =
      (true, { Extremum.zero with value := .fin dblMax }, { Extremum.zero with value := .fin (-dblMax) }) := by
  unfold selectMinMaxMagnitudeG
  rw [if_neg h]
  have : ∀ st : Extremum Dbl × Extremum Dbl, es.foldl (fun (s : Extremum Dbl × Extremum Dbl) c =>
      if c.time < t1 ∨ c.time > t2 then s else (s.1.stdMin c, s.2.stdMax c)) st = st := by
    induction es with
    | nil => exact fun _ => rfl
    | cons e es ih =>
      intro st
      rw [List.foldl_cons]
      have h1 : st.1.stdMin e = st.1 := by
        unfold Extremum.stdMin
        rw [he e (List.mem_cons_self ..), if_neg (not_nan_lt _)]
      have h2 : st.2.stdMax e = st.2 := by
        unfold Extremum.stdMax
        rw [he e (List.mem_cons_self ..), if_neg (not_lt_nan _)]
      rw [h1, h2, ite_self]
      exact ih (fun x hx => he x (List.mem_cons_of_mem _ hx)) st
  dsimp only
  rw [this]
  rfl

theorem tiny_lt_max (dot : Dot Dbl) : (dblFeasLib dot).tiny < .fin dblMax := by
  change Dbl.ofReal (1 / 10 ^ 6) < _
  have h1 : (1 : ℝ) ≤ (2 : ℝ) ^ (1023 : ℤ) := one_le_zpow₀ (by norm_num) (by norm_num)
  have h3 : (1 : ℝ) ≤ (2 : ℝ) ^ (1000 : ℤ) := one_le_zpow₀ (by norm_num) (by norm_num)
  rw [ofReal_half (by rw [abs_of_pos (by norm_num)]; generalize (2 : ℝ) ^ (1023 : ℤ) = A at *; norm_num; linarith)]
  have h2 := round64_nearest (1 / 10 ^ 6) (m := 0) (e := 0) (by decide) (by norm_num)
  rw [Int.cast_zero, zero_mul, zero_sub, abs_neg, abs_of_pos (show (0 : ℝ) < 1 / 10 ^ 6 by norm_num)] at h2
  have := dblMax_big
  have h4 := (abs_le.mp h2).2
  change round64 (1 / 10 ^ 6) < dblMax
  generalize (2 : ℝ) ^ (1000 : ℤ) = A at *
  generalize round64 (1 / 10 ^ 6) = B at *
  generalize (dblMax : ℝ) = C at *
  norm_num at h4
  linarith

theorem rollPitch_nan {minSection : Dbl} {tc jc : List (Extremum Dbl)} (ht : ∀ e ∈ tc, e.value = .nan)
    (hj : ∀ e ∈ jc, e.value = .nan) (fuel : ℕ) {t1 t2 : Dbl} (h1 : ¬ t2 - t1 < minSection) (h2 : ¬ t1 > t2) :
    recursiveRollPitchG (dblFeasLib dot) ic minSection tc jc (fuel + 1) t1 t2 = .ok .feasible := by
  have hM : (0 : ℝ) < dblMax := by
    have := dblMax_big
    have := zpow2_pos 1000
    generalize (2 : ℝ) ^ (1000 : ℤ) = A at *
    linarith
  have hs : (dblFeasLib dot).sqrt (Dbl.fin (-dblMax) / .fin dblMax) = .nan := by
    have : Dbl.fin (-dblMax) / .fin dblMax = .fin (-1) := by
      change (if (dblMax : ℝ) = 0 then _ else Dbl.ofReal (-dblMax / dblMax)) = _
      rw [if_neg hM.ne', neg_div, div_self hM.ne']
      have hd : IsDouble (-1) := ⟨-1, 0, by decide, by norm_num, by norm_num, by norm_num⟩
      unfold Dbl.ofReal
      rw [hd.round64, if_pos hd.lt]
    rw [this]
    change (if (-1 : ℝ) < 0 then Dbl.nan else _) = _
    rw [if_pos (by norm_num)]
  rw [recursiveRollPitchG, if_neg h1]
  have e1 : selectMinMaxMagnitudeG (dblFeasLib dot).toMagLib t1 t2 tc Extremum.zero Extremum.zero = _ :=
    select_magnitude_nan h2 ht
  have e2 : selectMinMaxMagnitudeG (dblFeasLib dot).toMagLib t1 t2 jc Extremum.zero Extremum.zero = _ :=
    select_magnitude_nan h2 hj
  have e3 : (dblFeasLib dot).tiny < .fin dblMax := tiny_lt_max dot
  dsimp only
  rw [e1, e2]
  dsimp only
  rw [if_pos e3, hs]
  simp only [Bool.not_true, Bool.false_eq_true, if_false]
  split
  · rfl
  · rw [if_neg (not_lt_nan _)]

theorem analytic_nan (rf : RootCall Dbl) {i : Fin 3} {p : Poly Dbl} (hp : s.polys[(i : ℕ)]? = some p) (hn : HasNan p 3)
    (hsN : p.N = s.N) (hN : s.N ≤ 22) (hD : s.D = 3) {minSection : Dbl} (hm : 0 < minSection) (hT : 0 ≤ s.time)
    (hT' : ¬ s.time - 0 < minSection) (fuel : ℕ) :
    (s.checkAnalyticDbl rf ic g minSection (fuel + 1)).Sat (· = .feasible) := by
  intro v h
  unfold Segment.checkAnalyticDbl Segment.checkAnalyticG at h
  have h4 : 4 ≤ s.N := by
    obtain ⟨j, hj, hx⟩ := hn
    have : j < p.N := (List.getElem?_eq_some_iff.mp hx).1
    omega
  rw [if_pos (Or.inl hD), if_neg (by omega), Res.bind_eq_ok] at h
  obtain ⟨t, ht, h⟩ := h
  have key : t.1 = .feasible ∧ ∀ e ∈ t.2, e.value = .nan := by
    unfold thrustPartG at ht
    split_ifs at ht
    · unfold analyticThrustG at ht
      rw [Res.bind_eq_ok] at ht
      obtain ⟨ts, hts, ht⟩ := ht
      obtain ⟨q, hq, hqn, hqN⟩ := thrustSegment_nan hp hn hsN hN hts
      rw [Res.bind_eq_ok] at ht
      obtain ⟨c, hc, ht⟩ := ht
      obtain ⟨hc1, hc2⟩ := magnitudes_nan (d := 0) rf hq (fun t => evaluate_nan (hqn.mono (by omega)) hqN t) _ _ c hc
      rw [hc1] at ht
      simp only [Bool.not_true, Bool.false_eq_true, if_false] at ht
      rw [Res.bind_eq_ok] at ht
      obtain ⟨low, hlow, ht⟩ := ht
      rw [violate_nan (minElement_nan hc2) (fun x => decide_eq_false (not_nan_lt x)) low hlow] at ht
      simp only [Bool.false_eq_true, if_false] at ht
      rw [Res.bind_eq_ok] at ht
      obtain ⟨high, hhigh, ht⟩ := ht
      rw [violate_nan (maxElement_nan hc2) (fun x => decide_eq_false (not_lt_nan x)) high hhigh] at ht
      simp only [Bool.false_eq_true, if_false] at ht
      rw [Res.pure_eq, Res.ok.injEq] at ht
      rw [← ht]
      exact ⟨rfl, hc2⟩
    · rw [Res.ok.injEq] at ht
      rw [← ht]
      exact ⟨rfl, fun e he => by simp at he⟩
  rw [key.1, if_neg (by simp), Res.bind_eq_ok] at h
  obtain ⟨w, hw, h⟩ := h
  have hw' : w = none := by
    unfold analyticVelocityG at hw
    split at hw
    · rw [Res.ok.injEq] at hw
      exact hw.symm
    · rw [Res.bind_eq_ok] at hw
      obtain ⟨c, hc, hw⟩ := hw
      obtain ⟨hc1, hc2⟩ := magnitudes_nan (d := 1) rf hp
        (fun t => evaluate_nan (hn.mono (by omega)) (by omega) t) _ _ c hc
      rw [hc1] at hw
      simp only [Bool.not_true, Bool.false_eq_true, if_false] at hw
      rw [Res.bind_eq_ok] at hw
      obtain ⟨e, he, hw⟩ := hw
      rw [maxElement_nan hc2 e he, if_neg (not_lt_nan _), Res.pure_eq, Res.ok.injEq] at hw
      exact hw.symm
  subst hw'
  dsimp only at h
  unfold yawChecksG at h
  rw [if_neg (by omega), Res.ok_bind] at h
  dsimp only at h
  unfold rollPitchPartG at h
  split_ifs at h
  · rw [Res.bind_eq_ok] at h
    obtain ⟨c, hc, h⟩ := h
    obtain ⟨hc1, hc2⟩ := magnitudes_nan (d := 3) rf hp (fun t => evaluate_nan hn (by omega) t) _ _ c hc
    rw [hc1] at h
    simp only [Bool.not_true, Bool.false_eq_true, if_false] at h
    rw [rollPitch_nan key.2 hc2 fuel hT' (fun hc => hT' (sub_lt_of_gt hm nn_zero (nn_of_le hT) hc)), Res.ok.injEq] at h
    exact h.symm
  · rw [Res.ok.injEq] at h
    exact h.symm

/-! ### The yaw -/

theorem yawCheck_nan (rf : RootCall Dbl) {type : ℤ} {d : ℕ} {bad : Verdict} {x : ℝ}
    (hl : ic.getConstraint type = some (.fin x)) (hx : x < dblMax) {p : Poly Dbl} (hp : s.polys[3]? = some p)
    (hn : NanValued p d) (hT : 0 ≤ s.time) :
    (yawCheckG (dblFeasLib dot) rf ic s type d bad).Sat fun r => r = some .indeterminable ∨ r = some bad := by
  intro r h
  unfold yawCheckG at h
  rw [hl] at h
  dsimp only at h
  rw [Res.bind_eq_ok] at h
  obtain ⟨q, hq, h⟩ := h
  have hi := (List.getElem?_eq_some_iff.mp hp).1
  unfold Segment.get at hq
  rw [Res.check_of (by exact hi), Res.ok_bind, Res.at'_of_lt hi, Res.ok.injEq, (List.getElem?_eq_some_iff.mp hp).2] at hq
  subst hq
  rw [Res.bind_eq_ok] at h
  obtain ⟨m, hm, h⟩ := h
  cases m with
  | none =>
    dsimp only at h
    rw [Res.pure_eq, Res.ok.injEq] at h
    exact Or.inl h.symm
  | some mm =>
    dsimp only at h
    rw [Res.pure_eq, Res.ok.injEq] at h
    right
    rw [← h]
    unfold Poly.computeMinMaxM at hm
    rw [Res.bind_eq_ok] at hm
    obtain ⟨c, hc, hm⟩ := hm
    unfold Poly.computeMinMaxCandidatesM at hc
    split_ifs at hm with hb
    swap
    · simp [Res.pure_eq] at hm
    have hcand : c.2 ≠ [] ∧ ∀ t ∈ c.2, ¬ t < 0 := by
      split_ifs at hc
      · rw [Res.ok.injEq] at hc
        rw [← hc] at hb
        simp at hb
      rw [Res.bind_eq_ok] at hc
      obtain ⟨cs, -, hc⟩ := hc
      rw [Res.bind_eq_ok] at hc
      obtain ⟨rr, -, hc⟩ := hc
      split at hc
      · rw [Res.pure_eq, Res.ok.injEq] at hc
        rw [← hc] at hb
        simp at hb
      · rename_i l hl'
        rw [Res.pure_eq, Res.ok.injEq] at hc
        rw [← hc]
        exact candidatesG_mem nn_zero (nn_of_le hT) hl'
    obtain ⟨m', e, e1, e2⟩ := select_nan hm hcand.1 fun t ht => hn t (hcand.2 t ht)
    rw [Option.some.injEq] at e
    subst e
    rw [e1, e2, if_pos]
    have hM : (0 : ℝ) ≤ dblMax := by
      have := dblMax_big
      have := zpow2_pos 1000
      generalize (2 : ℝ) ^ (1000 : ℤ) = A at *
      linarith
    unfold maxAbsG stdMaxVal
    split_ifs
    · change x < |-dblMax|
      rw [abs_neg, abs_of_nonneg hM]
      exact hx
    · change x < |dblMax|
      rw [abs_of_nonneg hM]
      exact hx

/-- A limit on the yaw rate and a NaN yaw rate, or a limit on the yaw acceleration and a NaN yaw acceleration. -/
def NanYaw (ic : InputConstraints Dbl) (s : Segment Dbl) : Prop :=
  ∃ (p : Poly Dbl) (x : ℝ), s.polys[3]? = some p ∧ x < dblMax ∧
    ((ic.getConstraint kOmegaZMax = some (.fin x) ∧ NanValued p 1) ∨
      (ic.getConstraint kOmegaZDotMax = some (.fin x) ∧ NanValued p 2))

theorem yawCheck_ne_feasible (rf : RootCall Dbl) {type : ℤ} {d : ℤ} {bad : Verdict} (hb : bad ≠ .feasible) :
    (yawCheckG (dblFeasLib dot) rf ic s type d bad).Sat fun r => r ≠ some .feasible := by
  intro r h
  unfold yawCheckG at h
  split at h
  · rw [Res.ok.injEq] at h
    rw [← h]
    simp
  rw [Res.bind_eq_ok] at h
  obtain ⟨q, -, h⟩ := h
  rw [Res.bind_eq_ok] at h
  obtain ⟨m, -, h⟩ := h
  cases m with
  | none =>
    dsimp only at h
    rw [Res.pure_eq, Res.ok.injEq] at h
    rw [← h]
    simp
  | some mm =>
    dsimp only at h
    rw [Res.pure_eq, Res.ok.injEq] at h
    rw [← h]
    split_ifs
    · simpa using hb
    · simp

theorem yawChecks_nan (rf : RootCall Dbl) (hD : s.D = 4) (hy : NanYaw ic s) (hT : 0 ≤ s.time) :
    (yawChecksG (dblFeasLib dot) rf ic s).Sat fun r => ∃ v, r = some v ∧ v ≠ .feasible := by
  intro r h
  unfold yawChecksG at h
  rw [if_pos hD, Res.bind_eq_ok] at h
  obtain ⟨a, ha, h⟩ := h
  have hne := yawCheck_ne_feasible rf (by simp) a ha
  obtain ⟨p, x, hp, hx, hy⟩ := hy
  cases a with
  | some v =>
    dsimp only at h
    rw [Res.pure_eq, Res.ok.injEq] at h
    exact ⟨v, h.symm, fun hc => hne (by rw [hc])⟩
  | none =>
    dsimp only at h
    rcases hy with ⟨hl, hn⟩ | ⟨hl, hn⟩
    · rcases yawCheck_nan (d := 1) rf hl hx hp hn hT _ ha with h' | h' <;> simp at h'
    · rcases yawCheck_nan (d := 2) rf hl hx hp hn hT _ h with h' | h'
      · exact ⟨_, h', by simp⟩
      · exact ⟨_, h', by simp⟩

end Verif
