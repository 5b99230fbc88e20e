import Verif.Proofs.DoubleReturns

/-
The checks on segments with NaN return, and the check by sampling.
-/
namespace Verif

open Spec

variable {dot : Dot Dbl} {ic : InputConstraints Dbl} {g : Fin 3 → Dbl} {s : Segment Dbl}

/-- The function returns. -/
def Res.Returns {α : Type} (r : Res α) : Prop := ∃ a, r = .ok a

theorem Res.Returns.bind {α β : Type} {r : Res α} {f : α → Res β} (h : r.Returns) (hf : ∀ a, r = .ok a → (f a).Returns) :
    (r >>= f).Returns := by
  obtain ⟨a, ha⟩ := h
  obtain ⟨b, hb⟩ := hf a ha
  exact ⟨b, by rw [ha, Res.ok_bind, hb]⟩

theorem Res.returns_ok {α : Type} (a : α) : (Res.ok a).Returns := ⟨a, rfl⟩

theorem Res.returns_pure {α : Type} (a : α) : (pure a : Res α).Returns := ⟨a, rfl⟩

theorem get_returns {i : ℕ} (h : i < s.polys.length) : s.get i = .ok s.polys[i] := by
  unfold Segment.get
  rw [Res.check_of (by exact h), Res.ok_bind, Res.at'_of_lt h]

/-! ### The analytic check -/

theorem thrustPoly_returns (h4 : 4 ≤ s.N) (hN : s.N ≤ 22) (hs : ∀ p ∈ s.polys, p.N = s.N)
    (hz : ∀ p ∈ s.polys, ∀ j x, 2 ≤ j → p.coeffs[j]? = some x → NZ x) (hD : 3 ≤ s.D) (i : Fin 3) :
    ∃ q, thrustPolyG g s i = .ok q ∧ q.N = s.N - 2 ∧ ∀ j x, 1 ≤ j → q.coeffs[j]? = some x → NZ x := by
  have hlt : (i : ℕ) < s.polys.length := by unfold Segment.D at hD; omega
  have hm := List.getElem_mem hlt
  have hpN := hs _ hm
  obtain ⟨c, e, l, z⟩ := getCoefficients_nz (p := s.polys[(i : ℕ)]) (d := 2) (by omega) (by omega) (by omega) (by omega) (hz _ hm)
  unfold thrustPolyG
  push_cast at e
  rw [get_returns hlt, Res.ok_bind, e, Res.ok_bind, headN, if_pos (by omega), Res.ok_bind]
  have hl : (c.take (s.N - 2)).length = s.N - 2 := by rw [List.length_take]; omega
  have hz' : ∀ x ∈ c.take (s.N - 2), NZ x := fun x hx => z x (List.mem_of_mem_take hx)
  generalize c.take (s.N - 2) = c' at *
  cases c' with
  | nil => rw [List.length_nil] at hl; omega
  | cons a as =>
    refine ⟨_, rfl, ?_, ?_⟩
    · unfold Poly.N
      rw [← hl]
      rfl
    · intro j x hj hx
      obtain ⟨k, rfl⟩ : ∃ k, j = k + 1 := ⟨j - 1, by omega⟩
      dsimp only at hx
      rw [List.getElem?_cons_succ] at hx
      exact hz' x (List.mem_cons_of_mem _ (List.mem_of_getElem? hx))

theorem thrustSegment_returns (h4 : 4 ≤ s.N) (hN : s.N ≤ 22) (hs : ∀ p ∈ s.polys, p.N = s.N)
    (hz : ∀ p ∈ s.polys, ∀ j x, 2 ≤ j → p.coeffs[j]? = some x → NZ x) (hD : 3 ≤ s.D) :
    ∃ ts, thrustSegmentG g s = .ok ts ∧ ts.N = s.N - 2 ∧ ts.time = s.time ∧ ts.D = 3 ∧ (∀ p ∈ ts.polys, p.N = ts.N) ∧
      ∀ p ∈ ts.polys, ∀ j x, 1 ≤ j → p.coeffs[j]? = some x → NZ x := by
  obtain ⟨q0, e0, n0, z0⟩ := thrustPoly_returns (g := g) h4 hN hs hz hD 0
  obtain ⟨q1, e1, n1, z1⟩ := thrustPoly_returns (g := g) h4 hN hs hz hD 1
  obtain ⟨q2, e2, n2, z2⟩ := thrustPoly_returns (g := g) h4 hN hs hz hD 2
  refine ⟨⟨[q0, q1, q2], s.time, s.N - 2⟩, ?_, rfl, rfl, rfl, ?_, ?_⟩
  · unfold thrustSegmentG
    rw [List.mapM_cons, e0, Res.ok_bind, List.mapM_cons, e1, Res.ok_bind, List.mapM_cons, e2, Res.ok_bind]
    rfl
  · intro p hp
    simp only [List.mem_cons, List.not_mem_nil, or_false] at hp
    rcases hp with rfl | rfl | rfl <;> assumption
  · intro p hp
    simp only [List.mem_cons, List.not_mem_nil, or_false] at hp
    rcases hp with rfl | rfl | rfl <;> assumption

theorem violate_returns {type : ℤ} {el : Res (Extremum Dbl)} (h : el.Returns) {q : Dbl → Dbl → Bool} :
    (candidatesViolateG ic type el q).Returns := by
  unfold candidatesViolateG
  split
  · exact h.bind fun e _ => Res.returns_pure _
  · exact Res.returns_ok _

theorem minElement_returns {es : List (Extremum Dbl)} (h : es ≠ []) : (minElementG es).Returns := by
  cases es with
  | nil => exact absurd rfl h
  | cons e es => exact Res.returns_ok _

theorem maxElement_returns {es : List (Extremum Dbl)} (h : es ≠ []) : (maxElementG es).Returns := by
  cases es with
  | nil => exact absurd rfl h
  | cons e es => exact Res.returns_ok _

/-- On such a segment the analytic check returns, and the answer is that the segment is feasible. -/
theorem analytic_feasible {m : RMath Dbl} (h1 : m.fabs = Dbl.abs) (h2 : m.dblMin = .fin ((2 : ℝ) ^ (-1022 : ℤ))) (rfuel : ℕ)
    {i : Fin 3} {p : Poly Dbl} (hp : s.polys[(i : ℕ)]? = some p) (hn : HasNan p 3) (hs : ∀ p ∈ s.polys, p.N = s.N)
    (hz : ∀ p ∈ s.polys, ∀ j x, 2 ≤ j → p.coeffs[j]? = some x → NZ x) (hN : s.N ≤ 22) (hD : s.D = 3) {minSection : Dbl}
    (hm : 0 < minSection) (hT : 0 ≤ s.time) (hT' : ¬ s.time - 0 < minSection) (fuel : ℕ) :
    s.checkAnalyticDbl (codeRoots m rfuel) ic g minSection (fuel + 1) = .ok .feasible := by
  have hpN := hs p (List.mem_of_getElem? hp)
  have h4 : 4 ≤ s.N := by
    obtain ⟨j, hj, hx⟩ := hn
    have : j < p.N := (List.getElem?_eq_some_iff.mp hx).1
    omega
  have hb : ¬ (0 : Dbl) > s.time := (nn_of_le hT).not_neg
  suffices h : (s.checkAnalyticDbl (codeRoots m rfuel) ic g minSection (fuel + 1)).Returns by
    obtain ⟨v, hv⟩ := h
    rw [hv, analytic_nan (codeRoots m rfuel) hp hn hpN hN hD hm hT hT' fuel v hv]
  unfold Segment.checkAnalyticDbl Segment.checkAnalyticG
  rw [if_pos (Or.inl hD), if_neg (by omega)]
  have hnanT : ∀ t, thrustPartG (dblFeasLib Dbl.seqDot) (codeRoots m rfuel) ic g s = .ok t → ∀ e ∈ t.2, e.value = .nan := by
    intro t ht
    unfold thrustPartG at ht
    split_ifs at ht
    · unfold analyticThrustG at ht
      rw [Res.bind_eq_ok] at ht
      obtain ⟨ts, hts, ht⟩ := ht
      obtain ⟨q, hq, hqn, hqN⟩ := thrustSegment_nan hp hn hpN hN hts
      rw [Res.bind_eq_ok] at ht
      obtain ⟨c, hc, ht⟩ := ht
      obtain ⟨hc1, hc2⟩ := magnitudes_nan (d := 0) _ hq (fun t => evaluate_nan (hqn.mono (by omega)) hqN t) _ _ c hc
      rw [hc1] at ht
      simp only [Bool.not_true, Bool.false_eq_true, if_false] at ht
      rw [Res.bind_eq_ok] at ht
      obtain ⟨low, -, ht⟩ := ht
      split_ifs at ht
      · rw [Res.pure_eq, Res.ok.injEq] at ht
        rw [← ht]
        exact hc2
      · rw [Res.bind_eq_ok] at ht
        obtain ⟨high, -, ht⟩ := ht
        split_ifs at ht <;>
        · rw [Res.pure_eq, Res.ok.injEq] at ht
          rw [← ht]
          exact hc2
    · rw [Res.ok.injEq] at ht
      rw [← ht]
      exact fun e he => by simp at he
  refine Res.Returns.bind ?_ fun t ht => ?_
  · unfold thrustPartG
    split_ifs
    · unfold analyticThrustG
      obtain ⟨ts, ets, hN', hT1, hD', hs', hz'⟩ := thrustSegment_returns (g := g) h4 hN hs hz (by omega)
      obtain ⟨es, ees, hne⟩ := magnitudes_return (s := ts) (d := 0) (b := ts.time) h1 h2 rfuel (by omega) (by omega) (by omega) hs' hz'
        (by omega) (by rw [hT1]; exact hb)
      push_cast at ees
      rw [ets, Res.ok_bind]
      refine Res.Returns.bind ⟨_, ees⟩ fun c hc => ?_
      have hc' : c = (true, es) := by
        have := hc.symm.trans ees
        exact Res.ok.inj this
      subst hc'
      simp only [Bool.not_true, Bool.false_eq_true, if_false]
      refine (violate_returns (minElement_returns hne)).bind fun low _ => ?_
      split_ifs
      · exact Res.returns_pure _
      · refine (violate_returns (maxElement_returns hne)).bind fun high _ => ?_
        split_ifs <;> exact Res.returns_pure _
    · exact Res.returns_ok _
  have hnan := hnanT t ht
  split_ifs
  · exact Res.returns_pure _
  refine Res.Returns.bind ?_ fun w _ => ?_
  · unfold analyticVelocityG
    split
    · exact Res.returns_ok _
    · obtain ⟨es, ees, hne⟩ := magnitudes_return (s := s) (d := 1) (b := s.time) h1 h2 rfuel (by omega) (by omega) (by omega) hs hz
        (by omega) hb
      push_cast at ees
      refine Res.Returns.bind ⟨_, ees⟩ fun c hc => ?_
      have hc' : c = (true, es) := by
        have := hc.symm.trans ees
        exact Res.ok.inj this
      subst hc'
      simp only [Bool.not_true, Bool.false_eq_true, if_false]
      exact (maxElement_returns hne).bind fun e _ => Res.returns_pure _
  cases w with
  | some r => exact Res.returns_pure _
  | none =>
  dsimp only
  unfold yawChecksG
  rw [if_neg (by omega), Res.ok_bind]
  dsimp only
  unfold rollPitchPartG
  split_ifs
  · obtain ⟨es, ees, hne⟩ := magnitudes_return (s := s) (d := 3) (b := s.time) h1 h2 rfuel (by omega) (by omega) (by omega) hs
      (fun p hp j x hj => hz p hp j x (by omega)) (by omega) hb
    push_cast at ees
    refine Res.Returns.bind ⟨_, ees⟩ fun c hc => ?_
    obtain ⟨hc1, hc2⟩ := magnitudes_nan (d := 3) _ hp (fun t => evaluate_nan hn (by omega) t) _ _ c hc
    rw [hc1]
    simp only [Bool.not_true, Bool.false_eq_true, if_false]
    exact ⟨_, rollPitch_nan hnan hc2 fuel hT' (fun hc => hT' (sub_lt_of_gt hm nn_zero (nn_of_le hT) hc))⟩
  · exact Res.returns_ok _

/-! ### Half planes -/

theorem projection_returns (hs : ∀ p ∈ s.polys, p.N = s.N)
    (hz : ∀ p ∈ s.polys, ∀ j x, 1 ≤ j → p.coeffs[j]? = some x → NZ x) (hD : 3 ≤ s.D) (n : Fin 3 → Dbl) :
    ∃ q, projectionG s n = .ok q ∧ q.N = s.N ∧ ∀ j x, 1 ≤ j → q.coeffs[j]? = some x → NZ x := by
  have key : ∀ (l : List (Fin 3)) (acc : Poly Dbl), acc.N = s.N → (∀ j x, 1 ≤ j → acc.coeffs[j]? = some x → NZ x) →
      ∃ q, l.foldlM (fun (acc : Poly Dbl) (i : Fin 3) => do
        let p ← s.get i
        acc.add (p.smul (n i))) acc = Res.ok q ∧ q.N = s.N ∧ ∀ j x, 1 ≤ j → q.coeffs[j]? = some x → NZ x := by
    intro l
    induction l with
    | nil => exact fun acc h1 h2 => ⟨acc, rfl, h1, h2⟩
    | cons i l ih =>
      intro acc ha1 ha2
      have hlt : (i : ℕ) < s.polys.length := by unfold Segment.D at hD; omega
      have hm := List.getElem_mem hlt
      have hpN := hs _ hm
      have hsm : (s.polys[(i : ℕ)].smul (n i)).N = s.N := by
        unfold Poly.smul Poly.N
        rw [List.length_map]
        exact hpN
      have hpl : s.polys[(i : ℕ)].coeffs.length = s.N := hpN
      have hal : acc.coeffs.length = s.N := ha1
      rw [List.foldlM_cons, get_returns hlt, Res.ok_bind, Poly.add, if_pos (ha1.trans hsm.symm), Res.ok_bind]
      refine ih _ ?_ ?_
      · unfold Poly.N Poly.smul
        rw [List.length_zipWith, List.length_map, hpl, hal, min_self]
      · intro j x hj hx
        unfold Poly.smul at hx
        dsimp only at hx
        rw [List.getElem?_zipWith, List.getElem?_map] at hx
        cases ha : acc.coeffs[j]? with
        | none => rw [ha] at hx; simp at hx
        | some y =>
          cases hb : s.polys[(i : ℕ)].coeffs[j]? with
          | none => rw [ha, hb] at hx; simp at hx
          | some z =>
            rw [ha, hb] at hx
            simp only [Option.map_some, Option.some.injEq] at hx
            rw [← hx]
            exact (ha2 j y hj ha).add ((hz _ hm j z hj hb).mul_left _)
  unfold projectionG
  refine key _ _ ?_ ?_
  · unfold Poly.zero Poly.N
    exact List.length_replicate
  · intro j x _ hx
    have := List.mem_of_getElem? hx
    unfold Poly.zero at this
    rw [List.eq_of_mem_replicate this]
    exact nz_zero

theorem evaluateSegment_returns (hs : ∀ p ∈ s.polys, p.N ≤ 22) (t : Dbl) (d : ℕ) :
    ∃ v, s.evaluate t d = .ok v ∧ v.length = s.D := by
  unfold Segment.evaluate
  exact mapM_returns _ fun p hp => evaluate_returns p (hs p hp) t d

theorem vecHead3_returns {v : List Dbl} (h : 3 ≤ v.length) : (vecHead3 v).Returns := by
  rcases v with _ | ⟨x, _ | ⟨y, _ | ⟨z, l⟩⟩⟩
  · simp at h
  · simp at h
  · simp at h
  · exact Res.returns_ok _

/-- On such a segment the check of half planes returns, and the answer is that the segment is inside all of them. -/
theorem halfPlanes_true (hdot : NanDot dot) {m : RMath Dbl} (h1 : m.fabs = Dbl.abs)
    (h2 : m.dblMin = .fin ((2 : ℝ) ^ (-1022 : ℤ))) (rfuel : ℕ) {i : Fin 3} {p : Poly Dbl} (hp : s.polys[(i : ℕ)]? = some p)
    (hn : HasNan p 0) (hs : ∀ p ∈ s.polys, p.N = s.N) (hz : ∀ p ∈ s.polys, ∀ j x, 1 ≤ j → p.coeffs[j]? = some x → NZ x)
    (hN : s.N ≤ 22) (hD : s.D = 3 ∨ s.D = 4) (hps : List (HalfPlane Dbl)) :
    s.checkHalfPlanesDbl dot (codeRoots m rfuel) hps = .ok true := by
  have hpN := hs p (List.mem_of_getElem? hp)
  have h1N : 1 ≤ s.N := by
    obtain ⟨j, hj, hx⟩ := hn
    have : j < p.N := (List.getElem?_eq_some_iff.mp hx).1
    omega
  suffices h : (s.checkHalfPlanesDbl dot (codeRoots m rfuel) hps).Returns by
    obtain ⟨v, hv⟩ := h
    rw [hv, halfPlanes_nan hdot (codeRoots m rfuel) hp hn (by omega) hD hps v hv]
  unfold Segment.checkHalfPlanesDbl Segment.checkHalfPlanesM
  rw [if_pos hD]
  induction hps with
  | nil => exact Res.returns_ok _
  | cons h hs' ih =>
    rw [halfPlaneLoopM]
    obtain ⟨q, eq, qN, qz⟩ := projection_returns hs hz (by omega) h.normal
    rw [eq, Res.ok_bind]
    refine Res.Returns.bind ?_ fun c _ => Res.Returns.bind ?_ fun b _ => ?_
    · unfold Poly.computeMinMaxCandidatesM
      split_ifs
      · exact Res.returns_ok _
      obtain ⟨c, ec, -, zc⟩ := getCoefficients_nz (p := q) (d := 1) (by omega) (by omega) (by omega) (by omega) qz
      rw [zero_add]
      push_cast at ec
      rw [ec, Res.ok_bind, codeRoots_nz h1 h2 rfuel zc, Res.ok_bind]
      split <;> exact Res.returns_pure _
    · generalize c.2 = ts
      induction ts with
      | nil => exact Res.returns_ok _
      | cons t ts iht =>
        rw [candidatesInsideG]
        obtain ⟨v, ev, lv⟩ := evaluateSegment_returns (s := s) (fun p hp => by rw [hs p hp]; exact hN) t 0
        refine Res.Returns.bind ⟨v, ev⟩ fun v' hv' => Res.Returns.bind (vecHead3_returns ?_) fun x _ => ?_
        · have : v' = v := Res.ok.inj (hv'.symm.trans ev)
          subst this
          omega
        · split_ifs
          · exact Res.returns_pure _
          · exact iht
    · split_ifs
      · exact ih
      · exact Res.returns_pure _

end Verif
