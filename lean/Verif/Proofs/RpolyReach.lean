import Verif.Proofs.RpolyEstimate

/-
Which polynomials and estimates occur while the root finder looks for a zero.
-/
set_option linter.unusedSectionVars false

namespace Verif
open Verif.Spec Polynomial

section
variable {K : Type} [Add K] [Sub K] [Mul K] [Div K] [Neg K] [NatCast K] [LE K] [LT K] [DecidableLE K] [DecidableLT K]

theorem quadITLoop_succ (m : RMath K) (p : List K) (fuel : ℕ) (st : QuadState K) :
    quadITLoop m p (fuel + 1) st = (do
      let z := quad m (num 1) st.u st.v
      if num 1 / num 100 * m.fabs z.lr < m.fabs (m.fabs z.sr - m.fabs z.lr) then pure (.inr st.k)
      else do
        let r ← quadSD st.u st.v p
        let me ← quadError m z st.v r.2.1 r.2.2 r.1
        if me.1 ≤ num 20 * me.2 then pure (.inl ⟨true, z, r.1⟩)
        else if 20 < st.j + 1 then pure (.inr st.k)
        else do
          let c ← quadCluster m p { st with j := st.j + 1 } me.1 r
          let n ← quadAdvance m p c.1 me.1 c.2
          match n.2 with
          | none => pure (.inr n.1)
          | some st' => quadITLoop m p fuel st') := rfl

theorem realITLoop_succ (m : RMath K) (p : List K) (sss : K) (fuel : ℕ) (st : RealState K) :
    realITLoop m p sss (fuel + 1) st = (do
      let r ← horner st.s p
      let mp := m.fabs r.2
      if mp ≤ num 20 * m.eps * (num 2 * realError m st.s r.1 - mp) then
        pure (.inl ⟨false, ⟨st.s, num 0, num 0, num 0⟩, r.1⟩)
      else if 10 < st.j + 1 then pure (.inr ⟨false, sss, st.k⟩)
      else do
        let st := { st with j := st.j + 1 }
        let c ← realCluster m st mp
        if c then pure (.inr ⟨true, st.s, st.k⟩)
        else do
          let st' ← realAdvance m st mp r.2 r.1
          realITLoop m p sss fuel st') := rfl

theorem innerLoop_succ (m : RMath K) (p svk : List K) (a b c : Bool) (fuel : ℕ) (st : Inner K) :
    innerLoop m p svk a b c (fuel + 1) st = (do
      let r ← innerQuad m p svk a b c st
      match r with
      | .inl f => pure (.inl f)
      | .inr x => do
        let r' ← innerReal m p svk x.1 x.2
        match r' with
        | .inl f => pure (.inl f)
        | .inr st' =>
          if b ∧ st'.vtry = false then innerLoop m p svk a b c fuel st' else pure (.inr st')) := rfl

theorem fxLoop_succ (m : RMath K) (p : List K) (u0 v0 : K) (l : ℕ) (st : Fx K) :
    fxLoop m p u0 v0 (l + 1) st = (do
      let r ← fxRound m p u0 v0 st
      match r with
      | .inl f => pure (some f)
      | .inr st' => fxLoop m p u0 v0 l st') := rfl

theorem noShift_succ (m : RMath K) (p : List K) (i : ℕ) (k : List K) (z : Bool) :
    noShift m p (i + 1) k z = (do
      let r ← noShiftStep m p k z
      noShift m p i r.1 r.2) := rfl

theorem shiftLoop_succ (m : RMath K) (bnd : K) (k p : List K) (left jj : ℕ) (xx yy : K) :
    shiftLoop m bnd k p (left + 1) jj xx yy = (do
      let xxx := -(m.sinr * yy) + m.cosr * xx
      let yy := m.sinr * xx + m.cosr * yy
      let sr := bnd * xxx
      let r ← fxshfr m (20 * jj) sr bnd k p
      match r with
      | some f => pure (some f, xxx, yy)
      | none => shiftLoop m bnd k p left (jj + 1) xxx yy) := rfl

end

section
variable (m : RMath ℝ) (u0 v0 : ℝ) (p : List ℝ)

/-- An auxiliary polynomial, as a list. -/
def IsK (k : List ℝ) : Prop :=
  p.length = k.length + 1 ∧ Auxiliary m.eps u0 v0 (p.length - 1) (decPoly p) (decPoly k)

def IsPair (u v : ℝ) : Prop := PairEstimate m.eps u0 v0 (p.length - 1) (decPoly p) u v

def IsReal (s : ℝ) : Prop := RealEstimate m.eps u0 v0 (p.length - 1) (decPoly p) s

/-- What was found is an estimate. -/
def FoundBy (f : Found ℝ) : Prop :=
  (f.two = true ∧ ∃ u v, IsPair m u0 v0 p u v ∧ f.roots = quad m (num 1) u v) ∨
  (f.two = false ∧ IsReal m u0 v0 p f.roots.sr)

def LeftBy {β : Type} (Q : β → Prop) : Found ℝ ⊕ β → Prop
  | .inl f => FoundBy m u0 v0 p f
  | .inr b => Q b
end

section
variable (m : RMath ℝ) (hm : ExactMath m) (u0 v0 : ℝ) (p : List ℝ) (hp : 3 ≤ p.length) (hp0 : (decPoly p).coeff 0 ≠ 0)
include hm hp

theorem kStep_reach (u v : ℝ) (hs : IsPair m u0 v0 p u v) (r : List ℝ × ℝ × ℝ) (hr : quadSD u v p = .ok r) (k : List ℝ)
    (hk : IsK m u0 v0 p k) : (kStep m r.2.1 r.2.2 u v r.1 k).Sat (IsK m u0 v0 p) := by
  unfold kStep
  refine Res.Sat.bind' fun sc hsc => ?_
  intro k' hk'
  obtain ⟨h1, h2⟩ := nextK_step m hm u v p k k' r sc hk.1 (by have := hk.1; omega) hr hsc hk'
  exact ⟨by rw [h2]; exact hk.1, Auxiliary.quadratic u v hk.2 hs h1⟩

theorem kSteps_reach (u v : ℝ) (hs : IsPair m u0 v0 p u v) (r : List ℝ × ℝ × ℝ) (hr : quadSD u v p = .ok r) :
    ∀ (n : ℕ) (k : List ℝ), IsK m u0 v0 p k → (kSteps m r.2.1 r.2.2 u v r.1 n k).Sat (IsK m u0 v0 p) := by
  intro n
  induction n with
  | zero => intro k hk; exact Res.sat_ok hk
  | succ n ih =>
    intro k hk
    exact (kStep_reach m hm u0 v0 p hp u v hs r hr k hk).bind fun k' hk' => ih k' hk'

theorem quadCluster_reach (st : QuadState ℝ) (mp : ℝ) (r : List ℝ × ℝ × ℝ) (hs : IsPair m u0 v0 p st.u st.v)
    (hk : IsK m u0 v0 p st.k) (hr : quadSD st.u st.v p = .ok r) (hrel : ∀ x ∈ st.relstp, 0 ≤ x) :
    (quadCluster m p st mp r).Sat fun c => IsPair m u0 v0 p c.1.u c.1.v ∧ IsK m u0 v0 p c.1.k ∧
      quadSD c.1.u c.1.v p = .ok c.2 ∧ ∀ x ∈ c.1.relstp, 0 ≤ x := by
  unfold quadCluster
  by_cases hj : st.j < 2
  · rw [if_pos hj]
    exact Res.sat_ok ⟨hs, hk, hr, hrel⟩
  · rw [if_neg hj]
    refine Res.Sat.bind' fun rel hrel1 => Res.Sat.bind' fun omp _ => ?_
    by_cases hc : rel ≤ num 1 / num 100 ∧ omp ≤ mp ∧ st.tried = false
    · rw [if_pos hc]
      dsimp only
      have hrel0 : 0 ≤ rel := by
        cases hx : st.relstp with
        | none => rw [hx] at hrel1; cases hrel1
        | some y =>
          rw [hx] at hrel1
          cases hrel1
          exact hrel _ hx
      have he := hm.eps
      have hs' : IsPair m u0 v0 p (st.u - st.u * (if rel < m.eps then m.sqrt m.eps else m.sqrt rel))
          (st.v + st.v * (if rel < m.eps then m.sqrt m.eps else m.sqrt rel)) := by
        by_cases hl : rel < m.eps
        · rw [if_pos hl, hm.sqrt]
          exact PairEstimate.cluster _ _ _ hs (Real.sqrt_pos.mpr he) (Or.inr rfl)
        · rw [if_neg hl, hm.sqrt]
          refine PairEstimate.cluster _ _ _ hs (Real.sqrt_pos.mpr (by linarith)) (Or.inl ?_)
          have h1 := hc.1
          rw [num_eq, num_eq] at h1
          rw [Real.sqrt_le_left (by norm_num)]
          push_cast at h1
          linarith
      refine Res.Sat.bind' fun r' hr' => ?_
      refine (kSteps_reach m hm u0 v0 p hp _ _ hs' r' hr' 5 st.k hk).bind fun k' hk' => ?_
      exact Res.sat_pure ⟨hs', hk', hr', hrel⟩
    · rw [if_neg hc]
      exact Res.sat_ok ⟨hs, hk, hr, hrel⟩

theorem newest_zero (sc : SC ℝ) (a b u : ℝ) (k p : List ℝ) (w : ℝ × ℝ) (h : newest m sc a b u 0 k p = .ok w) : w.2 = 0 := by
  unfold newest at h
  split at h
  · cases h
    show (num 0 : ℝ) = 0
    rw [num_eq]; simp
  · unfold newestScaled at h
    rw [Res.bind_eq_ok] at h
    obtain ⟨_, _, h⟩ := h
    rw [Res.bind_eq_ok] at h
    obtain ⟨_, _, h⟩ := h
    rw [Res.bind_eq_ok] at h
    obtain ⟨_, _, h⟩ := h
    rw [Res.bind_eq_ok] at h
    obtain ⟨_, _, h⟩ := h
    dsimp only at h
    split_ifs at h
    all_goals
      rw [Res.pure_eq, Res.ok.injEq] at h
      rw [← h]
      first
        | exact (num_eq 0).trans Nat.cast_zero
        | exact zero_mul _

include hp0 in
theorem quadAdvance_reach (st : QuadState ℝ) (mp : ℝ) (r : List ℝ × ℝ × ℝ) (hs : IsPair m u0 v0 p st.u st.v)
    (hk : IsK m u0 v0 p st.k) (hr : quadSD st.u st.v p = .ok r) :
    (quadAdvance m p st mp r).Sat fun n => IsK m u0 v0 p n.1 ∧
      ∀ st' ∈ n.2, IsPair m u0 v0 p st'.u st'.v ∧ IsK m u0 v0 p st'.k ∧ ∀ x ∈ st'.relstp, 0 ≤ x := by
  unfold quadAdvance
  refine (kStep_reach m hm u0 v0 p hp _ _ hs r hr st.k hk).bind fun k hk => ?_
  refine Res.Sat.bind' fun sc hsc => Res.Sat.bind' fun w hw => ?_
  by_cases hz : m.isZero w.2 = true
  · rw [if_pos hz]
    exact Res.sat_pure ⟨hk, by simp⟩
  · rw [if_neg hz]
    refine Res.sat_pure ⟨hk, ?_⟩
    intro st' hst
    cases hst
    have hv : st.v ≠ 0 := by
      intro e
      rw [e] at hw
      exact hz ((hm.isZero _).mpr (newest_zero m hm p hp sc _ _ _ k p w hw))
    refine ⟨PairEstimate.next _ _ _ _ hs hk.2 (newest_estimate m hm st.u st.v p k r sc w hk.1
      (by have := hk.1; omega) hv hp0 hr hsc hw), hk, ?_⟩
    intro x hx
    cases hx
    rw [hm.fabs]
    exact abs_nonneg _

include hp0 in
theorem quadITLoop_reach : ∀ (fuel : ℕ) (st : QuadState ℝ), IsPair m u0 v0 p st.u st.v → IsK m u0 v0 p st.k →
    (∀ x ∈ st.relstp, 0 ≤ x) → (quadITLoop m p fuel st).Sat (LeftBy m u0 v0 p (IsK m u0 v0 p)) := by
  intro fuel
  induction fuel with
  | zero => intro st _ _ _; exact Res.sat_hang
  | succ fuel ih =>
    intro st hs hk hrel
    rw [quadITLoop_succ]
    dsimp only
    split
    · exact Res.sat_pure hk
    · refine Res.Sat.bind' fun r hr => Res.Sat.bind' fun e he => ?_
      split
      · exact Res.sat_pure (Or.inl ⟨rfl, st.u, st.v, hs, rfl⟩)
      · split
        · exact Res.sat_pure hk
        · refine (quadCluster_reach m hm u0 v0 p hp { st with j := st.j + 1 } e.1 r hs hk hr hrel).bind fun c hc => ?_
          refine (quadAdvance_reach m hm u0 v0 p hp hp0 c.1 e.1 c.2 hc.1 hc.2.1 hc.2.2.1).bind fun n hn => ?_
          split
          · exact Res.sat_pure hn.1
          · rename_i st' heq
            obtain ⟨h1, h2, h3⟩ := hn.2 st' heq
            exact ih _ h1 h2 h3

include hp0 in
theorem quadIT_reach (k : List ℝ) (u v : ℝ) (hs : IsPair m u0 v0 p u v) (hk : IsK m u0 v0 p k) :
    (quadIT m p k u v).Sat (LeftBy m u0 v0 p (IsK m u0 v0 p)) :=
  quadITLoop_reach m hm u0 v0 p hp hp0 _ _ hs hk (by simp)

omit hp in
theorem realITLoop_reach (sss : ℝ) (h0 : IsReal m u0 v0 p sss) : ∀ (fuel : ℕ) (st : RealState ℝ), IsReal m u0 v0 p st.s →
    IsK m u0 v0 p st.k →
    (realITLoop m p sss fuel st).Sat (LeftBy m u0 v0 p fun e => IsK m u0 v0 p e.k ∧ IsReal m u0 v0 p e.sss) := by
  intro fuel
  induction fuel with
  | zero => intro st _ _; exact Res.sat_hang
  | succ fuel ih =>
    intro st hs hk
    rw [realITLoop_succ]
    refine Res.Sat.bind' fun r hr => ?_
    dsimp only
    split
    · exact Res.sat_pure (Or.inr ⟨rfl, hs⟩)
    · split
      · exact Res.sat_pure ⟨hk, h0⟩
      · refine Res.Sat.bind' fun c _ => ?_
        split
        · exact Res.sat_pure ⟨hk, hs⟩
        · refine Res.Sat.bind' fun st' hst => ?_
          obtain ⟨h1, h2, h3⟩ := realAdvance_step m hm p { st with j := st.j + 1 } st' _ r hk.1 hr hst
          have hk' : IsK m u0 v0 p st'.k := ⟨by rw [h3]; exact hk.1, Auxiliary.linear st.s hk.2 hs h1⟩
          refine ih st' ?_ hk'
          rcases h2 with ⟨e, hne⟩ | ⟨e, _⟩
          · rw [e]
            exact RealEstimate.next st.s hs hk'.2 hne
          · rw [e]
            exact hs

/-- The state of the inner loop. -/
def InnerBy (st : Inner ℝ) : Prop := IsK m u0 v0 p st.k ∧ IsReal m u0 v0 p st.s ∧ IsPair m u0 v0 p st.ui st.vi

include hp0 in
theorem innerQuad_reach (svk : List ℝ) (hsv : IsK m u0 v0 p svk) (a b c : Bool) (st : Inner ℝ)
    (h : InnerBy m u0 v0 p st) :
    (innerQuad m p svk a b c st).Sat (LeftBy m u0 v0 p fun x => InnerBy m u0 v0 p x.1) := by
  unfold innerQuad
  split
  · exact Res.sat_ok h
  · refine (quadIT_reach m hm u0 v0 p hp hp0 st.k st.ui st.vi h.2.2 h.1).bind fun r hr => ?_
    cases r with
    | inl f => exact Res.sat_pure hr
    | inr k =>
      dsimp only
      split
      · exact Res.sat_pure ⟨hr, h.2.1, h.2.2⟩
      · exact Res.sat_pure ⟨hsv, h.2.1, h.2.2⟩

theorem innerReal_reach (svk : List ℝ) (hsv : IsK m u0 v0 p svk) (st : Inner ℝ) (b : Bool)
    (h : InnerBy m u0 v0 p st) : (innerReal m p svk st b).Sat (LeftBy m u0 v0 p (InnerBy m u0 v0 p)) := by
  unfold innerReal
  split
  · refine (realITLoop_reach m hm u0 v0 p st.s h.2.1 12 ⟨st.s, st.k, none, none, 0⟩ h.2.1 h.1).bind fun r hr => ?_
    cases r with
    | inl f => exact Res.sat_pure hr
    | inr e =>
      dsimp only
      split
      · refine Res.sat_pure ⟨hr.1, hr.2, ?_⟩
        have := PairEstimate.double e.sss hr.2
        have e1 : -(2 * e.sss) = -(e.sss + e.sss) := by ring
        rw [e1, pow_two] at this
        exact this
      · exact Res.sat_pure ⟨hsv, hr.2, h.2.2⟩
  · exact Res.sat_ok ⟨hsv, h.2.1, h.2.2⟩

include hp0 in
theorem innerLoop_reach (svk : List ℝ) (hsv : IsK m u0 v0 p svk) (a b c : Bool) : ∀ (fuel : ℕ) (st : Inner ℝ),
    InnerBy m u0 v0 p st → (innerLoop m p svk a b c fuel st).Sat (LeftBy m u0 v0 p (InnerBy m u0 v0 p)) := by
  intro fuel
  induction fuel with
  | zero => intro st _; exact Res.sat_hang
  | succ fuel ih =>
    intro st h
    rw [innerLoop_succ]
    refine (innerQuad_reach m hm u0 v0 p hp hp0 svk hsv a b c st h).bind fun r hr => ?_
    cases r with
    | inl f => exact Res.sat_pure hr
    | inr x =>
      refine (innerReal_reach m hm u0 v0 p hp svk hsv x.1 x.2 hr).bind fun r hr => ?_
      cases r with
      | inl f => exact Res.sat_pure hr
      | inr st' =>
        dsimp only
        split
        · exact ih _ hr
        · exact Res.sat_pure hr

/-- The state of the loop with the fixed shift. -/
def FxBy (st : Fx ℝ) : Prop :=
  IsK m u0 v0 p st.k ∧ quadSD u0 v0 p = .ok st.div ∧ calcSC m st.div.2.1 st.div.2.2 st.k u0 v0 = .ok st.sc

include hp0 in
theorem fxTry_reach (st : Fx ℝ) (h : FxBy m u0 v0 p st) (ss ui vi : ℝ) (hss : IsReal m u0 v0 p ss)
    (hui : IsPair m u0 v0 p ui vi) (x : Option (ℝ × ℝ)) :
    (fxTry m p u0 v0 st ss ui vi x).Sat (LeftBy m u0 v0 p (FxBy m u0 v0 p)) := by
  cases x with
  | none => exact Res.sat_ok h
  | some x =>
    unfold fxTry
    dsimp only
    split
    · refine (innerLoop_reach m hm u0 v0 p hp hp0 st.k h.1 _ _ _ _ _ ⟨h.1, hss, hui⟩).bind fun r hr => ?_
      cases r with
      | inl f => exact Res.sat_pure hr
      | inr i =>
        exact Res.Sat.bind' fun d hd => Res.Sat.bind' fun sc hsc => Res.sat_pure ⟨hr.1, hd, hsc⟩
    · exact Res.sat_ok h

include hp0 in
theorem fxRound_reach (hv : v0 ≠ 0) (st : Fx ℝ) (h : FxBy m u0 v0 p st) :
    (fxRound m p u0 v0 st).Sat (LeftBy m u0 v0 p (FxBy m u0 v0 p)) := by
  obtain ⟨hk, hd, hsc⟩ := h
  unfold fxRound
  refine Res.Sat.bind' fun k hk' => ?_
  have hlen : p.length - 1 = st.k.length := by have := hk.1; omega
  have hk2 : 2 ≤ st.k.length := by omega
  rw [hlen] at hk'
  obtain ⟨h1, h2⟩ := nextK_step m hm u0 v0 p st.k k st.div st.sc hk.1 hk2 hd hsc hk'
  have hkk : IsK m u0 v0 p k := ⟨by rw [h2]; exact hk.1, Auxiliary.fixed hk.2 h1⟩
  refine Res.Sat.bind' fun sc hsc' => Res.Sat.bind' fun w hw => Res.Sat.bind' fun kl hkl =>
    Res.Sat.bind' fun pn hpn => ?_
  have hest := newest_estimate m hm u0 v0 p k st.div sc w hkk.1 (by omega) hv hp0 hd hsc' hw
  have hss : IsReal m u0 v0 p (if m.isZero kl then num 0 else -(pn / kl)) := by
    have e1 : kl = (decPoly k).coeff 0 := by
      obtain ⟨l, y, x, rfl⟩ := split_last_two k (by omega)
      rw [decPoly_coeff_zero']
      refine at'_last' _ _ _ _ _ ?_ hkl
      omega
    have e2 : pn = (decPoly p).coeff 0 := by
      obtain ⟨l, y, x, rfl⟩ := split_last_two p (by omega)
      rw [decPoly_coeff_zero']
      exact at'_last' _ _ _ _ _ (by simp) hpn
    refine RealEstimate.fixed _ hkk.2 ?_
    rw [← e1, ← e2]
    by_cases hz : m.isZero kl = true
    · rw [if_pos hz]
      exact Or.inr ⟨(hm.isZero _).mp hz, by rw [num_eq]; simp⟩
    · rw [if_neg hz]
      have : kl ≠ 0 := fun e => hz ((hm.isZero _).mpr e)
      exact Or.inl ⟨this, by field_simp⟩
  dsimp only
  refine Res.Sat.bind' fun x _ => ?_
  refine (fxTry_reach m hm u0 v0 p hp hp0 { st with k := k, sc := sc } ⟨hkk, hd, hsc'⟩ _ _ _ hss
    (PairEstimate.fixed _ _ hkk.2 hest) _).bind fun r hr => ?_
  cases r with
  | inl f => exact Res.sat_pure hr
  | inr i => exact Res.sat_pure hr

include hp0 in
theorem fxLoop_reach (hv : v0 ≠ 0) : ∀ (l : ℕ) (st : Fx ℝ), FxBy m u0 v0 p st →
    (fxLoop m p u0 v0 l st).Sat fun o => ∀ f ∈ o, FoundBy m u0 v0 p f := by
  intro l
  induction l with
  | zero => intro st _; exact Res.sat_ok (by simp)
  | succ l ih =>
    intro st h
    rw [fxLoop_succ]
    refine (fxRound_reach m hm u0 v0 p hp hp0 hv st h).bind fun r hr => ?_
    cases r with
    | inl f =>
      refine Res.sat_pure ?_
      intro f' hf
      cases hf
      exact hr
    | inr i => exact ih _ hr

end

section
variable (m : RMath ℝ) (hm : ExactMath m) (p : List ℝ) (hp : 3 ≤ p.length) (hp0 : (decPoly p).coeff 0 ≠ 0)
include hm hp

theorem noShift_reach : ∀ (i : ℕ) (k k' : List ℝ) (z : Bool), p.length = k.length + 1 →
    (if z then |(decPoly k).coeff 0| ≤ 10 * m.eps * |(decPoly p).coeff 1| else (decPoly k).coeff 0 ≠ 0) →
    noShift m p i k z = .ok k' → Unshifted m.eps (decPoly p) i (decPoly k) (decPoly k') ∧ p.length = k'.length + 1 := by
  intro i
  induction i with
  | zero =>
    intro k k' z hk _ h
    cases h
    exact ⟨Unshifted.refl _, hk⟩
  | succ i ih =>
    intro k k' z hk hz h
    rw [noShift_succ, Res.bind_eq_ok] at h
    obtain ⟨r, hr, h⟩ := h
    obtain ⟨h1, h2, h3⟩ := noShiftStep_step m hm p k r.1 z r.2 hk (by omega) hz hr
    obtain ⟨g1, g2⟩ := ih r.1 k' r.2 (by rw [h3]; exact hk) h2 h
    exact ⟨Unshifted.step h1 g1, g2⟩

theorem startK_unshifted (k : List ℝ) (h : startK m p = .ok k) : p.length = k.length + 1 ∧
    ∃ K, C ((p.length - 1 : ℕ) : ℝ) * K = derivative (decPoly p) ∧ Unshifted m.eps (decPoly p) 5 K (decPoly k) := by
  unfold startK at h
  rw [Res.bind_eq_ok] at h
  obtain ⟨kl, hkl, h⟩ := h
  have hlen := initialK_length p (by omega)
  have hkl' : kl = (decPoly (initialK p)).coeff 0 := by
    generalize initialK p = k0 at hlen hkl
    obtain ⟨l, y, x, rfl⟩ := split_last_two k0 (by omega)
    rw [decPoly_coeff_zero']
    refine at'_last' _ _ _ _ _ ?_ hkl
    omega
  have hz : if m.isZero kl then |(decPoly (initialK p)).coeff 0| ≤ 10 * m.eps * |(decPoly p).coeff 1|
      else (decPoly (initialK p)).coeff 0 ≠ 0 := by
    rw [hkl']
    cases hz : m.isZero ((decPoly (initialK p)).coeff 0) with
    | true =>
      have he := hm.eps
      rw [if_pos rfl, (hm.isZero _).mp hz, abs_zero]
      positivity
    | false => exact startK_zero hm _ hz
  obtain ⟨h1, h2⟩ := noShift_reach m hm p hp 5 _ k _ hlen.symm hz h
  exact ⟨h2, _, initialK_derivative p (by omega), h1⟩

theorem startK_reach (u0 v0 : ℝ) (k : List ℝ) (h : startK m p = .ok k) : IsK m u0 v0 p k := by
  obtain ⟨h1, K, h2, h3⟩ := startK_unshifted m hm p hp k h
  exact ⟨h1, Auxiliary.start h2 h3⟩

include hp0 in
theorem fxshfr_reach (l : ℕ) (sr bnd : ℝ) (hb : bnd ≠ 0) (k : List ℝ) (hk : startK m p = .ok k) :
    (fxshfr m l sr bnd k p).Sat fun o => ∀ f ∈ o, FoundBy m (-(2 * sr)) bnd p f := by
  unfold fxshfr
  have e : -(num 2 * sr) = -(2 * sr) := by rw [num_eq]; norm_num
  rw [e]
  dsimp only
  exact Res.Sat.bind' fun d hd => Res.Sat.bind' fun sc hsc =>
    fxLoop_reach m hm _ _ p hp hp0 hb l _ ⟨startK_reach m hm p hp _ _ k hk, hd, hsc⟩

include hp0 in
theorem shiftLoop_reach (bnd : ℝ) (hb : bnd ≠ 0) (k : List ℝ) (hk : startK m p = .ok k) :
    ∀ (left jj : ℕ) (xx yy : ℝ), (shiftLoop m bnd k p left jj xx yy).Sat fun r => ∀ f ∈ r.1,
      ∃ j, 1 ≤ j ∧ j ≤ left ∧ (⟨r.2.1, r.2.2⟩ : ℂ) = ⟨m.cosr, m.sinr⟩ ^ j * ⟨xx, yy⟩ ∧
        FoundBy m (-(2 * (bnd * r.2.1))) bnd p f := by
  intro left
  induction left with
  | zero => intro jj xx yy; exact Res.sat_ok (by simp)
  | succ left ih =>
    intro jj xx yy
    have hrot : (⟨-(m.sinr * yy) + m.cosr * xx, m.sinr * xx + m.cosr * yy⟩ : ℂ) = ⟨m.cosr, m.sinr⟩ * ⟨xx, yy⟩ := by
      apply Complex.ext <;> simp <;> ring
    rw [shiftLoop_succ]
    dsimp only
    refine (fxshfr_reach m hm p hp hp0 _ _ bnd hb k hk).bind fun r hr => ?_
    cases r with
    | some f =>
      refine Res.sat_pure ?_
      intro f' hf
      cases hf
      exact ⟨1, le_refl _, by omega, by rw [pow_one]; exact hrot, hr f rfl⟩
    | none =>
      intro r hr' f hf
      obtain ⟨j, h1, h2, h3, h4⟩ := ih _ _ _ r hr' f hf
      refine ⟨j + 1, by omega, by omega, ?_, h4⟩
      rw [h3, hrot, pow_succ]
      ring
end

end Verif
