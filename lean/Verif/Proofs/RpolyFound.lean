import Verif.Proofs.RpolyExact

/-
What is known about the zeros that the iterations report.
-/
set_option linter.unusedSectionVars false

namespace Verif

/-- `P` holds for the value, if there is one. -/
def Res.Sat {α : Type} (r : Res α) (P : α → Prop) : Prop := ∀ a, r = .ok a → P a

section
variable {α β : Type}

theorem Res.Sat.bind {x : Res α} {f : α → Res β} {P : α → Prop} {Q : β → Prop} (hx : x.Sat P)
    (h : ∀ a, P a → (f a).Sat Q) : (x >>= f).Sat Q := by
  intro b hb
  obtain ⟨a, ha, hb'⟩ := Res.bind_eq_ok.mp hb
  exact h a (hx a ha) b hb'

theorem Res.Sat.bind' {x : Res α} {f : α → Res β} {Q : β → Prop}
    (h : ∀ a, x = .ok a → (f a).Sat Q) : (x >>= f).Sat Q :=
  Res.Sat.bind (P := fun a => x = .ok a) (fun _ h => h) h

theorem Res.sat_ok {a : α} {P : α → Prop} (h : P a) : (Res.ok a).Sat P := by
  rintro _ ⟨⟩
  exact h

theorem Res.sat_pure {a : α} {P : α → Prop} (h : P a) : (pure a : Res α).Sat P := Res.sat_ok h

theorem Res.sat_hang {P : α → Prop} : (Res.hang : Res α).Sat P := by
  rintro _ ⟨⟩

theorem Res.sat_ub {P : α → Prop} : (Res.ub : Res α).Sat P := by
  rintro _ ⟨⟩
end

section
variable {K : Type}
variable [Add K] [Sub K] [Mul K] [Div K] [Neg K] [NatCast K] [LE K] [LT K] [DecidableLE K] [DecidableLT K]

/-- The zeros reported have passed the test of the iteration. -/
def FoundOK (m : RMath K) (p : List K) (f : Found K) : Prop :=
  (f.two = true ∧ ∃ u v r e, f.roots = quad m (num 1) u v ∧ quadSD u v p = .ok r ∧ f.qp = r.1 ∧
    quadError m f.roots v r.2.1 r.2.2 r.1 = .ok e ∧ e.1 ≤ num 20 * e.2) ∨
  (f.two = false ∧ ∃ r, f.roots.si = num 0 ∧ horner f.roots.sr p = .ok r ∧ f.qp = r.1 ∧
    m.fabs r.2 ≤ num 20 * m.eps * (num 2 * realError m f.roots.sr r.1 - m.fabs r.2))

/-- The same for a result that may be something else. -/
def LeftOK (m : RMath K) (p : List K) {β : Type} : Found K ⊕ β → Prop
  | .inl f => FoundOK m p f
  | .inr _ => True

theorem quadITLoop_found (m : RMath K) (p : List K) : ∀ (fuel : ℕ) (st : QuadState K),
    (quadITLoop m p fuel st).Sat (LeftOK m p) := by
  intro fuel
  induction fuel with
  | zero => intro st; exact Res.sat_hang
  | succ fuel ih =>
    intro st
    have hstep : quadITLoop m p (fuel + 1) st = (do
      let z := quad m (num 1) st.u st.v
      if num 1 / num 100 * m.fabs z.lr < m.fabs (m.fabs z.sr - m.fabs z.lr) then pure (.inr st.k)
      else do
        let r ← quadSD st.u st.v p
        let me ← quadError m z st.v r.2.1 r.2.2 r.1
        if me.1 ≤ num 20 * me.2 then pure (.inl ⟨true, z, r.1⟩)
        else if 20 < st.j + 1 then pure (.inr st.k)
        else do
          let c ← quadCluster m p { st with j := st.j + 1 } me.1 r
          let n ← quadAdvance m p c.1 me.1 c.2
          match n.2 with
          | none => pure (.inr n.1)
          | some st' => quadITLoop m p fuel st') := rfl
    rw [hstep]
    dsimp only
    split
    · exact Res.sat_pure trivial
    · refine Res.Sat.bind' fun r hr => Res.Sat.bind' fun e he => ?_
      split
      · rename_i h
        exact Res.sat_pure (Or.inl ⟨rfl, st.u, st.v, r, e, rfl, hr, rfl, he, h⟩)
      · split
        · exact Res.sat_pure trivial
        · refine Res.Sat.bind' fun c _ => Res.Sat.bind' fun n _ => ?_
          split
          · exact Res.sat_pure trivial
          · exact ih _

theorem quadIT_found (m : RMath K) (p k : List K) (u v : K) : (quadIT m p k u v).Sat (LeftOK m p) :=
  quadITLoop_found m p _ _

theorem realITLoop_found (m : RMath K) (p : List K) (sss : K) : ∀ (fuel : ℕ) (st : RealState K),
    (realITLoop m p sss fuel st).Sat (LeftOK m p) := by
  intro fuel
  induction fuel with
  | zero => intro st; exact Res.sat_hang
  | succ fuel ih =>
    intro st
    have hstep : realITLoop m p sss (fuel + 1) st = (do
      let r ← horner st.s p
      let mp := m.fabs r.2
      if mp ≤ num 20 * m.eps * (num 2 * realError m st.s r.1 - mp) then
        pure (.inl ⟨false, ⟨st.s, num 0, num 0, num 0⟩, r.1⟩)
      else if 10 < st.j + 1 then pure (.inr ⟨false, sss, st.k⟩)
      else do
        let st := { st with j := st.j + 1 }
        let c ← realCluster m st mp
        if c then pure (.inr ⟨true, st.s, st.k⟩)
        else do
          let st' ← realAdvance m st mp r.2 r.1
          realITLoop m p sss fuel st') := rfl
    rw [hstep]
    refine Res.Sat.bind' fun r hr => ?_
    dsimp only
    split
    · rename_i h
      exact Res.sat_pure (Or.inr ⟨rfl, r, rfl, hr, rfl, h⟩)
    · split
      · exact Res.sat_pure trivial
      · refine Res.Sat.bind' fun c _ => ?_
        split
        · exact Res.sat_pure trivial
        · exact Res.Sat.bind' fun st' _ => ih _

theorem realIT_found (m : RMath K) (p k : List K) (s : K) : (realIT m p k s).Sat (LeftOK m p) :=
  realITLoop_found m p _ _ _

theorem innerQuad_found (m : RMath K) (p svk : List K) (a b c : Bool) (st : Inner K) :
    (innerQuad m p svk a b c st).Sat (LeftOK m p) := by
  unfold innerQuad
  split
  · exact Res.sat_ok trivial
  · refine (quadIT_found m p st.k st.ui st.vi).bind fun r hr => ?_
    cases r with
    | inl f => exact Res.sat_pure hr
    | inr k =>
      dsimp only
      split
      · exact Res.sat_pure trivial
      · exact Res.sat_pure trivial

theorem innerReal_found (m : RMath K) (p svk : List K) (st : Inner K) (b : Bool) :
    (innerReal m p svk st b).Sat (LeftOK m p) := by
  unfold innerReal
  split
  · refine (realIT_found m p st.k st.s).bind fun r hr => ?_
    cases r with
    | inl f => exact Res.sat_pure hr
    | inr k =>
      dsimp only
      split
      · exact Res.sat_pure trivial
      · exact Res.sat_pure trivial
  · exact Res.sat_ok trivial

theorem innerLoop_found (m : RMath K) (p svk : List K) (a b c : Bool) : ∀ (fuel : ℕ) (st : Inner K),
    (innerLoop m p svk a b c fuel st).Sat (LeftOK m p) := by
  intro fuel
  induction fuel with
  | zero => intro st; exact Res.sat_hang
  | succ fuel ih =>
    intro st
    have hstep : innerLoop m p svk a b c (fuel + 1) st = (do
      let r ← innerQuad m p svk a b c st
      match r with
      | .inl f => pure (.inl f)
      | .inr x => do
        let r' ← innerReal m p svk x.1 x.2
        match r' with
        | .inl f => pure (.inl f)
        | .inr st' =>
          if b ∧ st'.vtry = false then innerLoop m p svk a b c fuel st' else pure (.inr st')) := rfl
    rw [hstep]
    refine (innerQuad_found m p svk a b c st).bind fun r hr => ?_
    cases r with
    | inl f => exact Res.sat_pure hr
    | inr x =>
      refine (innerReal_found m p svk x.1 x.2).bind fun r hr => ?_
      cases r with
      | inl f => exact Res.sat_pure hr
      | inr st' =>
        dsimp only
        split
        · exact ih _
        · exact Res.sat_pure trivial

theorem fxTry_found (m : RMath K) (p : List K) (u v : K) (st : Fx K) (ss ui vi : K) (x : Option (K × K)) :
    (fxTry m p u v st ss ui vi x).Sat (LeftOK m p) := by
  cases x with
  | none => exact Res.sat_ok trivial
  | some x =>
    unfold fxTry
    dsimp only
    split
    · refine (innerLoop_found m p _ _ _ _ _ _).bind fun r hr => ?_
      cases r with
      | inl f => exact Res.sat_pure hr
      | inr i =>
        exact Res.Sat.bind' fun _ _ => Res.Sat.bind' fun _ _ => Res.sat_pure trivial
    · exact Res.sat_ok trivial

theorem fxRound_found (m : RMath K) (p : List K) (u v : K) (st : Fx K) :
    (fxRound m p u v st).Sat (LeftOK m p) := by
  unfold fxRound
  refine Res.Sat.bind' fun _ _ => Res.Sat.bind' fun _ _ => Res.Sat.bind' fun _ _ => Res.Sat.bind' fun _ _ =>
    Res.Sat.bind' fun _ _ => Res.Sat.bind' fun _ _ => ?_
  refine (fxTry_found m p u v _ _ _ _ _).bind fun r hr => ?_
  cases r with
  | inl f => exact Res.sat_pure hr
  | inr i => exact Res.sat_pure trivial

/-- A zero, if there is one, has passed the test. -/
def SomeOK (m : RMath K) (p : List K) (o : Option (Found K)) : Prop := ∀ f ∈ o, FoundOK m p f

theorem fxLoop_found (m : RMath K) (p : List K) (u v : K) : ∀ (l : ℕ) (st : Fx K),
    (fxLoop m p u v l st).Sat (SomeOK m p) := by
  intro l
  induction l with
  | zero => intro st; exact Res.sat_ok (by simp [SomeOK])
  | succ l ih =>
    intro st
    have hstep : fxLoop m p u v (l + 1) st = (do
      let r ← fxRound m p u v st
      match r with
      | .inl f => pure (some f)
      | .inr st' => fxLoop m p u v l st') := rfl
    rw [hstep]
    refine (fxRound_found m p u v st).bind fun r hr => ?_
    cases r with
    | inl f => exact Res.sat_pure (by simpa [SomeOK, LeftOK] using hr)
    | inr i => exact ih _

theorem fxshfr_found (m : RMath K) (l : ℕ) (sr bnd : K) (k p : List K) :
    (fxshfr m l sr bnd k p).Sat (SomeOK m p) := by
  unfold fxshfr
  exact Res.Sat.bind' fun _ _ => Res.Sat.bind' fun _ _ => fxLoop_found m p _ _ _ _

theorem shiftLoop_found (m : RMath K) (bnd : K) (k p : List K) : ∀ (left jj : ℕ) (xx yy : K),
    (shiftLoop m bnd k p left jj xx yy).Sat (fun r => SomeOK m p r.1) := by
  intro left
  induction left with
  | zero => intro jj xx yy; exact Res.sat_ok (by simp [SomeOK])
  | succ left ih =>
    intro jj xx yy
    have hstep : shiftLoop m bnd k p (left + 1) jj xx yy = (do
      let xxx := -(m.sinr * yy) + m.cosr * xx
      let yy := m.sinr * xx + m.cosr * yy
      let sr := bnd * xxx
      let r ← fxshfr m (20 * jj) sr bnd k p
      match r with
      | some f => pure (some f, xxx, yy)
      | none => shiftLoop m bnd k p left (jj + 1) xxx yy) := rfl
    rw [hstep]
    dsimp only
    refine (fxshfr_found m _ _ _ _ _).bind fun r hr => ?_
    cases r with
    | some f => exact Res.sat_pure (by simpa [SomeOK, LeftOK] using hr)
    | none => exact ih _ _ _

end
end Verif
