import Verif.Model.AnalysesRoots
import Verif.Model.RoundedFeasibility

/-
The analytic feasibility check (feasibility_analytic.cpp:42-233) for numbers without laws: the definitions of
`Model/FeasibilityAnalytic` again, with the library functions and constants as arguments, so that they can be used with rounded
numbers, and with the root finder as a call that may not return. `C131_same_code` states that with a field they are the
definitions of `Model/FeasibilityAnalytic`.
-/
namespace Verif

variable {K : Type}

section
variable [Zero K] [One K] [Add K] [Sub K] [Mul K] [Div K] [Neg K] [NatCast K] [LT K] [DecidableLT K]

/-- `std::min_element` with `Extremum::operator<`, dereferenced (undefined for an empty range). -/
def minElementG : List (Extremum K) → Res (Extremum K)
  | [] => .ub
  | e :: es => .ok (es.foldl Extremum.stdMin e)

/-- `std::max_element` with `Extremum::operator<`, dereferenced (undefined for an empty range). -/
def maxElementG : List (Extremum K) → Res (Extremum K)
  | [] => .ub
  | e :: es => .ok (es.foldl Extremum.stdMax e)

/-- feasibility_analytic.cpp:136-142, the thrust polynomial of one axis. -/
def thrustPolyG (g : Fin 3 → K) (s : Segment K) (i : Fin 3) : Res (Poly K) := do
  let p ← s.get i
  let c ← p.getCoefficients 2
  let c' ← headN c (s.N - 2)
  match c' with
  | [] => .ub
  | a :: as => pure ⟨(a + g i) :: as⟩

/-- feasibility_analytic.cpp:133-143, the thrust segment. -/
def thrustSegmentG (g : Fin 3 → K) (s : Segment K) : Res (Segment K) := do
  let ps ← ([0, 1, 2] : List (Fin 3)).mapM (thrustPolyG g s)
  pure ⟨ps, s.time, s.N - 2⟩

/-- feasibility_analytic.cpp:153-169, the check of one thrust limit. -/
def candidatesViolateG (ic : InputConstraints K) (type : ℤ) (el : Res (Extremum K)) (p : K → K → Bool) : Res Bool :=
  match ic.getConstraint type with
  | some lim => do
    let e ← el
    pure (p e.value lim)
  | none => .ok false

/-- feasibility_analytic.cpp:129-172, `analyticThrustFeasibility`: the verdict and the candidates. -/
def analyticThrustG (lib : FeasLib K) (rf : RootCall K) (ic : InputConstraints K) (g : Fin 3 → K) (s : Segment K) :
    Res (Verdict × List (Extremum K)) := do
  let ts ← thrustSegmentG g s
  let c ← ts.magnitudeCandidatesM lib.toMagLib rf 0 0 ts.time kPosDim
  if !c.1 then pure (.indeterminable, c.2)
  else
    let low ← candidatesViolateG ic kFMin (minElementG c.2) fun v lim => v < lim
    if low then pure (.thrustLow, c.2)
    else
      let high ← candidatesViolateG ic kFMax (maxElementG c.2) fun v lim => v > lim
      if high then pure (.thrustHigh, c.2) else pure (.feasible, c.2)

/-- feasibility_analytic.cpp:174-233, `recursiveRollPitchFeasibility`, with at most `fuel` nested calls. When no candidate lies in
the section, the quotient under the root is -1: `std::sqrt` gives NaN and the comparison with the limit is false, here the root of
-1 must not exceed the limit (`Real.sqrt (-1) = 0`). -/
def recursiveRollPitchG (lib : FeasLib K) (ic : InputConstraints K) (minSection : K) (tc jc : List (Extremum K)) :
    ℕ → K → K → Res Verdict
  | 0, _, _ => .hang
  | fuel + 1, t1, t2 =>
    if t2 - t1 < minSection then .ok .indeterminable
    else
      let f := selectMinMaxMagnitudeG lib.toMagLib t1 t2 tc Extremum.zero Extremum.zero
      if !f.1 then .ok .indeterminable
      else
        let j := selectMinMaxMagnitudeG lib.toMagLib t1 t2 jc Extremum.zero Extremum.zero
        if !j.1 then .ok .indeterminable
        else
          let upper := if f.2.1.value > lib.tiny then lib.sqrt (j.2.2.value / f.2.1.value) else lib.max
          match ic.getConstraint kOmegaXYMax with
          | none => .ok .feasible
          | some limit =>
            if upper > limit then do
              let half := (t1 + t2) / lib.two
              let r1 ← recursiveRollPitchG lib ic minSection tc jc fuel t1 half
              if r1 = .feasible then recursiveRollPitchG lib ic minSection tc jc fuel half t2
              else pure r1
            else .ok .feasible

/-- feasibility_analytic.cpp:50-60, the thrust check if it is needed. -/
def thrustPartG (lib : FeasLib K) (rf : RootCall K) (ic : InputConstraints K) (g : Fin 3 → K) (s : Segment K) :
    Res (Verdict × List (Extremum K)) :=
  if ic.hasConstraint kFMin ∨ ic.hasConstraint kFMax ∨ ic.hasConstraint kOmegaXYMax then analyticThrustG lib rf ic g s
  else .ok (.feasible, [])

/-- feasibility_analytic.cpp:63-80, the velocity check, `none` when the limit is met. -/
def analyticVelocityG (lib : FeasLib K) (rf : RootCall K) (ic : InputConstraints K) (s : Segment K) : Res (Option Verdict) :=
  match ic.getConstraint kVMax with
  | none => .ok none
  | some lim => do
    let c ← s.magnitudeCandidatesM lib.toMagLib rf 1 0 s.time kPosDim
    if !c.1 then pure (some .indeterminable)
    else do
      let e ← maxElementG c.2
      pure (if e.value > lim then some .velocity else none)

/-- feasibility_analytic.cpp:107-124, the check of roll and pitch rates, given the candidates of the thrust. -/
def rollPitchPartG (lib : FeasLib K) (rf : RootCall K) (ic : InputConstraints K) (minSection : K) (fuel : ℕ) (s : Segment K)
    (tc : List (Extremum K)) : Res Verdict :=
  if ic.hasConstraint kOmegaXYMax then do
    let j ← s.magnitudeCandidatesM lib.toMagLib rf 3 0 s.time kPosDim
    if !j.1 then pure .indeterminable
    else recursiveRollPitchG lib ic minSection tc j.2 fuel 0 s.time
  else .ok .feasible

/-- feasibility_analytic.cpp:42-127, `FeasibilityAnalytic::checkInputFeasibility`. The constructor of the thrust segment (line 51)
is undefined for a negative number of coefficients. The yaw checks (lines 82-105) are those of the recursive check. -/
def Segment.checkAnalyticG (lib : FeasLib K) (rf : RootCall K) (ic : InputConstraints K) (g : Fin 3 → K)
    (minSection : K) (fuel : ℕ) (s : Segment K) : Res Verdict :=
  if s.D = 3 ∨ s.D = 4 then
    if s.N < 2 then .ub
    else do
      let t ← thrustPartG lib rf ic g s
      if t.1 ≠ .feasible then pure t.1
      else
        match ← analyticVelocityG lib rf ic s with
        | some r => pure r
        | none =>
          match ← yawChecksG lib rf ic s with
          | some r => pure r
          | none => rollPitchPartG lib rf ic minSection fuel s t.2
  else .ok .indeterminable

end

/-- `checkInputFeasibility` with `double` numbers (no scalar product of Eigen is used by this check). -/
noncomputable def Segment.checkAnalyticFl {rnd : ℝ → ℝ} (rf : RootCall (Fl rnd)) (ic : InputConstraints (Fl rnd))
    (g : Fin 3 → Fl rnd) (minSection : Fl rnd) (fuel : ℕ) (s : Segment (Fl rnd)) : Res Verdict :=
  s.checkAnalyticG (flFeasLib rnd fun _ _ _ => 0) rf ic g minSection fuel

end Verif
