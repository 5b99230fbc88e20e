import Verif.Model.Feasibility

/-
Model of mav_trajectory_generation_ros/src/feasibility_analytic.cpp, for the recursive check of roll and
pitch rates with at most `fuel` nested calls.
-/
namespace Verif

variable {K : Type} [Field K] [LinearOrder K]

/-- `std::min_element` with `Extremum::operator<`, dereferenced (undefined for an empty range). -/
def minElement : List (Extremum K) → Res (Extremum K)
  | [] => .ub
  | e :: es => .ok (es.foldl Extremum.stdMin e)

/-- `std::max_element` with `Extremum::operator<`, dereferenced (undefined for an empty range). -/
def maxElement : List (Extremum K) → Res (Extremum K)
  | [] => .ub
  | e :: es => .ok (es.foldl Extremum.stdMax e)

/-- feasibility_analytic.cpp:26, `kPosDim`. -/
def kPosDim : List ℤ := [0, 1, 2]

/-- feasibility_analytic.cpp:136-142, the thrust polynomial of one axis. `thrust_coeffs(0)` is undefined
for an empty vector. -/
def thrustPoly (g : Fin 3 → K) (s : Segment K) (i : Fin 3) : Res (Poly K) := do
  let p ← s.get i
  let c ← p.getCoefficients 2
  let c' ← headN c (s.N - 2)
  match c' with
  | [] => .ub
  | a :: as => pure ⟨(a + g i) :: as⟩

/-- feasibility_analytic.cpp:133-143, the thrust segment. -/
def thrustSegment (g : Fin 3 → K) (s : Segment K) : Res (Segment K) := do
  let ps ← ([0, 1, 2] : List (Fin 3)).mapM (thrustPoly g s)
  pure ⟨ps, s.time, s.N - 2⟩

/-- feasibility_analytic.cpp:153-169, the check of one thrust limit: an element of the candidates is
selected and compared with the limit, if there is one. -/
def candidatesViolate (ic : InputConstraints K) (type : ℤ) (el : Res (Extremum K)) (p : K → K → Bool) :
    Res Bool :=
  match ic.getConstraint type with
  | some lim => do
    let e ← el
    pure (p e.value lim)
  | none => .ok false

/-- feasibility_analytic.cpp:129-172, `analyticThrustFeasibility`: the verdict, the candidates and the
thrust segment. -/
def analyticThrust (rf : RootFinder K) (sq : K → K) (ic : InputConstraints K) (g : Fin 3 → K)
    (s : Segment K) : Res (Verdict × List (Extremum K) × Segment K) := do
  let ts ← thrustSegment g s
  let c ← ts.magnitudeCandidates rf sq 0 0 ts.time kPosDim
  if !c.1 then pure (.indeterminable, c.2, ts)
  else
    let low ← candidatesViolate ic kFMin (minElement c.2) fun v lim => v < lim
    if low then pure (.thrustLow, c.2, ts)
    else
      let high ← candidatesViolate ic kFMax (maxElement c.2) fun v lim => v > lim
      if high then pure (.thrustHigh, c.2, ts) else pure (.feasible, c.2, ts)

/-- feasibility_analytic.cpp:174-233, `recursiveRollPitchFeasibility`. When no candidate lies in the
section, the quotient under the root is -1: `std::sqrt` gives NaN and the comparison with the limit is
false, here `sq (-1)` must not exceed the limit (`Real.sqrt (-1) = 0`). -/
def recursiveRollPitch (sq : K → K) (ic : InputConstraints K) (minSection : K)
    (tc jc : List (Extremum K)) : ℕ → K → K → Res Verdict
  | 0, _, _ => .hang
  | fuel + 1, t1, t2 =>
    if t2 - t1 < minSection then .ok .indeterminable
    else
      let f := selectMinMaxMagnitude t1 t2 tc Extremum.zero Extremum.zero
      if !f.1 then .ok .indeterminable
      else
        let j := selectMinMaxMagnitude t1 t2 jc Extremum.zero Extremum.zero
        if !j.1 then .ok .indeterminable
        else
          let upper := if f.2.1.value > 1 / 10 ^ 6 then sq (j.2.2.value / f.2.1.value) else dblMax
          match ic.getConstraint kOmegaXYMax with
          | none => .ok .feasible
          | some limit =>
            if upper > limit then do
              let half := (t1 + t2) / 2
              let r1 ← recursiveRollPitch sq ic minSection tc jc fuel t1 half
              if r1 = .feasible then recursiveRollPitch sq ic minSection tc jc fuel half t2
              else pure r1
            else .ok .feasible

/-- feasibility_analytic.cpp:50-60, the thrust check if it is needed: the verdict and the candidates. -/
def thrustPart (rf : RootFinder K) (sq : K → K) (ic : InputConstraints K) (g : Fin 3 → K)
    (s : Segment K) : Res (Verdict × List (Extremum K)) :=
  if ic.hasConstraint kFMin ∨ ic.hasConstraint kFMax ∨ ic.hasConstraint kOmegaXYMax then do
    let r ← analyticThrust rf sq ic g s
    pure (r.1, r.2.1)
  else .ok (.feasible, [])

/-- feasibility_analytic.cpp:63-80, the velocity check, `none` when the limit is met. -/
def analyticVelocity (rf : RootFinder K) (sq : K → K) (ic : InputConstraints K) (s : Segment K) :
    Res (Option Verdict) :=
  match ic.getConstraint kVMax with
  | none => .ok none
  | some lim => do
    let c ← s.magnitudeCandidates rf sq 1 0 s.time kPosDim
    if !c.1 then pure (some .indeterminable)
    else do
      let e ← maxElement c.2
      pure (if e.value > lim then some .velocity else none)

/-- feasibility_analytic.cpp:42-127, `FeasibilityAnalytic::checkInputFeasibility`. The constructor of the
thrust segment (line 51) is undefined for a negative number of coefficients. -/
def Segment.checkAnalytic (rf : RootFinder K) (sq : K → K) (ic : InputConstraints K) (g : Fin 3 → K)
    (minSection : K) (fuel : ℕ) (s : Segment K) : Res Verdict :=
  if s.D = 3 ∨ s.D = 4 then
    if s.N < 2 then .ub
    else do
      let t ← thrustPart rf sq ic g s
      if t.1 ≠ .feasible then pure t.1
      else
        match ← analyticVelocity rf sq ic s with
        | some r => pure r
        | none =>
          match ← yawChecks rf ic s with
          | some r => pure r
          | none =>
            if ic.hasConstraint kOmegaXYMax then do
              let j ← s.magnitudeCandidates rf sq 3 0 s.time kPosDim
              if !j.1 then pure .indeterminable
              else recursiveRollPitch sq ic minSection t.2 j.2 fuel 0 s.time
            else pure .feasible
  else .ok .indeterminable

end Verif
