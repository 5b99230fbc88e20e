import Verif.Model.RoundedMagnitude
import Verif.Model.RoundedHalfPlane
import Verif.Model.ExtremaRoots

/-
The recursive feasibility check (feasibility_recursive.cpp:42-304) for numbers without laws: the definitions of
`Model/Feasibility` again, with the library functions, the constants and the scalar product of Eigen as arguments, so that they can
be used with rounded numbers, and with the root finder as a call that may not return. `C128_same_code` states that with a field
they are the definitions of `Model/Feasibility`.
-/
namespace Verif

variable {K : Type}

/-- What the recursive check uses besides the operations: the functions and constants of `MagLib`, the scalar product of Eigen and
the two literals `1.0e-6` (feasibility_recursive.cpp:249) and `2` (line 282). -/
structure FeasLib (K : Type) extends MagLib K where
  dot : Dot K
  tiny : K
  two : K

/-- A limit that is present and satisfies `p`. -/
def limitSuchThatG (ic : InputConstraints K) (type : ℤ) (p : K → Bool) : Bool :=
  match ic.getConstraint type with
  | some lim => p lim
  | none => false

section
variable [Zero K] [One K] [Add K] [Sub K] [Mul K] [Div K] [Neg K] [NatCast K] [LT K] [DecidableLT K]

/-- `std::min` of two numbers. -/
def stdMinVal (a b : K) : K := if b < a then b else a

/-- polynomial.cpp:85-100, `selectMinMaxFromRoots`. -/
def Poly.selectMinMaxFromRootsG (lib : MagLib K) (p : Poly K) (tStart tEnd : K) (d : ℤ) (roots : List (K × K)) :
    Res (Option ((K × K) × (K × K))) :=
  match candidatesG lib.abs lib.eps tStart tEnd roots with
  | none => .ok none
  | some c => p.selectMinMaxFromCandidatesG lib.max c d

/-- feasibility_recursive.cpp:299-304, `evaluateThrust`. -/
def evaluateThrustG (lib : FeasLib K) (g : Fin 3 → K) (s : Segment K) (t : K) : Res K := do
  let v ← s.evaluate t 2
  let a ← vecHead3 v
  pure (lib.sqrt (lib.dot 3 (fun i => a i + g i) fun i => a i + g i))

/-- The norm of the velocity, as in feasibility_recursive.cpp:161-164. -/
def evaluateSpeedG (lib : FeasLib K) (s : Segment K) (t : K) : Res K := do
  let v ← s.evaluate t 1
  let a ← vecHead3 v
  pure (lib.sqrt (lib.dot 3 a a))

/-- feasibility_recursive.cpp:51-83, one of the loops finding the roots of derivative `d` in the first three dimensions: `none`
when the function returns `kInputIndeterminable`. -/
def rootsLoopG (rf : RootCall K) (s : Segment K) (d : ℤ) :
    List ℕ → List (List (K × K)) → Res (Option (List (List (K × K))))
  | [], acc => .ok (some acc)
  | i :: is, acc => do
    let p ← s.get i
    let c ← p.getCoefficients d
    let r ← rf c
    if r.1 then rootsLoopG rf s d is (acc ++ [r.2]) else pure none

/-- feasibility_recursive.cpp:139-155, the thrust at the ends of the section. -/
def thrustAtEndsG (lib : FeasLib K) (ic : InputConstraints K) (g : Fin 3 → K) (s : Segment K) (t1 t2 : K) :
    Res (Option Verdict) :=
  if ic.hasConstraint kFMin ∨ ic.hasConstraint kFMax then do
    let f1 ← evaluateThrustG lib g s t1
    let f2 ← evaluateThrustG lib g s t2
    if limitSuchThatG ic kFMin fun lim => stdMinVal f1 f2 < lim then pure (some .thrustLow)
    else if limitSuchThatG ic kFMax fun lim => stdMaxVal f1 f2 > lim then pure (some .thrustHigh)
    else pure none
  else .ok none

/-- feasibility_recursive.cpp:157-168, the speed at the ends of the section. -/
def speedAtEndsG (lib : FeasLib K) (ic : InputConstraints K) (s : Segment K) (t1 t2 : K) : Res (Option Verdict) :=
  match ic.getConstraint kVMax with
  | some lim => do
    let v1 ← evaluateSpeedG lib s t1
    let v2 ← evaluateSpeedG lib s t2
    pure (if stdMaxVal v1 v2 > lim then some .velocity else none)
  | none => .ok none

/-- `segment[i].selectMinMaxFromRoots(...)` as called in feasibility_recursive.cpp:180, 201 and 235: the values of minimum and
maximum. The flag is ignored there; the output pairs are then zero. -/
def axisMinMaxG (lib : FeasLib K) (s : Segment K) (d : ℤ) (roots : List (List (K × K))) (t1 t2 : K) (i : ℕ) :
    Res (K × K) := do
  let p ← s.get i
  let r ← Res.at' roots i
  let m ← p.selectMinMaxFromRootsG lib.toMagLib t1 t2 d r
  match m with
  | some mm => pure (mm.1.2, mm.2.2)
  | none => pure (0, 0)

/-- `std::max(std::abs(a), std::abs(b))`. -/
def maxAbsG (lib : FeasLib K) (a b : K) : K := stdMaxVal (lib.abs a) (lib.abs b)

/-- feasibility_recursive.cpp:176-193, the bound on the squared speed. -/
def velocityLoopG (lib : FeasLib K) (s : Segment K) (lim : K) (roots : List (List (K × K))) (t1 t2 : K) :
    List ℕ → K → Res (Verdict ⊕ K)
  | [], acc => .ok (.inr acc)
  | i :: is, acc => do
    let m ← axisMinMaxG lib s 1 roots t1 t2 i
    if stdMaxVal (lib.pow2 m.1) (lib.pow2 m.2) > lib.pow2 lim then pure (.inl .velocity)
    else velocityLoopG lib s lim roots t1 t2 is (acc + lib.pow2 (maxAbsG lib m.1 m.2))

/-- feasibility_recursive.cpp:214-221, what is added to the lower bound on the squared thrust. -/
def lowerTermG (lib : FeasLib K) (lo hi : K) : K :=
  if lo * hi < 0 then 0 else lib.pow2 (stdMinVal (lib.abs lo) (lib.abs hi))

/-- feasibility_recursive.cpp:195-228, the bounds on the squared thrust. -/
def thrustLoopG (lib : FeasLib K) (ic : InputConstraints K) (g : Fin 3 → K) (s : Segment K) (roots : List (List (K × K)))
    (t1 t2 : K) : List (Fin 3) → K × K → Res (Verdict ⊕ (K × K))
  | [], acc => .ok (.inr acc)
  | i :: is, acc => do
    let m ← axisMinMaxG lib s 2 roots t1 t2 i
    let lo := m.1 + g i
    let hi := m.2 + g i
    if limitSuchThatG ic kFMax fun lim => maxAbsG lib lo hi > lim then pure (.inl .thrustHigh)
    else thrustLoopG lib ic g s roots t1 t2 is (acc.1 + lowerTermG lib lo hi, acc.2 + lib.pow2 (maxAbsG lib lo hi))

/-- feasibility_recursive.cpp:230-242, the bound on the squared jerk. -/
def jerkLoopG (lib : FeasLib K) (s : Segment K) (roots : List (List (K × K))) (t1 t2 : K) : List ℕ → K → Res K
  | [], acc => .ok acc
  | i :: is, acc => do
    let m ← axisMinMaxG lib s 3 roots t1 t2 i
    jerkLoopG lib s roots t1 t2 is (acc + lib.pow2 (maxAbsG lib m.1 m.2))

/-- feasibility_recursive.cpp:244-280 and 296: the decision from the bounds; `none` means that the section is split. -/
def classifyG (lib : FeasLib K) (ic : InputConstraints K) (fMinSqr fMaxSqr vMaxSqr jMaxSqr : K) : Option Verdict :=
  let fLower := lib.sqrt fMinSqr
  let fUpper := lib.sqrt fMaxSqr
  let vUpper := lib.sqrt vMaxSqr
  let omegaUpper := if fMinSqr > lib.tiny then lib.sqrt (jMaxSqr / fMinSqr) else lib.max
  if limitSuchThatG ic kFMin fun lim => fUpper < lim then some .thrustLow
  else if limitSuchThatG ic kFMax fun lim => fLower > lim then some .thrustHigh
  else if limitSuchThatG ic kFMin (fun lim => fLower < lim) ∨
      limitSuchThatG ic kFMax (fun lim => fUpper > lim) ∨
      limitSuchThatG ic kVMax (fun lim => vUpper > lim) ∨
      limitSuchThatG ic kOmegaXYMax (fun lim => omegaUpper > lim) then none
  else some .feasible

/-- feasibility_recursive.cpp:173-193, the bound on the squared speed, 0 without a limit. -/
def velocityPartG (lib : FeasLib K) (ic : InputConstraints K) (s : Segment K) (ra : List (List (K × K))) (t1 t2 : K) :
    Res (Verdict ⊕ K) :=
  match ic.getConstraint kVMax with
  | some lim => velocityLoopG lib s lim ra t1 t2 [0, 1, 2] 0
  | none => .ok (.inr 0)

/-- feasibility_recursive.cpp:139-296 without the recursive calls: `none` means that the section is split. -/
def sectionCheckG (lib : FeasLib K) (ic : InputConstraints K) (g : Fin 3 → K) (s : Segment K)
    (ra rj rs : List (List (K × K))) (t1 t2 : K) : Res (Option Verdict) := do
  match ← thrustAtEndsG lib ic g s t1 t2 with
  | some r => pure (some r)
  | none =>
    match ← speedAtEndsG lib ic s t1 t2 with
    | some r => pure (some r)
    | none =>
      match ← velocityPartG lib ic s ra t1 t2 with
      | .inl r => pure (some r)
      | .inr vMax =>
        let f ← (if ic.hasConstraint kFMin ∨ ic.hasConstraint kFMax ∨ ic.hasConstraint kOmegaXYMax
          then thrustLoopG lib ic g s rj t1 t2 [0, 1, 2] (0, 0) else .ok (.inr (0, 0)))
        match f with
        | .inl r => pure (some r)
        | .inr (fMin, fMax) =>
          let j ← (if ic.hasConstraint kOmegaXYMax then jerkLoopG lib s rs t1 t2 [0, 1, 2] 0 else .ok 0)
          pure (classifyG lib ic fMin fMax vMax j)

/-- feasibility_recursive.cpp:133-297, `recursiveFeasibility`, with at most `fuel` nested calls. -/
def recursiveFeasibilityG (lib : FeasLib K) (ic : InputConstraints K) (g : Fin 3 → K) (minSection : K)
    (s : Segment K) (ra rj rs : List (List (K × K))) : ℕ → K → K → Res Verdict
  | 0, _, _ => .hang
  | fuel + 1, t1, t2 =>
    if t2 - t1 < minSection then .ok .indeterminable
    else do
      match ← sectionCheckG lib ic g s ra rj rs t1 t2 with
      | some r => pure r
      | none =>
        let half := (t1 + t2) / lib.two
        let r1 ← recursiveFeasibilityG lib ic g minSection s ra rj rs fuel t1 half
        if r1 = .feasible then recursiveFeasibilityG lib ic g minSection s ra rj rs fuel half t2
        else pure r1

/-- feasibility_recursive.cpp:98-110 and 113-125, the check of one yaw limit, `none` when it is met. -/
def yawCheckG (lib : FeasLib K) (rf : RootCall K) (ic : InputConstraints K) (s : Segment K) (type : ℤ) (d : ℤ)
    (bad : Verdict) : Res (Option Verdict) :=
  match ic.getConstraint type with
  | none => .ok none
  | some lim => do
    let p ← s.get 3
    let m ← p.computeMinMaxM lib.abs lib.eps lib.max rf 0 s.time d
    match m with
    | none => pure (some .indeterminable)
    | some mm => pure (if maxAbsG lib mm.1.2 mm.2.2 > lim then some bad else none)

/-- feasibility_recursive.cpp:94-127, the yaw checks, `none` when all are met. -/
def yawChecksG (lib : FeasLib K) (rf : RootCall K) (ic : InputConstraints K) (s : Segment K) : Res (Option Verdict) :=
  if s.D = 4 then do
    match ← yawCheckG lib rf ic s kOmegaZMax 1 .yawRates with
    | some r => pure (some r)
    | none => yawCheckG lib rf ic s kOmegaZDotMax 2 .yawAcc
  else .ok none

/-- feasibility_recursive.cpp:42-131, `FeasibilityRecursive::checkInputFeasibility`. -/
def Segment.checkRecursiveG (lib : FeasLib K) (rf : RootCall K) (ic : InputConstraints K) (g : Fin 3 → K)
    (minSection : K) (fuel : ℕ) (s : Segment K) : Res Verdict :=
  if s.D = 3 ∨ s.D = 4 then do
    match ← (if ic.hasConstraint kVMax then rootsLoopG rf s 2 [0, 1, 2] [] else .ok (some [])) with
    | none => pure .indeterminable
    | some ra =>
      match ← (if ic.hasConstraint kFMin ∨ ic.hasConstraint kFMax ∨ ic.hasConstraint kOmegaXYMax then
          rootsLoopG rf s 3 [0, 1, 2] [] else .ok (some [])) with
      | none => pure .indeterminable
      | some rj =>
        match ← (if ic.hasConstraint kOmegaXYMax then rootsLoopG rf s 4 [0, 1, 2] []
            else .ok (some [])) with
        | none => pure .indeterminable
        | some rs =>
          let r ← recursiveFeasibilityG lib ic g minSection s ra rj rs fuel 0 s.time
          if r ≠ .feasible then pure r
          else
            match ← yawChecksG lib rf ic s with
            | some r => pure r
            | none => pure .feasible
  else .ok .indeterminable

end

/-- The library of `double` with the scalar product `dot`. The literal `1.0e-6` is rounded. -/
noncomputable def flFeasLib (rnd : ℝ → ℝ) (dot : Dot (Fl rnd)) : FeasLib (Fl rnd) where
  toMagLib := flLib rnd
  dot := dot
  tiny := ⟨rnd (1 / 10 ^ 6)⟩
  two := ⟨2⟩

/-- The library of exact numbers used by `Model/Feasibility`. -/
def fieldFeasLib [Field K] [LinearOrder K] (sq : K → K) : FeasLib K where
  toMagLib := fieldLib sq
  dot := fun _ a b => ∑ i, a i * b i
  tiny := 1 / 10 ^ 6
  two := 2

/-- `checkInputFeasibility` with `double` numbers. -/
noncomputable def Segment.checkRecursiveFl {rnd : ℝ → ℝ} (dot : Dot (Fl rnd)) (rf : RootCall (Fl rnd))
    (ic : InputConstraints (Fl rnd)) (g : Fin 3 → Fl rnd) (minSection : Fl rnd) (fuel : ℕ) (s : Segment (Fl rnd)) :
    Res Verdict := s.checkRecursiveG (flFeasLib rnd dot) rf ic g minSection fuel

end Verif
