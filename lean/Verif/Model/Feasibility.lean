import Mathlib.Data.Fin.VecNotation
import Mathlib.Data.Fintype.Basic
import Verif.Model.Magnitude
import Verif.Model.InputConstraints

/-
Model of the feasibility checks of mav_trajectory_generation_ros: feasibility_base.cpp (half planes,
checks over trajectories), feasibility_recursive.cpp and feasibility_sampling.cpp. The analytic check is
in `Verif.Model.FeasibilityAnalytic`.

`Eigen::Vector3d` is `Fin 3 → K`; `std::sqrt` is the parameter `sq`, the root finder the parameter `rf`.
-/
namespace Verif

variable {K : Type}

/-- feasibility_base.h:35-52, enum `InputFeasibilityResult`. -/
inductive Verdict where
  | feasible
  | indeterminable
  | thrustHigh
  | thrustLow
  | velocity
  | rollPitchRates
  | yawRates
  | yawAcc
  deriving DecidableEq, Repr

/-- feasibility_base.cpp:31-51, `getInputFeasibilityResultName`. -/
def Verdict.name : Verdict → String
  | .feasible => "Feasible"
  | .indeterminable => "Indeterminable"
  | .thrustHigh => "InfeasibleThrustHigh"
  | .thrustLow => "InfeasibleThrustLow"
  | .velocity => "InfeasibleVelocity"
  | .rollPitchRates => "InfeasibleRollPitchRates"
  | .yawRates => "InfeasibleYawRates"
  | .yawAcc => "InfeasibleYawAcc"

/-- Eigen `head<3>()` / `head(3)`: undefined if the vector is shorter. -/
def vecHead3 : List K → Res (Fin 3 → K)
  | x :: y :: z :: _ => .ok ![x, y, z]
  | _ => .ub

/-- feasibility_base.cpp:97-107, `checkInputFeasibilityTrajectory`, with the virtual function
`checkInputFeasibility` as the parameter `check`. `result` is the variable of that name. -/
def checkTrajectory (check : Segment K → Res Verdict) : List (Segment K) → Verdict → Res Verdict
  | [], result => .ok result
  | s :: ss, _ => do
    let r ← check s
    if r ≠ .feasible then pure r else checkTrajectory check ss r

/-- feasibility_base.cpp:97-107, `checkInputFeasibilityTrajectory`. -/
def Trajectory.checkInputFeasibility (check : Segment K → Res Verdict) (tr : Trajectory K) :
    Res Verdict := checkTrajectory check tr.segments .indeterminable

/-- feasibility_base.h:58-76, class `HalfPlane`. -/
structure HalfPlane (K : Type) where
  point : Fin 3 → K
  normal : Fin 3 → K

section Order
variable [Field K] [LinearOrder K]

/-- Eigen `dot`. -/
def dot3 (a b : Fin 3 → K) : K := a 0 * b 0 + a 1 * b 1 + a 2 * b 2

/-- Eigen `norm()`. -/
def norm3 (sq : K → K) (a : Fin 3 → K) : K := sq (dot3 a a)

/-- Eigen `cross`. -/
def cross3 (a b : Fin 3 → K) : Fin 3 → K :=
  ![a 1 * b 2 - a 2 * b 1, a 2 * b 0 - a 0 * b 2, a 0 * b 1 - a 1 * b 0]

/-- Eigen `normalize()` / `normalized()`: unchanged if the squared norm is not positive. -/
def normalized3 (sq : K → K) (a : Fin 3 → K) : Fin 3 → K :=
  if dot3 a a > 0 then fun i => a i / sq (dot3 a a) else a

/-- feasibility_base.cpp:54-59, the constructor from a point and a normal. -/
def HalfPlane.ofNormal (sq : K → K) (point normal : Fin 3 → K) : Res (HalfPlane K) := do
  Res.check (norm3 sq normal > 0)
  pure ⟨point, normalized3 sq normal⟩

/-- feasibility_base.cpp:61-67, the constructor from three points. -/
def HalfPlane.ofPoints (sq : K → K) (a b c : Fin 3 → K) : Res (HalfPlane K) := do
  Res.check (a ≠ b)
  Res.check (a ≠ c)
  pure ⟨a, normalized3 sq (cross3 (fun i => b i - a i) (fun i => c i - a i))⟩

/-- feasibility_base.cpp:69-86, `createBoundingBox`: the body of the loop for one axis. -/
def boundingBoxAxis (sq : K → K) (point size : Fin 3 → K) (axis : Fin 3) : Res (List (HalfPlane K)) := do
  let lo ← HalfPlane.ofNormal sq (fun i => point i - size i / 2) (Function.update (fun _ => 0) axis 1)
  let hi ← HalfPlane.ofNormal sq (fun i => point i + size i / 2) (Function.update (fun _ => 0) axis (-1))
  pure [lo, hi]

/-- feasibility_base.cpp:69-86, `createBoundingBox`. -/
def createBoundingBox (sq : K → K) (point size : Fin 3 → K) : Res (List (HalfPlane K)) := do
  let l ← [0, 1, 2].mapM (boundingBoxAxis sq point size)
  pure l.flatten

/-- feasibility_base.cpp:132-135, the loop adding the scaled polynomials of the first three
dimensions. -/
def projection (s : Segment K) (n : Fin 3 → K) : Res (Poly K) :=
  [0, 1, 2].foldlM (fun (acc : Poly K) (i : Fin 3) => do
    let p ← s.get i
    acc.add (p.smul (n i))) (Poly.zero s.N)

/-- feasibility_base.cpp:143-151, the loop over the candidates: false when one of them is not on the
positive side. -/
def candidatesInside (s : Segment K) (hp : HalfPlane K) : List K → Res Bool
  | [] => .ok true
  | t :: ts => do
    let v ← s.evaluate t 0
    let x ← vecHead3 v
    if dot3 (fun i => x i - hp.point i) hp.normal ≤ 0 then pure false
    else candidatesInside s hp ts

/-- feasibility_base.cpp:128-152, the loop over the half planes. -/
def halfPlaneLoop (rf : RootFinder K) (s : Segment K) : List (HalfPlane K) → Res Bool
  | [] => .ok true
  | hp :: hps => do
    let p ← projection s hp.normal
    let c ← p.computeMinMaxCandidates rf 0 s.time 0
    let b ← candidatesInside s hp c.2
    if b then halfPlaneLoop rf s hps else pure false

/-- feasibility_base.cpp:119-154, `checkHalfPlaneFeasibility(segment)`. -/
def Segment.checkHalfPlanes (rf : RootFinder K) (hps : List (HalfPlane K)) (s : Segment K) : Res Bool :=
  if s.D = 3 ∨ s.D = 4 then halfPlaneLoop rf s hps else .ok false

/-- feasibility_base.cpp:109-117, the loop of `checkHalfPlaneFeasibility(trajectory)`. -/
def halfPlaneSegments (rf : RootFinder K) (hps : List (HalfPlane K)) : List (Segment K) → Res Bool
  | [] => .ok true
  | s :: ss => do
    let b ← s.checkHalfPlanes rf hps
    if b then halfPlaneSegments rf hps ss else pure false

/-- feasibility_base.cpp:109-117, `checkHalfPlaneFeasibility(trajectory)`. -/
def Trajectory.checkHalfPlanes (rf : RootFinder K) (hps : List (HalfPlane K)) (tr : Trajectory K) :
    Res Bool := halfPlaneSegments rf hps tr.segments

/-! ### The recursive check -/

/-- feasibility_recursive.cpp:299-304, `evaluateThrust`. -/
def evaluateThrust (sq : K → K) (g : Fin 3 → K) (s : Segment K) (t : K) : Res K := do
  let v ← s.evaluate t 2
  let a ← vecHead3 v
  pure (norm3 sq fun i => a i + g i)

/-- The norm of the velocity, as in feasibility_recursive.cpp:161-164. -/
def evaluateSpeed (sq : K → K) (s : Segment K) (t : K) : Res K := do
  let v ← s.evaluate t 1
  let a ← vecHead3 v
  pure (norm3 sq a)

/-- feasibility_recursive.cpp:51-83, one of the loops finding the roots of derivative `d` in the first
three dimensions: `none` when the function returns `kInputIndeterminable`. -/
def rootsLoop (rf : RootFinder K) (s : Segment K) (d : ℤ) :
    List ℕ → List (List (K × K)) → Res (Option (List (List (K × K))))
  | [], acc => .ok (some acc)
  | i :: is, acc => do
    let p ← s.get i
    let r ← p.getRoots rf d
    if r.1 then rootsLoop rf s d is (acc ++ [r.2]) else pure none

/-- feasibility_recursive.cpp:139-155, the thrust at the ends of the section. -/
def thrustAtEnds (sq : K → K) (ic : InputConstraints K) (g : Fin 3 → K) (s : Segment K) (t1 t2 : K) :
    Res (Option Verdict) :=
  if ic.hasConstraint kFMin ∨ ic.hasConstraint kFMax then do
    let f1 ← evaluateThrust sq g s t1
    let f2 ← evaluateThrust sq g s t2
    match ic.getConstraint kFMin, ic.getConstraint kFMax with
    | some lo, some hi =>
      pure (if min f1 f2 < lo then some .thrustLow else if max f1 f2 > hi then some .thrustHigh else none)
    | some lo, none => pure (if min f1 f2 < lo then some .thrustLow else none)
    | none, some hi => pure (if max f1 f2 > hi then some .thrustHigh else none)
    | none, none => pure none
  else .ok none

/-- feasibility_recursive.cpp:157-168, the speed at the ends of the section. -/
def speedAtEnds (sq : K → K) (ic : InputConstraints K) (s : Segment K) (t1 t2 : K) :
    Res (Option Verdict) :=
  match ic.getConstraint kVMax with
  | some lim => do
    let v1 ← evaluateSpeed sq s t1
    let v2 ← evaluateSpeed sq s t2
    pure (if max v1 v2 > lim then some .velocity else none)
  | none => .ok none

/-- `segment[i].selectMinMaxFromRoots(...)` as called in feasibility_recursive.cpp:180, 201 and 235:
the values of minimum and maximum. The flag is ignored there; the output pairs are then zero. -/
def axisMinMax (s : Segment K) (d : ℤ) (roots : List (List (K × K))) (t1 t2 : K) (i : ℕ) :
    Res (K × K) := do
  let p ← s.get i
  let r ← Res.at' roots i
  let m ← p.selectMinMaxFromRoots t1 t2 d r
  match m with
  | some mm => pure (mm.1.2, mm.2.2)
  | none => pure (0, 0)

/-- feasibility_recursive.cpp:176-193, the bound on the squared speed. -/
def velocityLoop (s : Segment K) (lim : K) (roots : List (List (K × K))) (t1 t2 : K) :
    List ℕ → K → Res (Verdict ⊕ K)
  | [], acc => .ok (.inr acc)
  | i :: is, acc => do
    let m ← axisMinMax s 1 roots t1 t2 i
    if max (m.1 ^ 2) (m.2 ^ 2) > lim ^ 2 then pure (.inl .velocity)
    else velocityLoop s lim roots t1 t2 is (acc + max |m.1| |m.2| ^ 2)

/-- A limit that is present and satisfies `p`. -/
def limitSuchThat (ic : InputConstraints K) (type : ℤ) (p : K → Bool) : Bool :=
  match ic.getConstraint type with
  | some lim => p lim
  | none => false

/-- feasibility_recursive.cpp:195-228, the bounds on the squared thrust. -/
def thrustLoop (ic : InputConstraints K) (g : Fin 3 → K) (s : Segment K) (roots : List (List (K × K)))
    (t1 t2 : K) : List (Fin 3) → K × K → Res (Verdict ⊕ (K × K))
  | [], acc => .ok (.inr acc)
  | i :: is, acc => do
    let m ← axisMinMax s 2 roots t1 t2 i
    let lo := m.1 + g i
    let hi := m.2 + g i
    let exceeds := limitSuchThat ic kFMax fun lim => max |lo| |hi| > lim
    let acc' := (acc.1 + (if lo * hi < 0 then 0 else min |lo| |hi| ^ 2), acc.2 + max |lo| |hi| ^ 2)
    if exceeds then pure (.inl .thrustHigh) else thrustLoop ic g s roots t1 t2 is acc'

/-- feasibility_recursive.cpp:230-242, the bound on the squared jerk. -/
def jerkLoop (s : Segment K) (roots : List (List (K × K))) (t1 t2 : K) : List ℕ → K → Res K
  | [], acc => .ok acc
  | i :: is, acc => do
    let m ← axisMinMax s 3 roots t1 t2 i
    jerkLoop s roots t1 t2 is (acc + max |m.1| |m.2| ^ 2)

/-- feasibility_recursive.cpp:244-280 and 296: the decision from the bounds; `none` means that the
section is split. -/
def classify (sq : K → K) (ic : InputConstraints K) (fMinSqr fMaxSqr vMaxSqr jMaxSqr : K) :
    Option Verdict :=
  let fLower := sq fMinSqr
  let fUpper := sq fMaxSqr
  let vUpper := sq vMaxSqr
  let omegaUpper := if fMinSqr > 1 / 10 ^ 6 then sq (jMaxSqr / fMinSqr) else dblMax
  if limitSuchThat ic kFMin fun lim => fUpper < lim then some .thrustLow
  else if limitSuchThat ic kFMax fun lim => fLower > lim then some .thrustHigh
  else if limitSuchThat ic kFMin (fun lim => fLower < lim) ∨
      limitSuchThat ic kFMax (fun lim => fUpper > lim) ∨
      limitSuchThat ic kVMax (fun lim => vUpper > lim) ∨
      limitSuchThat ic kOmegaXYMax (fun lim => omegaUpper > lim) then none
  else some .feasible

/-- feasibility_recursive.cpp:173-193, the bound on the squared speed, 0 without a limit. -/
def velocityPart (ic : InputConstraints K) (s : Segment K) (ra : List (List (K × K))) (t1 t2 : K) :
    Res (Verdict ⊕ K) :=
  match ic.getConstraint kVMax with
  | some lim => velocityLoop s lim ra t1 t2 [0, 1, 2] 0
  | none => .ok (.inr 0)

/-- feasibility_recursive.cpp:139-296 without the recursive calls: `none` means that the section is
split. -/
def sectionCheck (sq : K → K) (ic : InputConstraints K) (g : Fin 3 → K) (s : Segment K)
    (ra rj rs : List (List (K × K))) (t1 t2 : K) : Res (Option Verdict) := do
  match ← thrustAtEnds sq ic g s t1 t2 with
  | some r => pure (some r)
  | none =>
    match ← speedAtEnds sq ic s t1 t2 with
    | some r => pure (some r)
    | none =>
      match ← velocityPart ic s ra t1 t2 with
      | .inl r => pure (some r)
      | .inr vMax =>
        let f ← (if ic.hasConstraint kFMin ∨ ic.hasConstraint kFMax ∨ ic.hasConstraint kOmegaXYMax
          then thrustLoop ic g s rj t1 t2 [0, 1, 2] (0, 0) else .ok (.inr (0, 0)))
        match f with
        | .inl r => pure (some r)
        | .inr (fMin, fMax) =>
          let j ← (if ic.hasConstraint kOmegaXYMax then jerkLoop s rs t1 t2 [0, 1, 2] 0 else .ok 0)
          pure (classify sq ic fMin fMax vMax j)

/-- feasibility_recursive.cpp:133-297, `recursiveFeasibility`, with at most `fuel` nested calls. -/
def recursiveFeasibility (sq : K → K) (ic : InputConstraints K) (g : Fin 3 → K) (minSection : K)
    (s : Segment K) (ra rj rs : List (List (K × K))) : ℕ → K → K → Res Verdict
  | 0, _, _ => .hang
  | fuel + 1, t1, t2 =>
    if t2 - t1 < minSection then .ok .indeterminable
    else do
      match ← sectionCheck sq ic g s ra rj rs t1 t2 with
      | some r => pure r
      | none =>
        let half := (t1 + t2) / 2
        let r1 ← recursiveFeasibility sq ic g minSection s ra rj rs fuel t1 half
        if r1 = .feasible then recursiveFeasibility sq ic g minSection s ra rj rs fuel half t2
        else pure r1

/-- feasibility_recursive.cpp:98-110 and 113-125 (also feasibility_analytic.cpp:84-96 and 99-111):
the check of one yaw limit, `none` when it is met. -/
def yawCheck (rf : RootFinder K) (ic : InputConstraints K) (s : Segment K) (type : ℤ) (d : ℤ)
    (bad : Verdict) : Res (Option Verdict) :=
  match ic.getConstraint type with
  | none => .ok none
  | some lim => do
    let p ← s.get 3
    let m ← p.computeMinMax rf 0 s.time d
    match m with
    | none => pure (some .indeterminable)
    | some mm => pure (if max |mm.1.2| |mm.2.2| > lim then some bad else none)

/-- feasibility_recursive.cpp:94-127, the yaw checks, `none` when all are met. -/
def yawChecks (rf : RootFinder K) (ic : InputConstraints K) (s : Segment K) : Res (Option Verdict) :=
  if s.D = 4 then do
    match ← yawCheck rf ic s kOmegaZMax 1 .yawRates with
    | some r => pure (some r)
    | none => yawCheck rf ic s kOmegaZDotMax 2 .yawAcc
  else .ok none

/-- feasibility_recursive.cpp:42-131, `FeasibilityRecursive::checkInputFeasibility`. -/
def Segment.checkRecursive (rf : RootFinder K) (sq : K → K) (ic : InputConstraints K) (g : Fin 3 → K)
    (minSection : K) (fuel : ℕ) (s : Segment K) : Res Verdict :=
  if s.D = 3 ∨ s.D = 4 then do
    match ← (if ic.hasConstraint kVMax then rootsLoop rf s 2 [0, 1, 2] [] else .ok (some [])) with
    | none => pure .indeterminable
    | some ra =>
      match ← (if ic.hasConstraint kFMin ∨ ic.hasConstraint kFMax ∨ ic.hasConstraint kOmegaXYMax then
          rootsLoop rf s 3 [0, 1, 2] [] else .ok (some [])) with
      | none => pure .indeterminable
      | some rj =>
        match ← (if ic.hasConstraint kOmegaXYMax then rootsLoop rf s 4 [0, 1, 2] []
            else .ok (some [])) with
        | none => pure .indeterminable
        | some rs =>
          let r ← recursiveFeasibility sq ic g minSection s ra rj rs fuel 0 s.time
          if r ≠ .feasible then pure r
          else
            match ← yawChecks rf ic s with
            | some r => pure r
            | none => pure .feasible
  else .ok .indeterminable

/-! ### The sampling check -/

/-- What feasibility_sampling.cpp reads of the `mav_msgs::EigenMavState` that
`EigenMavStateFromEigenTrajectoryPoint` computes from the flat state. -/
structure MavState (K : Type) where
  thrust : K
  speed : K
  omegaXY : K
  omegaZ : K
  omegaZDot : K

/-- feasibility_sampling.cpp:75-121, the checks of one state, `none` when all limits are met. -/
def checkState (ic : InputConstraints K) (m : MavState K) : Option Verdict :=
  if limitSuchThat ic kFMin fun lim => m.thrust < lim then some .thrustLow
  else if limitSuchThat ic kFMax fun lim => m.thrust > lim then some .thrustHigh
  else if limitSuchThat ic kVMax fun lim => m.speed > lim then some .velocity
  else if limitSuchThat ic kOmegaXYMax fun lim => m.omegaXY > lim then some .rollPitchRates
  else if limitSuchThat ic kOmegaZMax fun lim => |m.omegaZ| > lim then some .yawRates
  else if limitSuchThat ic kOmegaZDotMax fun lim => |m.omegaZDot| > lim then some .yawAcc
  else none

/-- feasibility_sampling.cpp:48-72: the state at time `t`. The conversion of the flat state (five
vectors of derivatives) is the parameter `conv`, belonging to mav_msgs; the time stamp, which no check
reads, is left out. -/
def sampledState (conv : List (List K) → MavState K) (s : Segment K) (t : K) : Res (MavState K) := do
  let ds ← [0, 1, 2, 3, 4].mapM fun (d : ℤ) => s.evaluate t d
  let _ ← ds.mapM vecHead3
  pure (conv ds)

/-- feasibility_sampling.cpp:46-126, the `while` loop with at most `fuel` iterations. -/
def samplingLoop (conv : List (List K) → MavState K) (ic : InputConstraints K) (dt : K) (s : Segment K) :
    ℕ → K → Res Verdict
  | 0, _ => .hang
  | fuel + 1, t =>
    if t ≤ s.time then do
      let m ← sampledState conv s t
      match checkState ic m with
      | some r => pure r
      | none => samplingLoop conv ic dt s fuel (t + dt)
    else .ok .feasible

/-- feasibility_sampling.cpp:38-128, `FeasibilitySampling::checkInputFeasibility`. -/
def Segment.checkSampling (conv : List (List K) → MavState K) (ic : InputConstraints K) (dt : K)
    (fuel : ℕ) (s : Segment K) : Res Verdict :=
  if s.D = 3 ∨ s.D = 4 then samplingLoop conv ic dt s fuel 0 else .ok .indeterminable

end Order
end Verif
