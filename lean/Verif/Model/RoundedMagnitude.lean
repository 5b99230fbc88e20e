import Verif.Model.Magnitude
import Verif.Model.RoundedExtrema
import Mathlib.Analysis.Real.Sqrt

/-
The magnitude functions of segment.cpp and trajectory.cpp for numbers without laws: the definitions of `Model/Magnitude`
again, with the absolute value, the square, the square root and the two constants of `double` as arguments, so that they
can be used with rounded numbers. `C115_same_code` states that with a field they are the definitions of `Model/Magnitude`.
-/
namespace Verif

variable {K : Type}

/-- The library functions and constants that the magnitude functions use: `std::abs`, `std::pow(·, 2)`, `std::sqrt`,
`std::numeric_limits<double>::epsilon()` and `::max()`. -/
structure MagLib (K : Type) where
  abs : K → K
  pow2 : K → K
  sqrt : K → K
  eps : K
  max : K

section
variable [Zero K] [One K] [Add K] [Mul K] [Neg K] [NatCast K] [LT K] [DecidableLT K]

/-- segment.cpp:83-134, `computeMinMaxMagnitudeCandidateTimes`. -/
def Segment.candidateTimesG (lib : MagLib K) (rf : RootFinder K) (s : Segment K) (d : ℤ) (tStart tEnd : K)
    (dims : List ℤ) : Res (Bool × List K) :=
  match dims with
  | [] => .ok (false, [])
  | [dim] =>
    if dim < 0 then .ub
    else do
      let p ← Res.at' s.polys dim.toNat
      p.computeMinMaxCandidatesG lib.abs lib.eps rf tStart tEnd d
  | _ =>
    let nd : ℤ := s.N - d
    let ndd : ℤ := nd - 1
    if nd + ndd - 1 < 0 then .ub
    else do
      let r ← convolvedLoop s d nd.toNat ndd.toNat dims
        (List.replicate (nd + ndd - 1).toNat 0)
      match r with
      | none => pure (false, [])
      | some c => (Poly.mk c).computeMinMaxCandidatesG lib.abs lib.eps rf tStart tEnd (-1)

/-- segment.cpp:149-153, the sum of the squares of the selected components. -/
def Segment.squaresG (lib : MagLib K) (s : Segment K) (d : ℤ) (t : K) : List ℤ → K → Res K
  | [], acc => .ok acc
  | dim :: dims, acc =>
    if dim < 0 then .ub
    else do
      let p ← Res.at' s.polys dim.toNat
      let v ← p.evaluate t d
      s.squaresG lib d t dims (acc + lib.pow2 v)

/-- segment.cpp:136-159, `computeMinMaxMagnitudeCandidates`. -/
def Segment.magnitudeCandidatesG (lib : MagLib K) (rf : RootFinder K) (s : Segment K) (d : ℤ)
    (tStart tEnd : K) (dims : List ℤ) : Res (Bool × List (Extremum K)) := do
  let ct ← s.candidateTimesG lib rf d tStart tEnd dims
  let es ← ct.2.mapM fun t => do
    let m ← s.squaresG lib d t dims 0
    pure (Extremum.mk t (lib.sqrt m) 0)
  pure (true, es)

/-- segment.cpp:161-185, `selectMinMaxMagnitudeFromCandidates`. -/
def selectMinMaxMagnitudeG (lib : MagLib K) (tStart tEnd : K) (cands : List (Extremum K)) (mn0 mx0 : Extremum K) :
    Bool × Extremum K × Extremum K :=
  if tStart > tEnd then (false, mn0, mx0)
  else
    let r := cands.foldl (fun (s : Extremum K × Extremum K) c =>
      if c.time < tStart ∨ c.time > tEnd then s
      else (s.1.stdMin c, s.2.stdMax c))
      ({ mn0 with value := lib.max }, { mx0 with value := -lib.max })
    (true, r.1, r.2)

/-- trajectory.cpp:201-224, the loop over the segments. -/
def minMaxMagnitudeLoopG (lib : MagLib K) (rf : RootFinder K) (d : ℤ) (dims : List ℤ) :
    List (Segment K) → ℕ → Extremum K → Extremum K → Res (Bool × Extremum K × Extremum K)
  | [], _, mn, mx => .ok (true, mn, mx)
  | s :: ss, i, mn, mx => do
    let c ← s.magnitudeCandidatesG lib rf d 0 s.time dims
    if !c.1 then pure (false, mn, mx)
    else
      let r := selectMinMaxMagnitudeG lib 0 s.time c.2 Extremum.zero Extremum.zero
      if !r.1 then pure (false, mn, mx)
      else
        let mn' := if r.2.1.value < mn.value then { r.2.1 with segmentIdx := i } else mn
        let mx' := if r.2.2.value > mx.value then { r.2.2 with segmentIdx := i } else mx
        minMaxMagnitudeLoopG lib rf d dims ss (i + 1) mn' mx'

/-- trajectory.cpp:191-227, `computeMinMaxMagnitude`. -/
def Trajectory.computeMinMaxMagnitudeG (lib : MagLib K) (rf : RootFinder K) (tr : Trajectory K) (d : ℤ)
    (dims : List ℤ) (mn0 mx0 : Extremum K) : Res (Bool × Extremum K × Extremum K) :=
  minMaxMagnitudeLoopG lib rf d dims tr.segments 0 { mn0 with value := lib.max }
    { mx0 with value := -lib.max }

/-- trajectory.cpp:344-361, `computeMaxVelocityAndAcceleration`. -/
def Trajectory.maxVelocityAndAccelerationG (lib : MagLib K) (rf : RootFinder K) (tr : Trajectory K) :
    Res (Bool × K × K) := do
  let dims := (List.range tr.D).map fun (i : ℕ) => (i : ℤ)
  let v ← tr.computeMinMaxMagnitudeG lib rf 1 dims Extremum.zero Extremum.zero
  let a ← tr.computeMinMaxMagnitudeG lib rf 2 dims Extremum.zero Extremum.zero
  pure (v.1 && a.1, v.2.2.value, a.2.2.value)

/-- `std::max` of two numbers. -/
def stdMaxVal (a b : K) : K := if a < b then b else a

/-- trajectory.cpp:394-427, the loop of `scaleSegmentTimesToMeetConstraints` with `n` iterations left; `lim` is
`1.0 + kTolerance`. -/
def scaleToMeetLoopG [Div K] [LE K] [DecidableLE K] (lib : MagLib K) (lim : K) (rf : RootFinder K) (vMax aMax : K) :
    ℕ → Trajectory K → Res (Bool × Trajectory K)
  | 0, tr => .ok (false, tr)
  | n + 1, tr => do
    let r ← tr.maxVelocityAndAccelerationG lib rf
    let vv := r.2.1 / vMax
    let av := r.2.2 / aMax
    if vv ≤ lim ∧ av ≤ lim then pure (true, tr)
    else scaleToMeetLoopG lib lim rf vMax aMax n (tr.scaleCore (stdMaxVal 1 (stdMaxVal vv (lib.sqrt av))))

/-- trajectory.cpp:385-429, `scaleSegmentTimesToMeetConstraints`: the flag and the resulting trajectory. -/
def Trajectory.scaleToMeetConstraintsG [Div K] [LE K] [DecidableLE K] (lib : MagLib K) (lim : K) (rf : RootFinder K)
    (tr : Trajectory K) (vMax aMax : K) : Res (Bool × Trajectory K) :=
  scaleToMeetLoopG lib lim rf vMax aMax 20 tr

end

/-- The library of `double`: `std::abs` is exact, the square and the square root are rounded once. (`std::sqrt` is so by
IEEE 754; for `std::pow(·, 2)` this is an assumption on the C library.) -/
noncomputable def flLib (rnd : ℝ → ℝ) : MagLib (Fl rnd) where
  abs := Fl.abs
  pow2 x := x * x
  sqrt x := ⟨rnd (Real.sqrt x.val)⟩
  eps := ⟨dblEpsilon⟩
  max := ⟨dblMax⟩

/-- The library of exact numbers used by `Model/Magnitude`. -/
def fieldLib [Field K] [LinearOrder K] (sq : K → K) : MagLib K where
  abs x := |x|
  pow2 x := x ^ 2
  sqrt := sq
  eps := dblEpsilon
  max := dblMax

/-- `1.0 + kTolerance` with `double` numbers (trajectory.cpp:388-389, 404-405). -/
noncomputable def flLim (rnd : ℝ → ℝ) : Fl rnd := ⟨rnd (1 + rnd (1 / 1000))⟩

end Verif
