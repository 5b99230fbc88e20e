import Verif.Model.Trajectory

/-
Model of the magnitude functions of segment.cpp and trajectory.cpp, of
mav_trajectory_generation/include/mav_trajectory_generation/extremum.h and of
`scaleSegmentTimesToMeetConstraints`. `std::sqrt` is the parameter `sq`, the root finder the
parameter `rf`.
-/
namespace Verif

variable {K : Type}

/-- extremum.h:29-43, struct `Extremum`. -/
structure Extremum (K : Type) where
  time : K
  value : K
  segmentIdx : ℕ
  deriving DecidableEq, Repr

/-- extremum.h:31, the default constructor. -/
def Extremum.zero [Zero K] : Extremum K := ⟨0, 0, 0⟩

/-- `std::max(a, b)` with `Extremum::operator<` (extremum.h:36). -/
def Extremum.stdMax [LT K] [DecidableLT K] (a b : Extremum K) : Extremum K := if a.value < b.value then b else a

/-- `std::min(a, b)` with `Extremum::operator<` (extremum.h:36). -/
def Extremum.stdMin [LT K] [DecidableLT K] (a b : Extremum K) : Extremum K := if b.value < a.value then b else a

/-- Eigen `head(n)`: undefined if the vector is shorter. -/
def headN (l : List K) (n : ℕ) : Res (List K) := if n ≤ l.length then .ok (l.take n) else .ub

/-- segment.cpp:101-116, the loop over the dimensions summing the convolutions: `none` when a
dimension is out of bounds (the function returns false). -/
def convolvedLoop [Zero K] [One K] [Add K] [Mul K] [NatCast K] (s : Segment K) (d : ℤ) (nd ndd : ℕ) :
    List ℤ → List K → Res (Option (List K))
  | [], acc => .ok (some acc)
  | dim :: dims, acc =>
    if dim < 0 ∨ dim ≥ s.D then .ok none
    else do
      let p ← Res.at' s.polys dim.toNat
      let c ← p.getCoefficients d
      let cd ← headN c nd
      let c' ← p.getCoefficients (d + 1)
      let cdd ← headN c' ndd
      let conv ← convolve cd cdd
      if conv.length = acc.length then
        convolvedLoop s d nd ndd dims (List.zipWith (· + ·) acc conv)
      else .ub

section Order
variable [Field K] [LinearOrder K]

/-- segment.cpp:83-134, `computeMinMaxMagnitudeCandidateTimes`: the returned flag and the candidate
times. A negative size of `convolved_coefficients` (line 98) is undefined behaviour. -/
def Segment.candidateTimes (rf : RootFinder K) (s : Segment K) (d : ℤ) (tStart tEnd : K)
    (dims : List ℤ) : Res (Bool × List K) :=
  match dims with
  | [] => .ok (false, [])
  | [dim] =>
    if dim < 0 then .ub
    else do
      let p ← Res.at' s.polys dim.toNat
      p.computeMinMaxCandidates rf tStart tEnd d
  | _ =>
    let nd : ℤ := s.N - d
    let ndd : ℤ := nd - 1
    if nd + ndd - 1 < 0 then .ub
    else do
      let r ← convolvedLoop s d nd.toNat ndd.toNat dims
        (List.replicate (nd + ndd - 1).toNat 0)
      match r with
      | none => pure (false, [])
      | some c => (Poly.mk c).computeMinMaxCandidates rf tStart tEnd (-1)

/-- segment.cpp:149-153, the sum of the squares of the selected components. -/
def Segment.squares (s : Segment K) (d : ℤ) (t : K) : List ℤ → K → Res K
  | [], acc => .ok acc
  | dim :: dims, acc =>
    if dim < 0 then .ub
    else do
      let p ← Res.at' s.polys dim.toNat
      let v ← p.evaluate t d
      s.squares d t dims (acc + v ^ 2)

/-- segment.cpp:136-159, `computeMinMaxMagnitudeCandidates` (it always returns true; the result of
the candidate search is ignored). -/
def Segment.magnitudeCandidates (rf : RootFinder K) (sq : K → K) (s : Segment K) (d : ℤ)
    (tStart tEnd : K) (dims : List ℤ) : Res (Bool × List (Extremum K)) := do
  let ct ← s.candidateTimes rf d tStart tEnd dims
  let es ← ct.2.mapM fun t => do
    let m ← s.squares d t dims 0
    pure (Extremum.mk t (sq m) 0)
  pure (true, es)

/-- segment.cpp:161-185, `selectMinMaxMagnitudeFromCandidates`: the flag, minimum and maximum; the
arguments `mn0`, `mx0` are what the output arguments hold before. -/
def selectMinMaxMagnitude (tStart tEnd : K) (cands : List (Extremum K)) (mn0 mx0 : Extremum K) :
    Bool × Extremum K × Extremum K :=
  if tStart > tEnd then (false, mn0, mx0)
  else
    let r := cands.foldl (fun (s : Extremum K × Extremum K) c =>
      if c.time < tStart ∨ c.time > tEnd then s
      else (s.1.stdMin c, s.2.stdMax c))
      ({ mn0 with value := dblMax }, { mx0 with value := -dblMax })
    (true, r.1, r.2)

/-- trajectory.cpp:201-224, the loop over the segments. -/
def minMaxMagnitudeLoop (rf : RootFinder K) (sq : K → K) (d : ℤ) (dims : List ℤ) :
    List (Segment K) → ℕ → Extremum K → Extremum K → Res (Bool × Extremum K × Extremum K)
  | [], _, mn, mx => .ok (true, mn, mx)
  | s :: ss, i, mn, mx => do
    let c ← s.magnitudeCandidates rf sq d 0 s.time dims
    if !c.1 then pure (false, mn, mx)
    else
      let r := selectMinMaxMagnitude 0 s.time c.2 Extremum.zero Extremum.zero
      if !r.1 then pure (false, mn, mx)
      else
        let mn' := if r.2.1.value < mn.value then { r.2.1 with segmentIdx := i } else mn
        let mx' := if r.2.2.value > mx.value then { r.2.2 with segmentIdx := i } else mx
        minMaxMagnitudeLoop rf sq d dims ss (i + 1) mn' mx'

/-- trajectory.cpp:191-227, `computeMinMaxMagnitude`: the flag, minimum and maximum; `mn0`, `mx0` are
what the output arguments hold before. -/
def Trajectory.computeMinMaxMagnitude (rf : RootFinder K) (sq : K → K) (tr : Trajectory K) (d : ℤ)
    (dims : List ℤ) (mn0 mx0 : Extremum K) : Res (Bool × Extremum K × Extremum K) :=
  minMaxMagnitudeLoop rf sq d dims tr.segments 0 { mn0 with value := dblMax }
    { mx0 with value := -dblMax }

/-- trajectory.cpp:344-361, `computeMaxVelocityAndAcceleration`: the flag, `v_max` and `a_max`. -/
def Trajectory.maxVelocityAndAcceleration (rf : RootFinder K) (sq : K → K) (tr : Trajectory K) :
    Res (Bool × K × K) := do
  let dims := (List.range tr.D).map fun (i : ℕ) => (i : ℤ)
  let v ← tr.computeMinMaxMagnitude rf sq 1 dims Extremum.zero Extremum.zero
  let a ← tr.computeMinMaxMagnitude rf sq 2 dims Extremum.zero Extremum.zero
  pure (v.1 && a.1, v.2.2.value, a.2.2.value)

/-- trajectory.cpp:394-427, the loop of `scaleSegmentTimesToMeetConstraints` with `n` iterations
left. Division by zero is not excluded here (`x / 0 = 0` in Lean, inf or NaN in C++): the theorems
assume positive limits. -/
def scaleToMeetLoop (rf : RootFinder K) (sq : K → K) (vMax aMax : K) :
    ℕ → Trajectory K → Res (Bool × Trajectory K)
  | 0, tr => .ok (false, tr)
  | n + 1, tr => do
    let r ← tr.maxVelocityAndAcceleration rf sq
    let vv := r.2.1 / vMax
    let av := r.2.2 / aMax
    if vv ≤ 1 + 1 / 1000 ∧ av ≤ 1 + 1 / 1000 then pure (true, tr)
    else scaleToMeetLoop rf sq vMax aMax n (tr.scaleCore (max 1 (max vv (sq av))))

/-- trajectory.cpp:385-429, `scaleSegmentTimesToMeetConstraints`: the flag and the resulting
trajectory. -/
def Trajectory.scaleToMeetConstraints (rf : RootFinder K) (sq : K → K) (tr : Trajectory K)
    (vMax aMax : K) : Res (Bool × Trajectory K) :=
  scaleToMeetLoop rf sq vMax aMax 20 tr

end Order
end Verif
