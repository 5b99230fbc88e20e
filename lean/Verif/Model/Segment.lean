import Mathlib.Algebra.Order.Floor.Defs
import Mathlib.Algebra.Order.Floor.Ring
import Mathlib.Algebra.Order.Archimedean.Basic
import Mathlib.Data.Rat.Floor
import Verif.Model.Polynomial

/-
Model of mav_trajectory_generation/include/mav_trajectory_generation/segment.h and
mav_trajectory_generation/src/segment.cpp (the magnitude functions are in
`Verif.Model.Magnitude`).
-/
namespace Verif

variable {K : Type}

/-- segment.h:43-128, class `Segment`. The member `D_` is not stored: the constructor
(segment.h:47-49) makes `polynomials_` a vector of size `D_` and no method resizes it. The member
`N_` is stored, because `segment[i] = polynomial` can make the two differ. -/
structure Segment (K : Type) where
  polys : List (Poly K)
  time : K
  N : ℕ
  deriving DecidableEq, Repr

/-- segment.h:55, `D()`. -/
def Segment.D (s : Segment K) : ℕ := s.polys.length

/-- segment.h:47-49, the constructor `Segment(N, D)`. -/
def Segment.mkZero [Zero K] (n d : ℕ) : Segment K := ⟨List.replicate d (Poly.zero n), 0, n⟩

/-- segment.h:62, `setTime`. -/
def Segment.setTime (s : Segment K) (t : K) : Segment K := { s with time := t }

/-- segment.cpp:41-49, `operator[]` for reading. -/
def Segment.get (s : Segment K) (i : ℕ) : Res (Poly K) := do
  Res.check (i < s.D)
  Res.at' s.polys i

/-- segment.cpp:41-44, assignment through `operator[]`. -/
def Segment.set (s : Segment K) (i : ℕ) (p : Poly K) : Res (Segment K) := do
  Res.check (i < s.D)
  pure { s with polys := s.polys.set i p }

/-- segment.cpp:51-58, `evaluate`. -/
def Segment.evaluate [Zero K] [One K] [Add K] [Mul K] [NatCast K] (s : Segment K) (t : K) (d : ℤ) :
    Res (List K) :=
  s.polys.mapM fun p => p.evaluate t d

/-- The loop of segment.cpp:32-36 over the polynomials of both segments (of the same number). -/
def polysEqLoop [DecidableEq K] : List (Poly K) → List (Poly K) → Res Bool
  | p :: ps, q :: qs => do
    let b ← p.beq q
    if b then polysEqLoop ps qs else pure false
  | _, _ => .ok true

/-- segment.cpp:28-39, `operator==`. -/
def Segment.beq [DecidableEq K] (s r : Segment K) : Res Bool :=
  if s.D ≠ r.D ∨ s.time ≠ r.time then .ok false else polysEqLoop s.polys r.polys

/-- segment.cpp:187-199, `getSegmentWithSingleDimension`: `none` when it returns false. -/
def Segment.withSingleDimension (s : Segment K) (d : ℤ) : Option (Segment K) :=
  if d < 0 then none
  else match s.polys[d.toNat]? with
    | none => none
    | some p => some ⟨[p], s.time, s.N⟩

/-- segment.cpp:243-257, the loop body for one polynomial in the case of different `N`:
`none` when the function returns false. -/
def appendedPoly [Zero K] (newN : ℕ) (p : Poly K) : Option (Poly K) :=
  let r := p.withAppendedCoefficients newN
  if r.1 then some r.2 else none

section Order
variable [Field K] [LinearOrder K]

/-- segment.cpp:201-262, `getSegmentWithAppendedDimension`: `none` when it returns false. Note that
the branch for different `N` (line 242) reads `polynomials_` and `segment_to_append`, not the
temporaries that were scaled in lines 221-230. -/
def Segment.withAppendedDimension (s a : Segment K) : Option (Segment K) :=
  if s.N = 0 ∨ s.D = 0 then some a
  else if a.N = 0 ∨ a.D = 0 then some s
  else
    let newN := max a.N s.N
    let newTime := max s.time a.time
    let cur := if s.time < newTime ∧ newTime > 0 then
        s.polys.map fun p => p.scaleInTime (s.time / newTime) else s.polys
    let app := if ¬ (s.time < newTime ∧ newTime > 0) ∧ a.time < newTime ∧ newTime > 0 then
        a.polys.map fun p => p.scaleInTime (a.time / newTime) else a.polys
    if s.N = a.N then some ⟨cur ++ app, newTime, newN⟩
    else do
      let ps ← (s.polys ++ a.polys).mapM (appendedPoly newN)
      some ⟨ps, newTime, newN⟩

/-- segment.cpp:270-273, the loop of `offsetSegment` over the first three polynomials. -/
def offsetPolys (ps : List (Poly K)) (o : List K) : List (Poly K) :=
  (List.zipWith (fun p x => Poly.offset p x) (ps.take 3) o) ++ ps.drop 3

/-- segment.cpp:264-276, `offsetSegment`: the returned flag and the resulting segment. -/
def Segment.offset (s : Segment K) (o : List K) : Bool × Segment K :=
  if o.length < min s.D 3 then (false, s)
  else (true, { s with polys := offsetPolys s.polys o })

end Order

/-- segment.h:63, `setTimeNSec`: `time_ns * 1e-9` (the constant is taken as exactly 10^-9). -/
def Segment.setTimeNSec [Field K] (s : Segment K) (ns : ℕ) : Segment K :=
  { s with time := (ns : K) * (1 / 10 ^ 9) }

section NSec
variable [Field K] [LinearOrder K] [IsStrictOrderedRing K] [FloorRing K]

/-- segment.h:58-60, `getTimeNSec`: `static_cast<uint64_t>(1e9 * time_)` truncates towards zero and
is undefined when the truncated value is not representable. -/
def Segment.getTimeNSec (s : Segment K) : Res ℕ :=
  let x := (10 ^ 9 : K) * s.time
  if x ≤ -1 ∨ (2 ^ 64 : K) ≤ x then .ub else .ok (⌊x⌋.toNat)

end NSec
end Verif
