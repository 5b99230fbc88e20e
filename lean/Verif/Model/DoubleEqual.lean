import Verif.Model.DoubleChecks
import Verif.Model.Vertex

/-
The comparisons of polynomials, segments, trajectories and vertices with an arbitrary comparison of numbers, and the
comparison of `double`.
-/
namespace Verif

/-- `==` of two `double`: false when one of them is NaN (the two zeros are one number here). -/
noncomputable def Dbl.eq (a b : Dbl) : Bool :=
  match a, b with
  | .fin x, .fin y => decide (x = y)
  | .inf s, .inf r => decide (s = r)
  | _, _ => false

section Generic
variable {K : Type} (eq : K → K → Bool)

/-- polynomial.h:65-67, `operator==`; Eigen requires equal sizes. -/
def Poly.beqG (p q : Poly K) : Res Bool :=
  if p.N = q.N then .ok ((p.coeffs.zip q.coeffs).all fun e => eq e.1 e.2) else .ub

/-- segment.cpp:32-36, the loop over the polynomials of both segments (of the same number). -/
def polysEqLoopG : List (Poly K) → List (Poly K) → Res Bool
  | p :: ps, q :: qs => do
    let b ← p.beqG eq q
    if b then polysEqLoopG ps qs else pure false
  | _, _ => .ok true

/-- segment.cpp:28-39, `operator==`. -/
def Segment.beqG (s r : Segment K) : Res Bool :=
  if s.D ≠ r.D ∨ eq s.time r.time = false then .ok false else polysEqLoopG eq s.polys r.polys

/-- trajectory.cpp:40, the comparison of two vectors of segments of the same size. -/
def segmentsEqLoopG : List (Segment K) → List (Segment K) → Res Bool
  | s :: ss, r :: rs => do
    let b ← s.beqG eq r
    if b then segmentsEqLoopG ss rs else pure false
  | _, _ => .ok true

/-- trajectory.cpp:34-46, `operator==`. The loop over `i` repeats the same comparison of the whole vectors, so one
comparison is enough. -/
def Trajectory.beqG (a b : Trajectory K) : Res Bool :=
  if a.segments.length ≠ b.segments.length then .ok false else segmentsEqLoopG eq a.segments b.segments

variable [Sub K] (abs : K → K) [LE K] [DecidableLE K]

/-- vertex.cpp:173-180, the loop of `isEqualTol`. Eigen's `isZero(tol)` asks `|x| ≤ |1| * tol` of every entry; the
product with 1 is exact and left out. Sizes must agree for the difference. -/
def isEqualTolLoopG (tol : K) (rhs : List (ℤ × List K)) : List (ℤ × List K) → Res Bool
  | [] => .ok true
  | (k, c) :: m =>
    match mapFind k rhs with
    | none => .ok false
    | some c' =>
      if c.length = c'.length then
        if (List.zipWith (· - ·) c c').all fun x => abs x ≤ tol then isEqualTolLoopG tol rhs m else .ok false
      else .ub

/-- vertex.cpp:170-182, `isEqualTol`. -/
def Vertex.isEqualTolG (v w : Vertex K) (tol : K) : Res Bool :=
  if v.constraints.length ≠ w.constraints.length then .ok false
  else isEqualTolLoopG abs tol w.constraints v.constraints

end Generic

end Verif
