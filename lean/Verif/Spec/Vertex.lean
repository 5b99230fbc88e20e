import Verif.Model.Vertex
import Mathlib.Analysis.InnerProductSpace.PiL2
import Mathlib.Topology.MetricSpace.Lipschitz
import Mathlib.Analysis.Calculus.Deriv.Basic

/- Specification side for vertices. -/
namespace Verif.Spec

variable {K : Type}

/-- The calls that change a vertex. -/
inductive VertexOp (K : Type) where
  | add (k : ℤ) (c : List K)
  | addConst (k : ℤ) (x : K)
  | remove (k : ℤ)
  | makeStartOrEnd (c : List K) (upTo : ℤ)

/-- What a call does to the (mathematical) map from orders to values, for dimension `D`. -/
def VertexOp.effect [Zero K] (D : ℕ) (m : ℤ → Option (List K)) : VertexOp K → ℤ → Option (List K)
  | .add k c => fun q => if q = k then some c else m q
  | .addConst k x => fun q => if q = k then some (List.replicate D x) else m q
  | .remove k => fun q => if q = k then none else m q
  | .makeStartOrEnd c upTo => fun q =>
      if q = 0 then some c else if 1 ≤ q ∧ q ≤ upTo then some (List.replicate D 0) else m q

/-- The vector arguments have the dimension of the vertex. -/
def VertexOp.Fits (D : ℕ) : VertexOp K → Prop
  | .add _ c => c.length = D
  | .makeStartOrEnd c _ => c.length = D
  | _ => True

/-- Running a call on the modelled class. -/
def VertexOp.run [Zero K] (v : Vertex K) : VertexOp K → Res (Vertex K)
  | .add k c => v.addConstraint k c
  | .addConst k x => .ok (v.addConstraintConst k x)
  | .remove k => .ok (v.removeConstraint k).2
  | .makeStartOrEnd c upTo => v.makeStartOrEnd c upTo

/-- A vertex as the public functions leave it: keys sorted and different (the `std::map`), values
of the dimension of the vertex. -/
structure _root_.Verif.Vertex.WF (v : Vertex K) : Prop where
  sorted : (v.constraints.map Prod.fst).Pairwise (· < ·)
  dims : ∀ e ∈ v.constraints, e.2.length = v.D

/-- A motion in `n` dimensions taking `T` seconds from rest at `p` to rest at `q` with velocity `v`:
speed at most `vMax`, and the velocity changes by at most `aMax` per second. -/
structure RestToRest {n : ℕ} (p q : EuclideanSpace ℝ (Fin n)) (vMax aMax T : ℝ)
    (x v : ℝ → EuclideanSpace ℝ (Fin n)) : Prop where
  time_nonneg : 0 ≤ T
  start : x 0 = p
  goal : x T = q
  rest_start : v 0 = 0
  rest_goal : v T = 0
  deriv : ∀ t ∈ Set.Icc 0 T, HasDerivWithinAt x (v t) (Set.Icc 0 T) t
  speed : ∀ t ∈ Set.Icc 0 T, ‖v t‖ ≤ vMax
  acceleration : ∀ s ∈ Set.Icc 0 T, ∀ t ∈ Set.Icc 0 T, ‖v t - v s‖ ≤ aMax * |t - s|

/-- A point of the box with the corners `lo` and `hi`. -/
def InBox [Zero K] [LE K] (lo hi p : List K) : Prop :=
  p.length = lo.length ∧ ∀ d < lo.length, lo.getD d 0 ≤ p.getD d 0 ∧ p.getD d 0 ≤ hi.getD d 0

/-- A vertex of dimension `D` that prescribes the position `p` and nothing else. -/
def Waypoint (D : ℕ) (p : List K) (v : Vertex K) : Prop :=
  v.D = D ∧ v.getConstraint 0 = some p ∧ ∀ q, q ≠ 0 → v.getConstraint q = none

/-- A vertex of dimension `D` that prescribes the position `p`, zero for the derivatives of order 1 to `m`
and nothing else. -/
def RestAt [Zero K] (D : ℕ) (m : ℤ) (p : List K) (v : Vertex K) : Prop :=
  v.D = D ∧ v.getConstraint 0 = some p ∧
    (∀ q, 1 ≤ q → q ≤ m → v.getConstraint q = some (List.replicate D 0)) ∧
    ∀ q, q < 0 ∨ (q > 0 ∧ q > m) → v.getConstraint q = none

/-- The corners of the square of side `side` around `(cx, cy)` at height `cz`, in the order in which they are
visited. -/
def corner [Field K] (cx cy cz side : K) (i : ℕ) : List K :=
  match i % 4 with
  | 0 => [cx - side / 2, cy - side / 2, cz]
  | 1 => [cx - side / 2, cy + side / 2, cz]
  | 2 => [cx + side / 2, cy + side / 2, cz]
  | _ => [cx + side / 2, cy - side / 2, cz]

end Verif.Spec
