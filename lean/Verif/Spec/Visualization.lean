import Mathlib.Algebra.Quaternion
import Mathlib.Analysis.SpecialFunctions.Pow.Real
import Verif.Model.Visualization

/-
Specification side for drawing.
-/
namespace Verif.Spec

open scoped Quaternion

/-- Distance of two points. -/
noncomputable def dist3 (a b : Vec3 ℝ) : ℝ := √((a.x - b.x) ^ 2 + (a.y - b.y) ^ 2 + (a.z - b.z) ^ 2)

/-- The length of the polygon through the points number `i`, ..., `j`. -/
noncomputable def pathLength (ps : List (Vec3 ℝ)) (i j : ℕ) : ℝ :=
  ∑ m ∈ Finset.Ico i j, dist3 (ps.getD m ⟨0, 0, 0⟩) (ps.getD (m + 1) ⟨0, 0, 0⟩)

/-- The points with the given numbers are spaced by `distance` along the polygon: between any two of them the
way is longer than `distance`, and wherever the way from one of them is longer there is another one. -/
structure Spaced (distance : ℝ) (ps : List (Vec3 ℝ)) (marks : List ℕ) : Prop where
  ascending : marks.Pairwise (· < ·)
  inRange : ∀ i ∈ marks, i < ps.length
  apart : ∀ i ∈ marks, ∀ j ∈ marks, i < j → distance < pathLength ps i j
  dense : ∀ i ∈ marks, ∀ j, i < j → j < ps.length → distance < pathLength ps i j → ∃ k ∈ marks, i < k ∧ k ≤ j

/-- An Eigen quaternion as a quaternion. -/
def quat (q : Quat ℝ) : ℍ[ℝ] := ⟨q.w, q.x, q.y, q.z⟩

/-- A vector as a pure quaternion. -/
def pureQuat (v : Vec3 ℝ) : ℍ[ℝ] := ⟨0, v.x, v.y, v.z⟩

/-- `q` has norm 1. -/
def UnitQuat (q : Quat ℝ) : Prop := q.w ^ 2 + q.x ^ 2 + q.y ^ 2 + q.z ^ 2 = 1

/-- `v'` is `v` turned by `q` and shifted by `t`. -/
def Moved (t : Vec3 ℝ) (q : Quat ℝ) (v v' : Vec3 ℝ) : Prop :=
  pureQuat v' = quat q * pureQuat v * star (quat q) + pureQuat t

/-- `m` is the marker `e` in a frame at `t` that is turned by `q`: only the pose differs (header, number,
action and lifetime are set for all markers together and not compared here). -/
structure MovedMarker (t : Vec3 ℝ) (q : Quat ℝ) (e m : Marker ℝ) : Prop where
  position : Moved t q e.position m.position
  orientation : quat m.orientation = quat q * quat e.orientation
  ns : m.ns = e.ns
  type : m.type = e.type
  scale : m.scale = e.scale
  color : m.color = e.color
  points : m.points = e.points
  colors : m.colors = e.colors
  mesh : m.mesh = e.mesh
  frameLocked : m.frameLocked = e.frameLocked

/-- The points of a marker are relative to its pose: the pose must be the origin of the frame, not turned (the
orientation may also be left as it is in a new message, all zero). -/
def AtOrigin (m : Marker ℝ) : Prop :=
  m.position = ⟨0, 0, 0⟩ ∧ (m.orientation = ⟨1, 0, 0, 0⟩ ∨ m.orientation = ⟨0, 0, 0, 0⟩)

/-- An arrow from `p` to `p'`. -/
structure Arrow (ns : String) (p p' : Vec3 ℝ) (m : Marker ℝ) : Prop where
  ns : m.ns = ns
  type : m.type = .arrow
  points : m.points = [p, p']
  origin : AtOrigin m

/-- The markers at a point of the path: arrows of length 0.3 along the axes of the body, arrows for
acceleration and velocity, and the additional markers in the frame of the body. -/
def DrawnAt (extra : List (Marker ℝ)) (p : TPoint ℝ) (ms : List (Marker ℝ)) : Prop :=
  ∃ x y z a v rest px py pz pa pv, ms = x :: y :: z :: a :: v :: rest ∧
    Moved p.position p.orientation ⟨3 / 10, 0, 0⟩ px ∧ Arrow "pose" p.position px x ∧
    Moved p.position p.orientation ⟨0, 3 / 10, 0⟩ py ∧ Arrow "pose" p.position py y ∧
    Moved p.position p.orientation ⟨0, 0, 3 / 10⟩ pz ∧ Arrow "pose" p.position pz z ∧
    pureQuat pa = pureQuat p.position + pureQuat p.acceleration ∧ Arrow "acceleration" p.position pa a ∧
    pureQuat pv = pureQuat p.position + pureQuat p.velocity ∧ Arrow "velocity" p.position pv v ∧
    List.Forall₂ (MovedMarker p.position p.orientation) extra rest

/-- All markers of an array can be shown: they have the given frame and stamp, are added for good, and are
numbered from 0. -/
def Shown (frame : String) (now : ℝ) (ms : List (Marker ℝ)) : Prop :=
  ∀ (i : ℕ) m, ms[i]? = some m → m.header.frameId = frame ∧ m.header.stamp = now ∧ m.action = 0 ∧
    m.lifetime = 0 ∧ m.id = i

/-- A line through the points. -/
structure Line (ns : String) (ps : List (Vec3 ℝ)) (m : Marker ℝ) : Prop where
  ns : m.ns = ns
  type : m.type = .lineStrip
  points : m.points = ps
  origin : AtOrigin m

end Verif.Spec
