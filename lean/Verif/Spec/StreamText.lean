import Verif.Model.StreamText

/-! Specification side for the output of vertices and segments. -/
namespace Verif.Spec

/-- Numbers are written with digits, points, signs, exponents, or as `inf` and `nan`, and never as nothing. -/
def NumberText {K : Type} (num : K → List Char) : Prop :=
  ∀ x, num x ≠ [] ∧ ∀ c ∈ num x, c ∈ "0123456789.+-einfa".toList

/-- The numbers of a segment, as written: its duration, and the coefficients of each dimension. -/
def writtenSegment {K : Type} (num : K → List Char) (s : Segment K) : List Char × List (List (List Char)) :=
  (num s.time, s.polys.map fun p => p.coeffs.map num)

/-- The numbers of a vertex, as written: order and value of each derivative prescribed. -/
def writtenVertex {K : Type} (num : K → List Char) (v : Vertex K) : List (ℤ × List (List Char)) :=
  v.constraints.map fun c => (c.1, c.2.map num)

/-- All derivatives prescribed have a name. -/
def AllNamed {K : Type} (v : Vertex K) : Prop := ∀ c ∈ v.constraints, 0 ≤ c.1 ∧ c.1 ≤ 4

end Verif.Spec
