import Verif.Model.MotionDefines
import Verif.Model.Vertex
import Verif.Model.Segment
import Verif.Model.TimingText

/-
Model of the stream output of vertices (mav_trajectory_generation/src/vertex.cpp) and segments
(mav_trajectory_generation/src/segment.cpp).

A text is a list of characters. How a number is written (`operator<<(double)` with the precision in force) is a
parameter `num`. Text that was written before a failed check is not modelled. The layout of vectors is that of Eigen:
all entries are filled up on the left to the width of the longest.
-/
namespace Verif

variable {K : Type}

/-- Eigen, `print_matrix`: the entries of a vector, filled up to the same width. -/
def aligned (num : K → List Char) (xs : List K) : List (List Char) :=
  xs.map fun x => padLeft ' ' ((xs.map fun y => (num y).length).foldl max 0) (num x)

/-- Eigen, `operator<<` of a column: one entry in a line, no end of line after the last. -/
def columnText (num : K → List Char) (xs : List K) : List Char := List.intercalate ['\n'] (aligned num xs)

/-- Eigen, `operator<<` of a row with the format of vertex.cpp:211; nothing for a vector without entries. -/
def vectorText (num : K → List Char) (xs : List K) : List Char :=
  if xs = [] then [] else '[' :: (List.intercalate [',', ' '] (aligned num xs) ++ [']'])

/-- vertex.cpp:214-215, one constraint. -/
def constraintText (num : K → List Char) (c : ℤ × List K) : Res (List Char) := do
  let name ← positionDerivativeToString c.1
  pure ("  type: ".toList ++ (name.toList ++ ("  value: ".toList ++ (vectorText num c.2 ++ ['\n']))))

/-- vertex.cpp:209-218, `operator<<` of a vertex. -/
def vertexText (num : K → List Char) (v : Vertex K) : Res (List Char) := do
  let cs ← v.constraints.mapM (constraintText num)
  pure ("constraints: ".toList ++ ('\n' :: cs.flatten))

/-- vertex.cpp:220-226, `operator<<` of several vertices. -/
def verticesText (num : K → List Char) (vs : List (Vertex K)) : Res (List Char) := do
  let ts ← vs.mapM (vertexText num)
  pure (ts.flatMap fun t => t ++ ['\n'])

section
variable [Zero K] [One K] [Mul K] [NatCast K]

/-- segment.cpp:65-68, one dimension. -/
def dimensionText (num : K → List Char) (s : Segment K) (d : ℤ) (i : ℕ) : Res (List Char) := do
  let p ← Res.at' s.polys i
  let c ← p.getCoefficients d
  pure ("dim ".toList ++ (natText i ++ (": ".toList ++ ('\n' :: (columnText num c ++ ['\n'])))))

/-- segment.cpp:60-69, `printSegment`. -/
def printSegment (num : K → List Char) (s : Segment K) (d : ℤ) : Res (List Char) := do
  Res.check (0 ≤ d ∧ d < s.N)
  let name ← positionDerivativeToString d
  let ts ← (List.range s.D).mapM (dimensionText num s d)
  pure ("t: ".toList ++ (num s.time ++ ('\n' :: (" coefficients for ".toList ++ (name.toList ++ (": ".toList ++
    ('\n' :: ts.flatten)))))))

/-- segment.cpp:71-74, `operator<<` of a segment. -/
def segmentText (num : K → List Char) (s : Segment K) : Res (List Char) := printSegment num s 0

/-- segment.cpp:76-81, `operator<<` of several segments. -/
def segmentsText (num : K → List Char) (ss : List (Segment K)) : Res (List Char) := do
  let ts ← ss.mapM (segmentText num)
  pure (ts.flatMap fun t => t ++ ['\n'])

end
end Verif
