import Verif.Model.Vertex
import Verif.Model.Rounded
import Mathlib.Analysis.Real.Sqrt

/-
The time estimates of vertex.cpp for numbers without laws: the definitions of `Model/Vertex` again, with Eigen's `norm()`,
`std::sqrt`, `exp` and the constants as arguments, so that they can be used with rounded numbers. `C122_same_code` states
that with a field they are the definitions of `Model/Vertex`.
-/
namespace Verif

variable {K : Type}

/-- The library functions and the constants 0.5, 1.0, 2.0 and 0.1 of the time estimates. -/
structure TimeLib (K : Type) where
  norm : List K → K
  sqrt : K → K
  exp : K → K
  half : K
  one : K
  two : K
  tenth : K

section
variable [Add K] [Sub K] [Mul K] [Div K] [Neg K] [LT K] [DecidableLT K]

/-- Eigen's `a - b`: sizes must agree. -/
def vecSubG (a b : List K) : Res (List K) :=
  if a.length = b.length then .ok (List.zipWith (· - ·) a b) else .ub

/-- vertex.cpp:274-290, `computeTimeVelocityRamp`. -/
def computeTimeVelocityRampG (L : TimeLib K) (start goal : List K) (vMax aMax : K) : Res K := do
  let diff ← vecSubG start goal
  let distance := L.norm diff
  let accTime := vMax / aMax
  let accDistance := L.half * vMax * accTime
  if distance < L.two * accDistance then pure (L.two * L.sqrt (distance / aMax))
  else pure (L.two * accTime + (distance - L.two * accDistance) / vMax)

/-- vertex.cpp:233-254, `estimateSegmentTimesVelocityRamp`; `std::max(a, b)` is `a < b ? b : a`. -/
def estimateSegmentTimesVelocityRampG (L : TimeLib K) (vertices : List (Vertex K)) (vMax aMax : K) :
    Res (List K) := do
  Res.check (2 ≤ vertices.length)
  (vertices.zip vertices.tail).mapM fun p => do
    let t ← computeTimeVelocityRampG L p.1.position p.2.position vMax aMax
    pure (if L.tenth < t then t else L.tenth)

/-- vertex.cpp:262-269, the body of the loop of `estimateSegmentTimesNfabian`. -/
def nfabianTimeG (L : TimeLib K) (start goal : List K) (vMax aMax magic : K) : Res K := do
  let diff ← vecSubG goal start
  let distance := L.norm diff
  pure (distance / vMax * L.two * (L.one + magic * vMax / aMax * L.exp (-distance / vMax * L.two)))

/-- vertex.cpp:255-272, `estimateSegmentTimesNfabian`. -/
def estimateSegmentTimesNfabianG (L : TimeLib K) (vertices : List (Vertex K)) (vMax aMax magic : K) :
    Res (List K) := do
  Res.check (2 ≤ vertices.length)
  (vertices.zip vertices.tail).mapM fun p => nfabianTimeG L p.1.position p.2.position vMax aMax magic

end

/-- An order in which numbers with the indices `0, 1, ...` are added: Eigen adds in parallel or in blocks, depending on
the machine. -/
inductive AddOrder where
  | leaf (i : ℕ)
  | node (l r : AddOrder)

/-- The indices that are added. -/
def AddOrder.indices : AddOrder → List ℕ
  | .leaf i => [i]
  | .node l r => l.indices ++ r.indices

/-- The sum in this order. -/
def AddOrder.sum [Add K] (x : ℕ → K) : AddOrder → K
  | .leaf i => x i
  | .node l r => l.sum x + r.sum x

/-- Eigen's `norm()`: the square root of the sum of the squares, added in the order `order n` for vectors of size `n`. -/
def orderedNorm [Zero K] [Add K] [Mul K] (sqrt : K → K) (order : ℕ → AddOrder) (x : List K) : K :=
  sqrt (if x.length = 0 then 0 else (order x.length).sum fun i => x.getD i 0 * x.getD i 0)

/-- The library of `double`: `std::sqrt` is rounded once (IEEE 754), 0.1 is the number next to it. The exponential function
is an argument: the C library promises nothing. -/
noncomputable def flTimeLib (rnd : ℝ → ℝ) (order : ℕ → AddOrder) (exp : Fl rnd → Fl rnd) : TimeLib (Fl rnd) where
  norm := orderedNorm (fun x => ⟨rnd (Real.sqrt x.val)⟩) order
  sqrt x := ⟨rnd (Real.sqrt x.val)⟩
  exp := exp
  half := ⟨1 / 2⟩
  one := ⟨1⟩
  two := ⟨2⟩
  tenth := ⟨rnd (1 / 10)⟩

/-- The library of exact numbers used by `Model/Vertex`. -/
def fieldTimeLib [Field K] [LinearOrder K] (sq ex : K → K) : TimeLib K where
  norm := vecNorm sq
  sqrt := sq
  exp := ex
  half := 1 / 2
  one := 1
  two := 2
  tenth := 1 / 10

end Verif
