import Mathlib.Data.Matrix.Mul
import Mathlib.Data.Matrix.Diagonal
import Mathlib.Algebra.BigOperators.Fin
import Verif.Model.Vertex

/-
Model of mav_trajectory_generation/include/mav_trajectory_generation/polynomial_optimization_linear.h
and impl/polynomial_optimization_linear_impl.h.

The template parameter `N` is even (polynomial_optimization_linear.h:47); it is written `h + h`.
Fixed-size Eigen matrices are functions `Fin (h+h) → Fin (h+h) → K`. Two library calls are
parameters: `inv` for Eigen's `inverse()` of the lower right half-size block, and `solve` for
`SparseQR::compute` followed by `solve`.
-/
namespace Verif

variable {K : Type}

/-- polynomial_optimization_linear.h:52, `SquareMatrix`. -/
abbrev SqMat (h : ℕ) (K : Type) := Matrix (Fin (h + h)) (Fin (h + h)) K

/-- impl:112-121, `setupMappingMatrix`: the rows `baseCoeffsWithTime(N, i, 0)` for `i < N/2`, then the
rows `baseCoeffsWithTime(N, i, T)`. (The two loops are interleaved in the C++.) -/
def setupMappingMatrix [Field K] [LinearOrder K] (h : ℕ) (T : K) : Res (SqMat h K) := do
  let top ← (List.range h).mapM fun i => baseCoeffsWithTime (h + h) (i : ℕ) (0 : K)
  let bot ← (List.range h).mapM fun i => baseCoeffsWithTime (h + h) (i : ℕ) T
  pure fun r c => ((top ++ bot).getD r []).getD c 0

/-- impl:142-179, `invertMappingMatrix`. -/
def invertMappingMatrix [Field K] {h : ℕ}
    (inv : Matrix (Fin h) (Fin h) K → Matrix (Fin h) (Fin h) K) (M : SqMat h K) : SqMat h K :=
  let Ainv : Matrix (Fin h) (Fin h) K :=
    Matrix.diagonal fun i => (M (Fin.castAdd h i) (Fin.castAdd h i))⁻¹
  let C : Matrix (Fin h) (Fin h) K := fun i j => M (Fin.natAdd h i) (Fin.castAdd h j)
  let Dinv := inv fun i j => M (Fin.natAdd h i) (Fin.natAdd h j)
  let E := -Dinv * C * Ainv
  fun r c => Fin.addCases (fun i => Fin.addCases (fun j => Ainv i j) (fun _ => 0) c)
    (fun i => Fin.addCases (fun j => E i j) (fun j => Dinv i j) c) r

/-- impl:567-583, `computeQuadraticCostJacobian(derivative, t)`: the entry written by the iteration
with `row = N-1-i`, `col = N-1-j`; entries no iteration writes stay zero. -/
def costEntry [Field K] (n k : ℕ) (t : K) (i j : ℕ) : K :=
  let row := n - 1 - i
  let col := n - 1 - j
  if row < n - k ∧ col < n - k then
    let exponent := (n - 1 - k) * 2 + 1 - row - col
    baseCoeff k i * baseCoeff k j * t ^ exponent * 2 / (exponent : K)
  else 0

/-- impl:567-583, `computeQuadraticCostJacobian`. A negative derivative or more than 22 coefficients
make it read outside the table. -/
def computeQuadraticCostJacobian [Field K] (h : ℕ) (k : ℤ) (t : K) : Res (SqMat h K) := do
  Res.check (k < ((h + h : ℕ) : ℤ))
  if k < 0 ∨ kMaxConvolutionSize < h + h then Res.ub
  else pure fun i j => costEntry (h + h) k.toNat t i j

/-- polynomial_optimization_linear.h:287-304, struct `Constraint`; `key` is the pair of `vertex_idx`
and `constraint_idx`, on which `operator==` is equality. -/
structure Constr (K : Type) where
  key : ℕ × ℕ
  value : List K
  deriving DecidableEq, Repr

/-- polynomial_optimization_linear.h:288-295, `operator<` of `Constraint`. -/
def keyLt (a b : ℕ × ℕ) : Bool :=
  if a.1 < b.1 then true
  else if b.1 < a.1 then false
  else if a.2 < b.2 then true
  else false

/-- `std::set<Constraint>::insert`. -/
def setInsert (c : Constr K) : List (Constr K) → List (Constr K)
  | [] => [c]
  | c' :: s =>
    if keyLt c.key c'.key then c :: c' :: s
    else if keyLt c'.key c.key then c' :: setInsert c s
    else c' :: s

/-- impl:206-221, one pass over the derivatives of one vertex: the constraints pushed to
`all_constraints`, each with the flag telling whether the vertex has the constraint. -/
def vertexConstraints [Zero K] (h dim : ℕ) (v : Vertex K) (idx : ℕ) : List (Bool × Constr K) :=
  (List.range h).map fun k =>
    match v.getConstraint (k : ℕ) with
    | some c => (true, ⟨(idx, k), c⟩)
    | none => (false, ⟨(idx, k), List.replicate dim 0⟩)

/-- impl:202-205, how often the constraints of a vertex are entered. -/
def occurrences (nSegments idx : ℕ) : ℕ := if idx = 0 ∨ idx = nSegments then 1 else 2

/-- impl:196-223, `all_constraints` with the flags, for the vertices from index `idx` on. -/
def allConstraints [Zero K] (h dim nSegments : ℕ) : List (Vertex K) → ℕ → List (Bool × Constr K)
  | [], _ => []
  | v :: vs, idx =>
    (List.range (occurrences nSegments idx)).flatMap (fun _ => vertexConstraints h dim v idx) ++
      allConstraints h dim nSegments vs (idx + 1)

/-- impl:213-220, the set of those constraints whose flag is `b`, built by insertions. -/
def constraintSet (b : Bool) (all : List (Bool × Constr K)) : List (Constr K) :=
  all.foldl (fun s c => if c.1 = b then setInsert c.2 s else s) []

/-- impl:236-256, the triplets `(row, col)` (all of value 1): `col` runs over the fixed and then over
the free constraints. -/
def reorderingTriplets (all : List (Bool × Constr K)) (fixed free : List (Constr K)) : List (ℕ × ℕ) :=
  all.zipIdx.flatMap fun ca =>
    ((fixed ++ free).zipIdx.filter fun c => ca.1.2.key = c.1.key).map fun c => (ca.2, c.2)

/-- impl:233-246, the entries of `fixed_constraints_compact_[d]` written in the same loops. The
entries are uninitialised before; they are zero here. Reading a too short constraint vector is
undefined. -/
def compactFixed [Zero K] (all : List (Bool × Constr K)) (fixed : List (Constr K)) (d : ℕ) :
    Res (List K) :=
  all.foldlM (fun df ca =>
    fixed.zipIdx.foldlM (fun (df : List K) c =>
      if ca.2.key = c.1.key then do
        let x ← Res.at' c.1.value d
        pure (df.set c.2 x)
      else pure df) df) (List.replicate fixed.length 0)

/-- polynomial_optimization_linear.h:249-283, the members of `PolynomialOptimization`;
`constraint_reordering_` is the list of its triplets. -/
structure LinOpt (h : ℕ) (K : Type) where
  dimension : ℕ
  derivative : ℤ
  vertices : List (Vertex K)
  segments : List (Segment K)
  segmentTimes : List K
  nVertices : ℕ
  nSegments : ℕ
  nAll : ℕ
  nFixed : ℕ
  nFree : ℕ
  reordering : List (ℕ × ℕ)
  invMapping : List (SqMat h K)
  cost : List (SqMat h K)
  fixedCompact : List (List K)
  freeCompact : List (List K)

/-- impl:43-54, the constructor (`derivative_order::INVALID` is -1). -/
def LinOpt.new {h : ℕ} (dim : ℕ) : LinOpt h K :=
  ⟨dim, -1, [], [], [], 0, 0, 0, 0, 0, [], [], [], List.replicate dim [], List.replicate dim []⟩

/-- impl:84-104, the constraints kept of one vertex: those of too high an order are dropped. Every
kept one passes through `addConstraint` of a vertex of the optimiser's dimension, which checks its
size. -/
def filterVertex (h dim : ℕ) (v : Vertex K) : Res (Vertex K) := do
  let tmp ← v.constraints.foldlM (fun (tmp : Vertex K) e =>
    if e.1 > (h : ℤ) - 1 then pure tmp else tmp.addConstraint e.1 e.2) (Vertex.new dim)
  pure (if v.constraints.any fun e => e.1 > (h : ℤ) - 1 then tmp else v)

/-- impl:181-260, `setupConstraintReorderingMatrix`. `free_constraints_compact_` is not touched. -/
def LinOpt.setupReordering [Zero K] {h : ℕ} (o : LinOpt h K) : Res (LinOpt h K) := do
  let all := allConstraints h o.dimension o.nSegments o.vertices 0
  let fixed := constraintSet true all
  let free := constraintSet false all
  let df ← (List.range o.dimension).mapM fun d => compactFixed all fixed d
  pure { o with nAll := all.length, nFixed := fixed.length, nFree := free.length,
                reordering := reorderingTriplets all fixed free, fixedCompact := df }

section
variable [Field K] [LinearOrder K] {h : ℕ}

/-- impl:285-305, `updateSegmentTimes`. -/
def LinOpt.updateSegmentTimes (inv : Matrix (Fin h) (Fin h) K → Matrix (Fin h) (Fin h) K)
    (o : LinOpt h K) (times : List K) : Res (LinOpt h K) := do
  Res.check (times.length = o.nSegments)
  let ms ← times.mapM fun T => do
    Res.check (0 < T)
    let Q ← computeQuadraticCostJacobian h o.derivative T
    let A ← setupMappingMatrix h T
    pure (Q, invertMappingMatrix inv A)
  pure { o with segmentTimes := times, cost := ms.map Prod.fst, invMapping := ms.map Prod.snd }

/-- impl:56-109, `setupFromVertices`. With no vertices at all `n_segments_` wraps around and
`segments_.resize` throws. -/
def LinOpt.setupFromVertices (inv : Matrix (Fin h) (Fin h) K → Matrix (Fin h) (Fin h) K)
    (o : LinOpt h K) (vertices : List (Vertex K)) (times : List K) (k : ℤ) : Res (LinOpt h K) := do
  Res.check (0 ≤ k ∧ k ≤ (h : ℤ) - 1)
  if vertices.length = 0 then Res.throws
  else
    let nSeg := vertices.length - 1
    let segs := o.segments.take nSeg ++
      List.replicate (nSeg - o.segments.length) (Segment.mkZero (h + h) o.dimension)
    Res.check (vertices.length = times.length + 1)
    let vs ← vertices.mapM (filterVertex h o.dimension)
    let o1 : LinOpt h K := { o with derivative := k, vertices := vs, segmentTimes := times,
                                    nVertices := vertices.length, nSegments := nSeg, segments := segs }
    let o2 ← o1.updateSegmentTimes inv times
    o2.setupReordering

/-- The entry `(r, c)` of `constraint_reordering_` (`setFromTriplets` adds up equal positions). -/
def LinOpt.reorderEntry (o : LinOpt h K) (r c : ℕ) : K := (o.reordering.count (r, c) : ℕ)

/-- impl:274-277, the end-point derivatives of segment `i` and its coefficients. -/
def LinOpt.newD (o : LinOpt h K) (i : ℕ) (dAll : List K) (p : Fin (h + h)) : K :=
  ((List.range (o.nFixed + o.nFree)).map fun c =>
    o.reorderEntry (i * (h + h) + p) c * dAll.getD c 0).sum

/-- impl:262-283, `updateSegmentsFromCompactConstraints`. The comma initialiser needs vectors of
together `n_all_constraints` entries, and the block of rows of segment `i` must exist. The inner loop
writes every segment, as `segments_` has `n_segments_` elements. -/
def LinOpt.updateSegments (o : LinOpt h K) : Res (LinOpt h K) := do
  let segs ← (List.range o.dimension).foldlM (fun (segs : List (Segment K)) d => do
    let df ← Res.at' o.fixedCompact d
    let dp ← Res.at' o.freeCompact d
    if df.length + dp.length ≠ o.nFixed + o.nFree then Res.ub
    else (List.range o.nSegments).mapM fun i => do
      if o.nAll < i * (h + h) + (h + h) then Res.ub
      else
        let Ainv ← Res.at' o.invMapping i
        let T ← Res.at' o.segmentTimes i
        let s ← Res.at' segs i
        (s.setTime T).set d ⟨List.ofFn (Ainv.mulVec (o.newD i (df ++ dp)))⟩) o.segments
  pure { o with segments := segs }

/-- impl:307-336, `constructR`: the entry `(a, b)` of `Cᵀ H C` with the block diagonal `H` of the
`Ai⁻ᵀ Q Ai⁻¹`, multiplied block by block. -/
def LinOpt.rEntry (o : LinOpt h K) (a b : ℕ) : K :=
  (((o.invMapping.zip o.cost).zipIdx).map fun m =>
    ∑ p : Fin (h + h), ∑ q : Fin (h + h),
      o.reorderEntry (m.2 * (h + h) + p) a *
        (m.1.1.transpose * m.1.2 * m.1.1) p q * o.reorderEntry (m.2 * (h + h) + q) b).sum

/-- impl:338-379, `solveLinear`. The matrix product needs as many constraint rows as coefficients. -/
def LinOpt.solveLinear (solve : (n : ℕ) → Matrix (Fin n) (Fin n) K → (Fin n → K) → Fin n → K)
    (o : LinOpt h K) : Res (LinOpt h K) := do
  Res.check (0 ≤ o.derivative ∧ o.derivative ≤ (h : ℤ) - 1)
  if o.nFree = 0 then o.updateSegments
  else if o.nAll ≠ (h + h) * o.nSegments then Res.ub
  else
    let Rpf : Matrix (Fin o.nFree) (Fin o.nFixed) K := fun a b => o.rEntry (o.nFixed + a) b
    let Rpp : Matrix (Fin o.nFree) (Fin o.nFree) K :=
      fun a b => o.rEntry (o.nFixed + a) (o.nFixed + b)
    let dp ← (List.range o.dimension).mapM fun d => do
      let df ← Res.at' o.fixedCompact d
      if df.length ≠ o.nFixed then Res.ub
      else pure (List.ofFn (solve o.nFree Rpp ((-Rpf).mulVec fun b => df.getD b 0)))
    LinOpt.updateSegments { o with freeCompact := dp }

/-- impl:499-508, `setFreeConstraints`. -/
def LinOpt.setFreeConstraints (o : LinOpt h K) (free : List (List K)) : Res (LinOpt h K) := do
  Res.check (free.length = o.dimension)
  Res.check (∀ v ∈ free, v.length = o.nFree)
  LinOpt.updateSegments { o with freeCompact := free }

/-- impl:123-140, `computeCost`. Multiplying needs as many coefficients as columns. -/
def LinOpt.computeCost (o : LinOpt h K) : Res K := do
  Res.check (o.nSegments = o.segments.length ∧ o.nSegments = o.cost.length)
  let parts ← (o.cost.zip o.segments).mapM fun m =>
    (List.range o.dimension).mapM fun d => do
      let p ← m.2.get d
      let c ← p.getCoefficients 0
      if c.length ≠ h + h then Res.ub
      else
        let x : Fin (h + h) → K := fun i => c.getD i 0
        pure (x ⬝ᵥ m.1.mulVec x)
  pure (1 / 2 * (parts.map List.sum).sum)

/-- polynomial_optimization_linear.h:113-116, `getTrajectory`. -/
def LinOpt.getTrajectory (o : LinOpt h K) : Res (Trajectory K) := Trajectory.setSegments o.segments

/-- impl:556-565, `getMpinv`: the entry `(a, r)`: the transpose, each row divided by its sum. -/
def LinOpt.mpinvEntry (o : LinOpt h K) (a r : ℕ) : K :=
  o.reorderEntry r a / ((List.range o.nAll).map fun r' => o.reorderEntry r' a).sum

end

end Verif
