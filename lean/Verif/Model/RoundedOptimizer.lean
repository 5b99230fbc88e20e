import Verif.Model.RoundedCost

/-
The linear optimiser for numbers without laws: the functions of `Model/LinearOptimization` that change the object, again,
with the library functions as arguments, so that they can be used with rounded numbers. `C121_same_code` states that with
a field they are the definitions of `Model/LinearOptimization`.
-/
namespace Verif

variable {K : Type} [Zero K] [One K] [Add K] [Mul K] [Neg K] [Div K] [NatCast K] [LT K] [DecidableLT K] {h : ℕ}

/-- The library functions: absolute value and machine epsilon (`mag`), `std::pow`, the scalar product, and Eigen's
`inverse()`. -/
structure OptLib (h : ℕ) (K : Type) where
  mag : MagLib K
  pow : K → ℕ → K
  dot : Dot K
  inv : Matrix (Fin h) (Fin h) K → Matrix (Fin h) (Fin h) K

/-- impl:285-305, `updateSegmentTimes`. -/
def LinOpt.updateSegmentTimesG (L : OptLib h K) (o : LinOpt h K) (times : List K) : Res (LinOpt h K) := do
  Res.check (times.length = o.nSegments)
  let ms ← times.mapM fun T => do
    Res.check (0 < T)
    let Q ← computeQuadraticCostJacobianG L.pow h o.derivative T
    let A ← setupMappingMatrixG L.mag h T
    pure (Q, invertMappingMatrixG L.dot L.inv A)
  pure { o with segmentTimes := times, cost := ms.map Prod.fst, invMapping := ms.map Prod.snd }

/-- impl:56-109, `setupFromVertices`. -/
def LinOpt.setupFromVerticesG (L : OptLib h K) (o : LinOpt h K) (vertices : List (Vertex K)) (times : List K) (k : ℤ) :
    Res (LinOpt h K) := do
  Res.check (0 ≤ k ∧ k ≤ (h : ℤ) - 1)
  if vertices.length = 0 then Res.throws
  else
    let nSeg := vertices.length - 1
    let segs := o.segments.take nSeg ++
      List.replicate (nSeg - o.segments.length) (Segment.mkZero (h + h) o.dimension)
    Res.check (vertices.length = times.length + 1)
    let vs ← vertices.mapM (filterVertex h o.dimension)
    let o1 : LinOpt h K := { o with derivative := k, vertices := vs, segmentTimes := times,
                                    nVertices := vertices.length, nSegments := nSeg, segments := segs }
    let o2 ← o1.updateSegmentTimesG L times
    o2.setupReordering

/-- impl:274-275, the end-point derivatives of segment `i`: the product of a block of rows of the sparse matrix with the
vector. Eigen starts with zero and adds the products of the stored entries only. -/
def LinOpt.newDG (o : LinOpt h K) (i : ℕ) (dAll : List K) (p : Fin (h + h)) : K :=
  (List.range (o.nFixed + o.nFree)).foldl (fun s c =>
    if o.reordering.count (i * (h + h) + p, c) = 0 then s
    else s + ((o.reordering.count (i * (h + h) + p, c) : ℕ) : K) * dAll.getD c 0) 0

/-- impl:262-283, `updateSegmentsFromCompactConstraints`. -/
def LinOpt.updateSegmentsG (L : OptLib h K) (o : LinOpt h K) : Res (LinOpt h K) := do
  let segs ← (List.range o.dimension).foldlM (fun (segs : List (Segment K)) d => do
    let df ← Res.at' o.fixedCompact d
    let dp ← Res.at' o.freeCompact d
    if df.length + dp.length ≠ o.nFixed + o.nFree then Res.ub
    else (List.range o.nSegments).mapM fun i => do
      if o.nAll < i * (h + h) + (h + h) then Res.ub
      else
        let Ainv ← Res.at' o.invMapping i
        let T ← Res.at' o.segmentTimes i
        let s ← Res.at' segs i
        (s.setTime T).set d ⟨segmentCoeffsG L.dot Ainv (o.newDG i (df ++ dp))⟩) o.segments
  pure { o with segments := segs }

/-- impl:338-379, `solveLinear`. What Eigen's sparse products and the solver make of the object and of the fixed values
of a dimension is the argument `sol`; only the number of the free values it returns is fixed. -/
def LinOpt.solveLinearG (L : OptLib h K) (sol : (o : LinOpt h K) → List K → Fin o.nFree → K) (o : LinOpt h K) :
    Res (LinOpt h K) := do
  Res.check (0 ≤ o.derivative ∧ o.derivative ≤ (h : ℤ) - 1)
  if o.nFree = 0 then o.updateSegmentsG L
  else if o.nAll ≠ (h + h) * o.nSegments then Res.ub
  else
    let dp ← (List.range o.dimension).mapM fun d => do
      let df ← Res.at' o.fixedCompact d
      if df.length ≠ o.nFixed then Res.ub
      else pure (List.ofFn (sol o df))
    LinOpt.updateSegmentsG L { o with freeCompact := dp }

/-- impl:499-508, `setFreeConstraints`. -/
def LinOpt.setFreeConstraintsG (L : OptLib h K) (o : LinOpt h K) (free : List (List K)) : Res (LinOpt h K) := do
  Res.check (free.length = o.dimension)
  Res.check (∀ v ∈ free, v.length = o.nFree)
  LinOpt.updateSegmentsG L { o with freeCompact := free }

end Verif
