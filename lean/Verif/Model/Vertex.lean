import Verif.Model.Trajectory

/-
Model of mav_trajectory_generation/include/mav_trajectory_generation/vertex.h, src/vertex.cpp and
of the functions of src/trajectory.cpp returning vertices. `std::map<int, ConstraintValue>` is an
association list sorted by key. `norm()`, `std::sqrt` and `exp` use the parameters `sq` and `ex`.
-/
namespace Verif

variable {K : Type}

/-- `std::map::find`. -/
def mapFind {V : Type} (k : ℤ) : List (ℤ × V) → Option V
  | [] => none
  | (k', v) :: m => if k' = k then some v else mapFind k m

/-- `map[k] = v`: inserts or overwrites, keeping the keys sorted. -/
def mapInsert {V : Type} (k : ℤ) (v : V) : List (ℤ × V) → List (ℤ × V)
  | [] => [(k, v)]
  | (k', v') :: m =>
    if k < k' then (k, v) :: (k', v') :: m
    else if k = k' then (k, v) :: m
    else (k', v') :: mapInsert k v m

/-- `std::map::erase` of a key. -/
def mapErase {V : Type} (k : ℤ) (m : List (ℤ × V)) : List (ℤ × V) := m.filter fun e => e.1 ≠ k

/-- vertex.h:42, 109-112: class `Vertex`: `D_` and `constraints_`. -/
structure Vertex (K : Type) where
  D : ℕ
  constraints : List (ℤ × List K)
  deriving DecidableEq, Repr

/-- vertex.h:51, the constructor. -/
def Vertex.new (D : ℕ) : Vertex K := ⟨D, []⟩

/-- vertex.cpp:130-134, `addConstraint(int, VectorXd)`. -/
def Vertex.addConstraint (v : Vertex K) (k : ℤ) (c : List K) : Res (Vertex K) := do
  Res.check (c.length = v.D)
  pure { v with constraints := mapInsert k c v.constraints }

/-- vertex.h:58-60, `addConstraint(int, double)`. -/
def Vertex.addConstraintConst (v : Vertex K) (k : ℤ) (x : K) : Vertex K :=
  { v with constraints := mapInsert k (List.replicate v.D x) v.constraints }

/-- vertex.cpp:155-163, `getConstraint`: `none` when it returns false (the output argument is then
untouched). -/
def Vertex.getConstraint (v : Vertex K) (k : ℤ) : Option (List K) := mapFind k v.constraints

/-- vertex.cpp:165-168, `hasConstraint`. -/
def Vertex.hasConstraint (v : Vertex K) (k : ℤ) : Bool := (mapFind k v.constraints).isSome

/-- vertex.h:100, `getNumberOfConstraints`. -/
def Vertex.numberOfConstraints (v : Vertex K) : ℕ := v.constraints.length

/-- vertex.cpp:136-145, `removeConstraint`. -/
def Vertex.removeConstraint (v : Vertex K) (k : ℤ) : Bool × Vertex K :=
  match mapFind k v.constraints with
  | some _ => (true, { v with constraints := mapErase k v.constraints })
  | none => (false, v)

/-- vertex.cpp:150-152, the loop of `makeStartOrEnd` with `n` iterations left. -/
def zeroDerivatives [Zero K] (D : ℕ) : ℕ → ℤ → List (ℤ × List K) → List (ℤ × List K)
  | 0, _, m => m
  | n + 1, i, m => zeroDerivatives D n (i + 1) (mapInsert i (List.replicate D 0) m)

/-- vertex.cpp:147-153, `makeStartOrEnd(VectorXd, int)`. -/
def Vertex.makeStartOrEnd [Zero K] (v : Vertex K) (c : List K) (upTo : ℤ) : Res (Vertex K) := do
  let v' ← v.addConstraint 0 c
  pure { v' with constraints := zeroDerivatives v'.D upTo.toNat 1 v'.constraints }

/-- vertex.cpp:184-207, `getSubdimension`: the flag and the vertex written to the output. Reading a
constraint vector outside its length is undefined. -/
def Vertex.getSubdimension (v : Vertex K) (dims : List ℕ) (maxOrder : ℤ) : Res (Bool × Vertex K) :=
  if dims.any fun d => v.D ≤ d then .ok (false, Vertex.new dims.length)
  else do
    let out ← v.constraints.foldlM (fun (o : Vertex K) e =>
      if e.1 > maxOrder then pure o
      else do
        let c ← dims.mapM (Res.at' e.2)
        o.addConstraint e.1 c) (Vertex.new dims.length)
    pure (true, out)

/-- The position passed on at vertex.cpp:246-248 and 264-266: the vector stays empty when there is no
position constraint. -/
def Vertex.position (v : Vertex K) : List K := (v.getConstraint 0).getD []

section Order
variable [Field K] [LinearOrder K]

/-- Eigen's `a - b`: sizes must agree. -/
def vecSub (a b : List K) : Res (List K) :=
  if a.length = b.length then .ok (List.zipWith (· - ·) a b) else .ub

/-- Eigen's `norm()`. -/
def vecNorm (sq : K → K) (a : List K) : K := sq (a.map (· ^ 2)).sum

/-- vertex.cpp:173-180, the loop of `isEqualTol`; Eigen's `isZero(tol)` asks `|x| ≤ tol` of every
entry. -/
def isEqualTolLoop (tol : K) (rhs : List (ℤ × List K)) : List (ℤ × List K) → Res Bool
  | [] => .ok true
  | (k, c) :: m =>
    match mapFind k rhs with
    | none => .ok false
    | some c' => do
      let d ← vecSub c c'
      if d.all fun x => |x| ≤ tol then isEqualTolLoop tol rhs m else pure false

/-- vertex.cpp:170-182, `isEqualTol`. -/
def Vertex.isEqualTol (v w : Vertex K) (tol : K) : Res Bool :=
  if v.constraints.length ≠ w.constraints.length then .ok false
  else isEqualTolLoop tol w.constraints v.constraints

/-- vertex.cpp:274-290, `computeTimeVelocityRamp`. -/
def computeTimeVelocityRamp (sq : K → K) (start goal : List K) (vMax aMax : K) : Res K := do
  let diff ← vecSub start goal
  let distance := vecNorm sq diff
  let accTime := vMax / aMax
  let accDistance := 1 / 2 * vMax * accTime
  if distance < 2 * accDistance then pure (2 * sq (distance / aMax))
  else pure (2 * accTime + (distance - 2 * accDistance) / vMax)

/-- vertex.cpp:233-254, `estimateSegmentTimesVelocityRamp`; `timeFactor` is not used. -/
def estimateSegmentTimesVelocityRamp (sq : K → K) (vertices : List (Vertex K)) (vMax aMax : K)
    (_timeFactor : K) : Res (List K) := do
  Res.check (2 ≤ vertices.length)
  (vertices.zip vertices.tail).mapM fun p => do
    let t ← computeTimeVelocityRamp sq p.1.position p.2.position vMax aMax
    pure (max (1 / 10) t)

/-- vertex.cpp:255-272, `estimateSegmentTimesNfabian`. -/
def estimateSegmentTimesNfabian (sq ex : K → K) (vertices : List (Vertex K)) (vMax aMax magic : K) :
    Res (List K) := do
  Res.check (2 ≤ vertices.length)
  (vertices.zip vertices.tail).mapM fun p => do
    let diff ← vecSub p.2.position p.1.position
    let distance := vecNorm sq diff
    pure (distance / vMax * 2 * (1 + magic * vMax / aMax * ex (-distance / vMax * 2)))

/-- vertex.cpp:228-231, `estimateSegmentTimes` (the default constant is 6.5, vertex.h:141). -/
def estimateSegmentTimes (sq ex : K → K) (vertices : List (Vertex K)) (vMax aMax : K) :
    Res (List K) := estimateSegmentTimesNfabian sq ex vertices vMax aMax (13 / 2)

/-- trajectory.cpp:278-280, the loop of `getVertexAtTime` with `n` iterations left. -/
def vertexAtTimeLoop (tr : Trajectory K) (t : K) : ℕ → ℕ → Vertex K → Res (Vertex K)
  | 0, _, v => .ok v
  | n + 1, i, v => do
    let c ← tr.evaluate t i
    let v' ← v.addConstraint i c
    vertexAtTimeLoop tr t n (i + 1) v'

/-- trajectory.cpp:276-282, `getVertexAtTime`. For a negative order the comparison of line 278 is
done in `size_t`, where the bound is a number near `2^64`: modelled as not returning. -/
def Trajectory.getVertexAtTime (tr : Trajectory K) (t : K) (m : ℤ) : Res (Vertex K) :=
  if m < 0 then .hang else vertexAtTimeLoop tr t (m.toNat + 1) 0 (Vertex.new tr.D)

/-- trajectory.cpp:284-286, `getStartVertex`. -/
def Trajectory.getStartVertex (tr : Trajectory K) (m : ℤ) : Res (Vertex K) := tr.getVertexAtTime 0 m

/-- trajectory.cpp:288-290, `getGoalVertex`. -/
def Trajectory.getGoalVertex (tr : Trajectory K) (m : ℤ) : Res (Vertex K) :=
  tr.getVertexAtTime tr.maxTime m

/-- trajectory.cpp:336-339, the loop of `getVertices(int, Vector*)`. -/
def verticesLoop (tr : Trajectory K) (m : ℤ) : List (Segment K) → K → Res (List (Vertex K))
  | [], _ => .ok []
  | s :: ss, t => do
    let v ← tr.getVertexAtTime (t + s.time) m
    let vs ← verticesLoop tr m ss (t + s.time)
    pure (v :: vs)

/-- trajectory.cpp:329-341, `getVertices(int, Vector*)` (the flag is always true). -/
def Trajectory.getVertices (tr : Trajectory K) (m : ℤ) : Res (Bool × List (Vertex K)) := do
  let v ← tr.getStartVertex m
  let vs ← verticesLoop tr m tr.segments 0
  pure (true, v :: vs)

/-- trajectory.cpp:307-314 and 318-325: one vertex split into position and yaw; `none` when one of
the two calls returns false. -/
def splitVertex (v : Vertex K) (mPos mYaw : ℤ) : Res (Option (Vertex K × Vertex K)) := do
  let p ← v.getSubdimension [0, 1, 2] mPos
  if !p.1 then pure none
  else
    let y ← v.getSubdimension [3] mYaw
    if !y.1 then pure none
    else pure (some (p.2, y.2))

/-- trajectory.cpp:316-326, the loop of the four argument `getVertices`; `none` when the function
returns false. -/
def splitVerticesLoop (tr : Trajectory K) (mPos mYaw : ℤ) :
    List (Segment K) → K → Res (Option (List (Vertex K × Vertex K)))
  | [], _ => .ok (some [])
  | s :: ss, t => do
    let v ← tr.getVertexAtTime (t + s.time) (max mPos mYaw)
    match ← splitVertex v mPos mYaw with
    | none => pure none
    | some py =>
      match ← splitVerticesLoop tr mPos mYaw ss (t + s.time) with
      | none => pure none
      | some l => pure (some (py :: l))

/-- trajectory.cpp:292-328, `getVertices(int, int, Vector*, Vector*)`: `none` when it returns false
(the contents of the output vectors are then not modelled), otherwise position and yaw vertices. -/
def Trajectory.getPosYawVertices (tr : Trajectory K) (mPos mYaw : ℤ) :
    Res (Option (List (Vertex K) × List (Vertex K))) := do
  let v ← tr.getStartVertex (max mPos mYaw)
  match ← splitVertex v mPos mYaw with
  | none => pure none
  | some py =>
    match ← splitVerticesLoop tr mPos mYaw tr.segments 0 with
    | none => pure none
    | some l => pure (some ((py :: l).unzip))

/-- vertex.cpp:63-70, the rejection loop of `createRandomVertices` (`draw i` is the `i`-th vector drawn,
`fuel` bounds the number of draws): the accepted position and the next index. -/
def drawFar (sq : K → K) (draw : ℕ → List K) (last : List K) : ℕ → ℕ → Res (List K × ℕ)
  | 0, _ => .hang
  | fuel + 1, i => do
    let diff ← vecSub (draw i) last
    if vecNorm sq diff > 1 / 5 then pure (draw i, i + 1)
    else drawFar sq draw last fuel (i + 1)

/-- vertex.cpp:60-77, the loop of `createRandomVertices` with `n` vertices to go; returns the
positions. -/
def randomPositions (sq : K → K) (draw : ℕ → List K) (fuel : ℕ) : ℕ → List K → ℕ → Res (List (List K))
  | 0, _, _ => .ok []
  | n + 1, last, i => do
    let r ← drawFar sq draw last fuel i
    let ps ← randomPositions sq draw fuel n r.1 r.2
    pure (r.1 :: ps)

/-- Vertices with a position only, the last one turned into an end vertex (vertex.cpp:72-78). -/
def positionVertices (D : ℕ) (m : ℤ) : List (List K) → Res (List (Vertex K))
  | [] => .ok []
  | [p] => do
    let v ← (Vertex.new D).addConstraint 0 p
    let v' ← v.makeStartOrEnd p m
    pure [v']
  | p :: q :: ps => do
    let v ← (Vertex.new D).addConstraint 0 p
    let vs ← positionVertices D m (q :: ps)
    pure (v :: vs)

/-- vertex.cpp:27-82, `createRandomVertices`. The pseudo-random vectors are the stream `draw`; that
their entries are between `posMin` and `posMax` is an assumption on `std::uniform_real_distribution`,
whose constructor requires (and does not check) that the lower end is at most the upper one: otherwise
the behaviour is undefined. Simplified: the vertices are built after all positions are drawn, which does
not change the result, and the number of segments is not truncated to `int` in line 31. -/
def createRandomVertices (sq : K → K) (draw : ℕ → List K) (fuel : ℕ) (m : ℤ) (nSegments : ℕ)
    (posMin posMax : List K) : Res (List (Vertex K)) := do
  Res.check (1 ≤ nSegments)
  Res.check (posMin.length = posMax.length)
  let diff ← vecSub posMax posMin
  Res.check (vecNorm sq diff ≥ 1 / 5)
  Res.check (m > 0)
  if (List.zipWith (fun a b => decide (b < a)) posMin posMax).any id then Res.ub
  else do
  let first ← (Vertex.new posMin.length).makeStartOrEnd (draw 0) m
  let ps ← randomPositions sq draw fuel nSegments (draw 0) 1
  let vs ← positionVertices posMin.length m ps
  pure (first :: vs)

/-- vertex.cpp:84-120, `createSquareVertices`; the centre is `(cx, cy, cz)`. A negative number of rounds
makes `reserve` of line 108 throw. -/
def createSquareVertices (m : ℤ) (cx cy cz side : K) (rounds : ℤ) : Res (List (Vertex K)) :=
  let p1 := [cx - side / 2, cy - side / 2, cz]
  let p2 := [cx - side / 2, cy + side / 2, cz]
  let p3 := [cx + side / 2, cy + side / 2, cz]
  let p4 := [cx + side / 2, cy - side / 2, cz]
  if rounds < 0 then .throws
  else do
    let v1 ← (Vertex.new 3).addConstraint 0 p1
    let v2 ← (Vertex.new 3).addConstraint 0 p2
    let v3 ← (Vertex.new 3).addConstraint 0 p3
    let v4 ← (Vertex.new 3).addConstraint 0 p4
    let front ← v1.makeStartOrEnd p1 m
    let all := front :: (List.replicate rounds.toNat [v2, v3, v4, v1]).flatten
    match all.getLast? with
    | none => .ub
    | some l => do
      let l' ← l.makeStartOrEnd p1 m
      pure (all.dropLast ++ [l'])

end Order
end Verif
