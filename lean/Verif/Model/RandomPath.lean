import Verif.Model.Vertex

/-
Model of `createRandomVerticesPath` of mav_trajectory_generation/src/polynomial_timing_evaluation.cpp, the
random paths on which that program measures the optimisation.

The random numbers are two streams: `draw i` is the `i`-th vector with entries from the distribution on
`[-1, 1]`, `dist j` the `j`-th number from the one on `[0, 2 * average_distance]`. Simplified: the dimension is
not negative, and the vertices are built after all steps are drawn, which does not change the result.
-/
namespace Verif

variable {K : Type} [Field K] [LinearOrder K]

/-- polynomial_timing_evaluation.cpp:71-76, the rejection loop (`fuel` bounds the number of draws): the vector
and the next index. -/
def drawLong (sq : K → K) (draw : ℕ → List K) : ℕ → ℕ → Res (List K × ℕ)
  | 0, _ => .hang
  | fuel + 1, i => if vecNorm sq (draw i) > 1 / 5 then .ok (draw i, i + 1) else drawLong sq draw fuel (i + 1)

/-- Lines 68-78, the values of `position_sample` in the loop, with `n` vertices to go. -/
def pathSteps (sq : K → K) (draw : ℕ → List K) (dist : ℕ → K) (fuel : ℕ) : ℕ → ℕ → ℕ → Res (List (List K))
  | 0, _, _ => .ok []
  | n + 1, j, i => do
    let r ← drawLong sq draw fuel i
    let rest ← pathSteps sq draw dist fuel n (j + 1) r.2
    pure (r.1.map (fun x => x / vecNorm sq r.1 * dist j) :: rest)

/-- Lines 82-88, the vertices: line 86 keeps the step, not the position, and line 88 makes it the position of
the last vertex. The sum of vectors of different sizes is undefined. -/
def pathVertices (D : ℕ) (m : ℤ) : List K → List (List K) → Res (List (Vertex K))
  | _, [] => .ok []
  | last, step :: steps =>
    if step.length = last.length then do
      let v ← (Vertex.new D).addConstraint 0 (List.zipWith (· + ·) step last)
      match steps with
      | [] => do
        let v' ← v.makeStartOrEnd step m
        pure [v']
      | _ :: _ => do
        let vs ← pathVertices D m step steps
        pure (v :: vs)
    else .ub

/-- Lines 34-91, `createRandomVerticesPath`. The constructor of the distribution of line 44 requires (and does
not check) that `2 * average_distance` is not negative. -/
def createRandomVerticesPath (sq : K → K) (draw : ℕ → List K) (dist : ℕ → K) (fuel D n : ℕ) (average : K)
    (m : ℤ) : Res (List (Vertex K)) := do
  Res.check (1 ≤ n)
  Res.check (0 < m)
  if 2 * average < 0 then Res.ub
  else do
  let first ← (Vertex.new D).makeStartOrEnd (draw 0) m
  let steps ← pathSteps sq draw dist fuel n 0 1
  let vs ← pathVertices D m (draw 0) steps
  pure (first :: vs)

end Verif
