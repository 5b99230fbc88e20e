import Verif.Spec.DoubleChecks
import Verif.Spec.LinearOptimization
import Verif.Spec.RoundedTimes
import Verif.Model.DoublePlanning

/-
Specification side for planning with numbers that are none.
-/
namespace Verif.Spec

variable {h : ℕ}

/-- What is assumed of a scalar product, in whatever order the products are added: it is NaN when a factor is NaN, and not finite when
a factor is not finite. -/
structure DotSpreads (dot : Dot Dbl) : Prop where
  nan : ∀ (n : ℕ) (a b : Fin n → Dbl) (i : Fin n), b i = .nan → dot n a b = .nan
  infinite : ∀ (n : ℕ) (a b : Fin n → Dbl) (i : Fin n), ¬ IsFinite (b i) → ¬ IsFinite (dot n a b)

/-- A problem of the right shape. Nothing is asked of the numbers in it. -/
structure DblProblem (h dim : ℕ) (vertices : List (Vertex Dbl)) : Prop where
  two : 2 ≤ vertices.length
  wf : ∀ v ∈ vertices, v.WF ∧ v.D = dim
  dim_pos : 0 < dim
  small : h + h ≤ 22

/-- An optimiser object on which `setupFromVertices` was last called with the given vertices and order, followed by any calls of the
other functions; `times` are the segment times in force. -/
inductive DblSession (L : OptLib h Dbl) : List (Vertex Dbl) → ℕ → List Dbl → LinOpt h Dbl → Prop
  | setup {vertices k times o} (dim : ℕ) : DblProblem h dim vertices →
      (LinOpt.new dim).setupFromVerticesG L vertices times (k : ℕ) = .ok o → DblSession L vertices k times o
  | again {vertices k times o vertices' k' times' o'} : DblSession L vertices k times o → DblProblem h o.dimension vertices' →
      o.setupFromVerticesG L vertices' times' (k' : ℕ) = .ok o' → DblSession L vertices' k' times' o'
  | solveLinear {vertices k times o o'} (sol) : DblSession L vertices k times o → o.solveLinearG L sol = .ok o' →
      DblSession L vertices k times o'
  | setFree {vertices k times o o'} (fc) : DblSession L vertices k times o → o.setFreeConstraintsG L fc = .ok o' →
      DblSession L vertices k times o'
  | times {vertices k times times' o o'} : DblSession L vertices k times o → o.updateSegmentTimesG L times' = .ok o' →
      DblSession L vertices k times' o'

/-- One of the two positions has a coordinate that is NaN. -/
def NanEnds (a b : List Dbl) : Prop := ∃ i : ℕ, a[i]? = some .nan ∨ b[i]? = some .nan

/-- Above 0: a finite number or the positive infinity. -/
def Above (a : Dbl) : Prop := a = .inf false ∨ ∃ x : ℝ, 0 < x ∧ a = .fin x

/-- The norm of a vector as `std::sqrt` of the sum of the squares. -/
noncomputable def normOf (l : List Dbl) : Dbl := Dbl.sqrt (l.foldl (fun acc x => acc + x * x) 0)

/-- A trajectory of the right shape with durations that are not below 0. Nothing else is asked of the numbers in it. -/
structure DblTrajectory (tr : Trajectory Dbl) : Prop where
  dim_pos : 0 < tr.D
  dims : ∀ s ∈ tr.segments, s.polys.length = tr.D
  sizes : ∀ s ∈ tr.segments, 3 ≤ s.N ∧ s.N ≤ 22 ∧ ∀ p ∈ s.polys, p.N = s.N
  times : ∀ s ∈ tr.segments, ¬ s.time < 0

end Verif.Spec
