import Mathlib.Analysis.InnerProductSpace.PiL2
import Mathlib.MeasureTheory.Integral.IntervalIntegral.Basic
import Mathlib.Topology.MetricSpace.HausdorffDistance
import Verif.Spec.Trajectory
import Verif.Spec.NonlinearOptimization
import Verif.Model.TimeEvaluation

/-
Specification side for the figures of the benchmark of time allocation methods.
-/
namespace Verif.Spec

/-- A list of three numbers as a point of space. -/
noncomputable def point (v : List ℝ) : EuclideanSpace ℝ (Fin 3) := !₂[v.getD 0 0, v.getD 1 0, v.getD 2 0]

/-- The first three components of a returned vector as a point of space. -/
noncomputable def at3 (r : Res (List ℝ)) : EuclideanSpace ℝ (Fin 3) := !₂[component r 0, component r 1, component r 2]

/-- The distance of `a` from the straight line through `b` and `c`. -/
noncomputable def lineDist (b c a : EuclideanSpace ℝ (Fin 3)) : ℝ :=
  Metric.infDist a {p | ∃ u : ℝ, p = b + u • (c - b)}

/-- The length of the path of a trajectory. -/
noncomputable def arcLength (tr : Trajectory ℝ) : ℝ := ∫ t in (0 : ℝ)..tr.maxTime, ‖at3 (tr.evaluate t 1)‖

/-- `x` is the largest value of `f` on `[0, T]`. -/
def LargestOn (f : ℝ → ℝ) (T x : ℝ) : Prop := (∃ t, 0 ≤ t ∧ t ≤ T ∧ f t = x) ∧ ∀ t, 0 ≤ t → t ≤ T → f t ≤ x

/-- The distance of the position at time `t` of a segment from the straight line through its ends. -/
noncomputable def devAt (s : Segment ℝ) (t : ℝ) : ℝ :=
  lineDist (at3 (s.evaluate 0 0)) (at3 (s.evaluate s.time 0)) (at3 (s.evaluate t 0))

/-- The ends of a segment are two different points. -/
def EndsDiffer (s : Segment ℝ) : Prop := at3 (s.evaluate 0 0) ≠ at3 (s.evaluate s.time 0)

/-- The area between the path and the straight lines between the ends of its segments: the integral of the distance
along the path. -/
noncomputable def sweptArea (tr : Trajectory ℝ) : ℝ :=
  (tr.segments.map fun s => ∫ t in (0 : ℝ)..s.time, devAt s t * ‖at3 (s.evaluate t 1)‖).sum

/-- The figures of a result mean what their names say, for a trajectory and limits on speed and acceleration. -/
structure Figures (tr : Trajectory ℝ) (vLimit aLimit : ℝ) (r : BenchResult ℝ) : Prop where
  /-- The duration. -/
  time : r.trajectoryTime = tr.maxTime
  /-- The largest speed. -/
  vMax : LargestOn (fun t => ‖at3 (tr.evaluate t 1)‖) tr.maxTime r.vMax
  /-- The largest acceleration. -/
  aMax : LargestOn (fun t => ‖at3 (tr.evaluate t 2)‖) tr.maxTime r.aMax
  /-- A limit is exceeded by more than 10^-4. -/
  violated : r.boundsViolated = true ↔ ∃ t, 0 ≤ t ∧ t ≤ tr.maxTime ∧
    (‖at3 (tr.evaluate t 1)‖ > vLimit + 1 / 10 ^ 4 ∨ ‖at3 (tr.evaluate t 2)‖ > aLimit + 1 / 10 ^ 4)
  /-- The length is not larger than that of the path. -/
  length_le : r.trajectoryLength ≤ arcLength tr
  /-- ... and not much smaller. -/
  le_length : arcLength tr ≤ r.trajectoryLength + (r.vMax + 2 * r.aMax * tr.maxTime) / 100
  /-- `max_dist` is a distance from the straight line through the ends of a segment (or zero). -/
  dist : r.maxDist = 0 ∨ ∃ s ∈ tr.segments, EndsDiffer s ∧ ∃ t, 0 ≤ t ∧ t < s.time ∧ r.maxDist = devAt s t
  /-- No distance is much larger. -/
  le_dist : ∀ s ∈ tr.segments, EndsDiffer s → ∀ t, 0 ≤ t → t ≤ s.time → devAt s t ≤ r.maxDist + r.vMax / 100
  /-- If the ends of all segments differ, the area is a number close to the area between the path and the lines. -/
  area : (∀ s ∈ tr.segments, 0 < s.time → EndsDiffer s) → ∃ a, r.area = some a ∧ |a - sweptArea tr| ≤
    (tr.maxTime * (r.vMax ^ 2 + 2 * r.aMax * (r.maxDist + r.vMax / 100)) +
      tr.segments.length * ((r.maxDist + r.vMax / 100) * r.vMax)) / 100

/-- The largest speed and the largest acceleration on a segment. -/
def Peaks (s : Segment ℝ) (p : ℝ × ℝ) : Prop :=
  LargestOn (fun t => ‖at3 (s.evaluate t 1)‖) s.time p.1 ∧ LargestOn (fun t => ‖at3 (s.evaluate t 2)‖) s.time p.2

/-- The larger of the relative amounts by which a speed and an acceleration exceed the limits (negative, if both are
below). -/
noncomputable def violation (c : BenchSettings ℝ) (p : ℝ × ℝ) : ℝ :=
  max ((p.2 - c.aMax) / c.aMax) ((p.1 - c.vMax) / c.vMax)

/-- The time of each segment divided by one minus its violation, but at least 0.1 s. -/
noncomputable def newTimes (c : BenchSettings ℝ) (ts : List ℝ) (peaks : List (ℝ × ℝ)) : List ℝ :=
  List.zipWith (fun T p => max (1 / 10) (T / (1 - violation c p))) ts peaks

/-- The cost the benchmark reports: that of the trajectory, 500 times the squared duration, and a penalty of at most 10^9
for each of the two limits. -/
noncomputable def benchCost (k : ℕ) (c : BenchSettings ℝ) (times : List ℝ) (segs : List (Segment ℝ)) : ℝ :=
  cost k segs + 500 * times.sum ^ 2 + penalty 100 (10 ^ 9) 3 segs ⟨1, c.vMax⟩ + penalty 100 (10 ^ 9) 3 segs ⟨2, c.aMax⟩

end Verif.Spec
