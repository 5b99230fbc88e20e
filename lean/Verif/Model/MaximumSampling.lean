import Verif.Model.Vertex

/-
Model of `computeSegmentMaximumMagnitudeCandidatesBySampling`
(mav_trajectory_generation/include/mav_trajectory_generation/impl/polynomial_optimization_linear_impl.h,
lines 411-456). The template parameter `Derivative` is the argument `d`.
-/
namespace Verif

variable {K : Type} [Field K] [LinearOrder K]

/-- impl:430-450, the loop. The arguments are the loop variable `t`, `t_old`, `value_new`, `direction`,
`last_sample` and the candidates found so far. `std::signbit` of a difference is taken as "negative"
(the difference of two equal doubles is +0). -/
def bySamplingLoop (sq : K → K) (s : Segment K) (d : ℤ) (tStop dt : K) :
    ℕ → K → K → List K → K → Bool → List K → Res (List K)
  | 0, _, _, _, _, _, _ => .hang
  | fuel + 1, t, tOld, valueNew, direction, last, acc =>
    if t ≤ tStop then do
      let v ← s.evaluate t d
      let directionNew := vecNorm sq v - vecNorm sq valueNew
      let acc' ← if decide (direction < 0) ≠ decide (directionNew < 0) then do
          let w ← s.evaluate tOld (d + 1)
          pure (if vecNorm sq w < 1 / 100 then acc ++ [tOld] else acc)
        else pure acc
      if t + dt > tStop ∧ last = false then
        bySamplingLoop sq s d tStop dt fuel (tStop - dt + dt) t v directionNew true acc'
      else bySamplingLoop sq s d tStop dt fuel (t + dt) t v directionNew last acc'
    else .ok acc

/-- impl:411-456, `computeSegmentMaximumMagnitudeCandidatesBySampling`: what `candidates` holds
afterwards; `acc` is what it held before. `fuel` bounds the loop iterations. -/
def candidatesBySampling (fuel : ℕ) (sq : K → K) (s : Segment K) (d : ℤ) (tStart tStop dt : K)
    (acc : List K) : Res (List K) := do
  let valueNew ← s.evaluate (tStart + dt) d
  let valueOld ← s.evaluate tStart d
  let r ← bySamplingLoop sq s d tStop dt fuel (tStart + dt + dt) (tStart + dt) valueNew
    (vecNorm sq valueNew - vecNorm sq valueOld) false (acc ++ [tStart])
  pure (if r.getLast? ≠ some tStop then r ++ [tStop] else r)

end Verif
