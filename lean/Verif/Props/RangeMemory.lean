import Verif.Props.Trajectory
import Verif.Model.RangeMemory

/-
Property C119: ranges with very many samples.
-/
set_option linter.unusedSectionVars false

namespace Verif

open Spec

variable {K : Type} [Field K] [LinearOrder K] [IsStrictOrderedRing K] [FloorRing K]

/-- **C119**, partial: a range is sampled as the other properties of `evaluateRange` describe if the number of samples
that are expected, `(t_end - t_start) / dt + 1`, can be stored in memory. Missing: ranges with more samples than that,
which are refused by an exception or are undefined (`C119_outcome`). -/
theorem C119_sampled_partial (room : ℕ) (hroom : room < 2 ^ 64) (tr : Trajectory K) (tStart tEnd dt : K) (hdt : 0 < dt)
    (h : tStart ≤ tEnd) (hx : (tEnd - tStart) / dt < room) (fuel : ℕ) (d : ℤ) :
    tr.evaluateRangeMem room fuel tStart tEnd dt d = tr.evaluateRange fuel tStart tEnd dt d := by
  unfold Trajectory.evaluateRangeMem
  have h0 : 0 ≤ (tEnd - tStart) / dt := div_nonneg (sub_nonneg.mpr h) hdt.le
  have hr : (room : K) + 1 ≤ 2 ^ 64 := by exact_mod_cast hroom
  rw [if_neg, if_neg]
  · rw [not_lt, Int.toNat_le]
    refine Int.lt_add_one_iff.mp (Int.floor_lt.mpr ?_)
    push_cast
    linarith
  · rw [not_or, not_or, not_le, not_le]
    exact ⟨hdt.ne', by linarith, by linarith⟩

/-- **C119**, the exact outcome for a positive sampling interval: undefined when the expected number of samples is `2^64`
or more, an exception when it is below that but more than fits, and otherwise the samples. -/
theorem C119_outcome (room : ℕ) (tr : Trajectory K) (tStart tEnd dt : K) (hdt : 0 < dt) (h : tStart ≤ tEnd)
    (fuel : ℕ) (d : ℤ) :
    (2 ^ 64 ≤ (tEnd - tStart) / dt + 1 → tr.evaluateRangeMem room fuel tStart tEnd dt d = .ub) ∧
    ((tEnd - tStart) / dt + 1 < 2 ^ 64 → (room : K) ≤ (tEnd - tStart) / dt →
      tr.evaluateRangeMem room fuel tStart tEnd dt d = .throws) ∧
    ((tEnd - tStart) / dt + 1 < 2 ^ 64 → (tEnd - tStart) / dt < room →
      tr.evaluateRangeMem room fuel tStart tEnd dt d = tr.evaluateRange fuel tStart tEnd dt d) := by
  have h0 : 0 ≤ (tEnd - tStart) / dt := div_nonneg (sub_nonneg.mpr h) hdt.le
  unfold Trajectory.evaluateRangeMem
  refine ⟨fun h1 => by rw [if_pos (.inr (.inr h1))], fun h1 h2 => ?_, fun h1 h2 => ?_⟩
  · rw [if_neg, if_pos]
    · rw [Int.lt_toNat]
      refine Int.lt_iff_add_one_le.mpr (Int.le_floor.mpr ?_)
      push_cast
      linarith
    · rw [not_or, not_or, not_le, not_le]
      exact ⟨hdt.ne', by linarith, h1⟩
  · rw [if_neg, if_neg]
    · rw [not_lt, Int.toNat_le]
      refine Int.lt_add_one_iff.mp (Int.floor_lt.mpr ?_)
      push_cast
      linarith
    · rw [not_or, not_or, not_le, not_le]
      exact ⟨hdt.ne', by linarith, h1⟩

/-- **C119** is false: for every trajectory and every range that is not a single point there is a positive sampling
interval for which sampling the range is undefined behaviour, and however much memory there is (less than `2^64 - 2`
elements) one for which it throws. -/
theorem C119_any_interval_false (room : ℕ) (hroom : room + 2 < 2 ^ 64) (tr : Trajectory K) (tStart tEnd : K)
    (h : tStart < tEnd) (fuel : ℕ) (d : ℤ) :
    (∃ dt, 0 < dt ∧ tr.evaluateRangeMem room fuel tStart tEnd dt d = .ub) ∧
    ∃ dt, 0 < dt ∧ tr.evaluateRangeMem room fuel tStart tEnd dt d = .throws := by
  have hd : 0 < tEnd - tStart := sub_pos.mpr h
  constructor
  · refine ⟨(tEnd - tStart) / 2 ^ 64, by positivity, ((C119_outcome room tr tStart tEnd _ (by positivity) h.le fuel d).1 ?_)⟩
    rw [div_div_cancel₀ hd.ne']
    linarith
  · have hp : (0 : K) < room + 1 := by positivity
    have hr : (room : K) + 2 < 2 ^ 64 := by exact_mod_cast hroom
    refine ⟨(tEnd - tStart) / (room + 1), by positivity,
      ((C119_outcome room tr tStart tEnd _ (by positivity) h.le fuel d).2.1 ?_ ?_)⟩ <;>
    · rw [div_div_cancel₀ hd.ne']
      linarith

/-- A range of half a million steps with room for a million samples. -/
example (tr : Trajectory ℚ) (fuel : ℕ) :
    tr.evaluateRangeMem 1000000 fuel 0 5 (1 / 100000) 0 = tr.evaluateRange fuel 0 5 (1 / 100000) 0 :=
  C119_sampled_partial 1000000 (by norm_num) tr 0 5 _ (by norm_num) (by norm_num) (by norm_num) fuel 0

/-- The same range in steps of `10^-20`. -/
example (tr : Trajectory ℚ) (fuel : ℕ) : tr.evaluateRangeMem 1000000 fuel 0 5 (1 / 10 ^ 20) 0 = .ub :=
  (C119_outcome 1000000 tr 0 5 _ (by norm_num) (by norm_num) fuel 0).1 (by norm_num)

end Verif
