import Verif.Proofs.FeasibilitySampling

/-
Property C59: the feasibility check by sampling.

`conv` is the conversion of a flat state (position to snap) to a state of the vehicle, which belongs to
mav_msgs; `Spec.flatState ps t` is the flat state at time `t`.
-/
namespace Verif

open Spec Set

/-- **C59.** With a positive sampling interval the check ends, after at most `n + 1` samples when the
duration is less than `n` intervals. It returns "feasible" exactly when the states at `0, dt, 2 dt, ...` up
to and including the duration meet all limits; otherwise the verdict names a limit violated at the first
sample that does not meet all limits. -/
theorem C59_samples (conv : List (List ℝ) → MavState ℝ) (ic : InputConstraints ℝ) (dt : ℝ) (hdt : 0 < dt)
    (s : Segment ℝ) (h : s.WF) (hD : s.D = 3 ∨ s.D = 4) (n : ℕ) (hn : s.time < n * dt) (fuel : ℕ)
    (hfuel : n < fuel) :
    ∃ r, s.checkSampling conv ic dt fuel = .ok r ∧
      (r = .feasible ↔ ∀ j : ℕ, j * dt ≤ s.time → StateMeets ic (conv (flatState s.polys (j * dt)))) ∧
      (r ≠ .feasible → ∃ j : ℕ, j * dt ≤ s.time ∧
        (∀ i < j, StateMeets ic (conv (flatState s.polys (i * dt)))) ∧
        StateViolates ic (conv (flatState s.polys (j * dt))) r) := by
  have key : ∀ (m a fuel : ℕ), n ≤ a + m → m < fuel →
      ∃ r, samplingLoop conv ic dt s fuel (a * dt) = .ok r ∧
      ((r = .feasible ∧
        ∀ j : ℕ, a ≤ j → j * dt ≤ s.time → StateMeets ic (conv (flatState s.polys (j * dt)))) ∨
      (r ≠ .feasible ∧ ∃ j : ℕ, a ≤ j ∧ j * dt ≤ s.time ∧
        (∀ i, a ≤ i → i < j → StateMeets ic (conv (flatState s.polys (i * dt)))) ∧
        StateViolates ic (conv (flatState s.polys (j * dt))) r)) := by
    intro m
    induction m with
    | zero =>
      intro a fuel ha hf
      obtain ⟨f, rfl⟩ : ∃ f, fuel = f + 1 := ⟨fuel - 1, by omega⟩
      have hmono : ∀ j : ℕ, n ≤ j → s.time < j * dt := by
        intro j hj
        have : (n : ℝ) * dt ≤ j * dt := mul_le_mul_of_nonneg_right (by exact_mod_cast hj) hdt.le
        linarith
      rw [samplingLoop_succ, if_neg (not_le.mpr (hmono a (by omega)))]
      refine ⟨_, rfl, Or.inl ⟨rfl, ?_⟩⟩
      intro j hj hjt
      exact absurd hjt (not_le.mpr (hmono j (by omega)))
    | succ m ih =>
      intro a fuel ha hf
      obtain ⟨f, rfl⟩ : ∃ f, fuel = f + 1 := ⟨fuel - 1, by omega⟩
      rw [samplingLoop_succ]
      by_cases hle : (a : ℝ) * dt ≤ s.time
      · rw [if_pos hle, sampledState_ok conv s h (by omega), Res.ok_bind]
        rcases checkState_spec ic (conv (flatState s.polys (a * dt))) with ⟨e, hm⟩ | ⟨r, e, hr1, _, hr⟩
        · rw [e]
          simp only
          obtain ⟨r, e2, hr⟩ := ih (a + 1) f (by omega) (by omega)
          have hcast : ((a + 1 : ℕ) : ℝ) * dt = a * dt + dt := by push_cast; ring
          rw [hcast] at e2
          refine ⟨r, e2, ?_⟩
          rcases hr with ⟨hr, hall⟩ | ⟨hr, j, hj, hjt, hall, hv⟩
          · left
            refine ⟨hr, ?_⟩
            intro j hj hjt
            rcases Nat.eq_or_lt_of_le hj with rfl | hj
            · exact hm
            · exact hall j hj hjt
          · right
            refine ⟨hr, j, by omega, hjt, ?_, hv⟩
            intro i hi hij
            rcases Nat.eq_or_lt_of_le hi with rfl | hi
            · exact hm
            · exact hall i hi hij
        · rw [e]
          exact ⟨r, rfl, Or.inr ⟨hr1, a, le_rfl, hle, fun i h1 h2 => absurd h2 (by omega), hr⟩⟩
      · rw [if_neg hle]
        refine ⟨_, rfl, Or.inl ⟨rfl, ?_⟩⟩
        intro j hj hjt
        exfalso
        have : (a : ℝ) * dt ≤ j * dt := mul_le_mul_of_nonneg_right (by exact_mod_cast hj) hdt.le
        exact hle (le_trans this hjt)
  obtain ⟨r, e, hr⟩ := key n 0 fuel (by omega) hfuel
  refine ⟨r, ?_, ?_⟩
  · unfold Segment.checkSampling
    rw [if_pos hD]
    simpa using e
  · have excl : ∀ (m : MavState ℝ) (v : Verdict), StateMeets ic m → ¬ StateViolates ic m v := by
      intro m v hm hv
      cases v with
      | thrustHigh => obtain ⟨l, hl, hlt⟩ := hv; exact absurd (hm.fMax l hl) (not_le.mpr hlt)
      | thrustLow => obtain ⟨l, hl, hlt⟩ := hv; exact absurd (hm.fMin l hl) (not_le.mpr hlt)
      | velocity => obtain ⟨l, hl, hlt⟩ := hv; exact absurd (hm.vMax l hl) (not_le.mpr hlt)
      | rollPitchRates => obtain ⟨l, hl, hlt⟩ := hv; exact absurd (hm.omegaXY l hl) (not_le.mpr hlt)
      | yawRates => obtain ⟨l, hl, hlt⟩ := hv; exact absurd (hm.omegaZ l hl) (not_le.mpr hlt)
      | yawAcc => obtain ⟨l, hl, hlt⟩ := hv; exact absurd (hm.omegaZDot l hl) (not_le.mpr hlt)
      | feasible => exact hv
      | indeterminable => exact hv
    rcases hr with ⟨rfl, hall⟩ | ⟨hr, j, _, hjt, hall, hv⟩
    · exact ⟨⟨fun _ j hj => hall j (Nat.zero_le j) hj, fun _ => rfl⟩, fun hh => absurd rfl hh⟩
    · refine ⟨⟨fun hh => absurd hh hr, fun hh => absurd hv (excl _ _ (hh j hjt))⟩, fun _ => ?_⟩
      exact ⟨j, hjt, fun i hi => hall i (Nat.zero_le i) hi, hv⟩

/-- **C59.** A segment of another dimension is "indeterminable". -/
theorem C59_dimension (conv : List (List ℝ) → MavState ℝ) (ic : InputConstraints ℝ) (dt : ℝ)
    (s : Segment ℝ) (hD : ¬ (s.D = 3 ∨ s.D = 4)) (fuel : ℕ) :
    s.checkSampling conv ic dt fuel = .ok .indeterminable := by
  unfold Segment.checkSampling
  rw [if_neg hD]

/-- **C59 needs a positive interval.** With sampling interval 0, which the settings accept, the check of a
segment whose initial state meets the limits never ends. -/
theorem C59_zero_interval_hangs (conv : List (List ℝ) → MavState ℝ) (ic : InputConstraints ℝ)
    (s : Segment ℝ) (h : s.WF) (hD : s.D = 3 ∨ s.D = 4) (hT : 0 ≤ s.time)
    (h0 : StateMeets ic (conv (flatState s.polys 0))) (fuel : ℕ) :
    s.checkSampling conv ic 0 fuel = .hang := by
  unfold Segment.checkSampling
  rw [if_pos hD]
  induction fuel with
  | zero => rfl
  | succ fuel ih =>
    rw [samplingLoop_succ, if_pos hT, sampledState_ok conv s h (by omega), Res.ok_bind]
    rcases checkState_spec ic (conv (flatState s.polys 0)) with ⟨e, _⟩ | ⟨r, e, _, _, hr⟩
    · rw [e]
      simp only
      rw [add_zero]
      exact ih
    · exfalso
      cases r with
      | thrustHigh => obtain ⟨l, hl, hlt⟩ := hr; exact absurd (h0.fMax l hl) (not_le.mpr hlt)
      | thrustLow => obtain ⟨l, hl, hlt⟩ := hr; exact absurd (h0.fMin l hl) (not_le.mpr hlt)
      | velocity => obtain ⟨l, hl, hlt⟩ := hr; exact absurd (h0.vMax l hl) (not_le.mpr hlt)
      | rollPitchRates => obtain ⟨l, hl, hlt⟩ := hr; exact absurd (h0.omegaXY l hl) (not_le.mpr hlt)
      | yawRates => obtain ⟨l, hl, hlt⟩ := hr; exact absurd (h0.omegaZ l hl) (not_le.mpr hlt)
      | yawAcc => obtain ⟨l, hl, hlt⟩ := hr; exact absurd (h0.omegaZDot l hl) (not_le.mpr hlt)
      | feasible => exact hr
      | indeterminable => exact hr

/-- A toy conversion: the speed is the x velocity, the thrust 10, no rotation. -/
def exStateConv {K : Type} [Field K] (ds : List (List K)) : MavState K :=
  ⟨10, (ds.getD 1 []).getD 0 0, 0, 0, 0⟩

/-- `x(t) = t²` for 1 s, limit 3/2: samples at 0, 1/4, 1/2, 3/4 are slow enough, the one at 1 is not. With
interval 2/5 the last sample is at 4/5, which is slow enough with limit 8/5: the violation at 1 is missed. -/
example :
    let s : Segment ℚ := ⟨[⟨[0, 0, 1]⟩, ⟨[0, 0, 0]⟩, ⟨[0, 0, 0]⟩], 1, 3⟩
    s.checkSampling exStateConv ⟨[(2, 3 / 2)]⟩ (1 / 4) 10 = .ok .velocity ∧
    s.checkSampling exStateConv ⟨[(2, 8 / 5)]⟩ (2 / 5) 10 = .ok .feasible ∧
    s.checkSampling exStateConv ⟨[(2, 2)]⟩ (1 / 4) 10 = .ok .feasible ∧
    s.checkSampling exStateConv ⟨[(2, 2)]⟩ 0 10 = .hang := by decide +kernel

example : (⟨[⟨[0, 0, 1]⟩, ⟨[0, 0, 0]⟩, ⟨[0, 0, 0]⟩], 1, 3⟩ : Segment ℝ).WF ∧ (1 : ℝ) < (5 : ℕ) * (1 / 4) ∧
    StateMeets ⟨[(2, 2)]⟩ ((exStateConv (K := ℝ)) (flatState [⟨[0, 0, 1]⟩, ⟨[0, 0, 0]⟩, ⟨[0, 0, 0]⟩] 0)) := by
  refine ⟨⟨by simp [Poly.N], by simp⟩, by norm_num, ?_⟩
  have hs : (exStateConv (K := ℝ) (flatState [⟨[0, 0, 1]⟩, ⟨[0, 0, 0]⟩, ⟨[0, 0, 0]⟩] 0)).speed = 0 := by
    simp [exStateConv, flatState, valuesAt, iteratedDeriv_curve, derivAt_eq_sum, Finset.sum_range_succ]
  refine ⟨?_, ?_, ?_, ?_, ?_, ?_⟩ <;> intro l hl <;>
    simp [InputConstraints.getConstraint, mapFind, kFMax, kFMin, kVMax, kOmegaXYMax, kOmegaZMax,
      kOmegaZDotMax] at hl
  rw [hs, ← hl]; norm_num

end Verif
