import Verif.Proofs.Sampling
import Verif.Props.Trajectory

/-
Properties C38, C55, C56: sampling of states.

`Spec.IsState D v t st`: `st` holds components 0..2 of the vectors `v 0`, ..., `v 4`, the yaw from
component 3 if `D = 4`, the rotation vector from components 3..5 if `D = 6`, and the time stamp of `t`.
-/
namespace Verif

open Spec

variable {K : Type}

/-! ### C38 sampling at a time -/

/-- **C38.** For `0 ≤ t ≤ getMaxTime()` and at least three dimensions (and times that fit into the time
stamp) `sampleTrajectoryAtTime` succeeds, with the state made of the derivatives 0..4 that `evaluate`
returns at `t` (see C09 for these). -/
theorem C38_at_time (tr : Trajectory ℝ) (h : tr.WF) (hne : tr.segments ≠ []) (hD : 3 ≤ tr.D)
    (t : ℝ) (h0 : 0 ≤ t) (h1 : t ≤ tr.maxTime) (hns : t * 10 ^ 9 < 2 ^ 63) :
    ∃ st v, sampleTrajectoryAtTime tr t = .ok (some st) ∧
      (∀ k : ℕ, k ≤ 4 → tr.evaluate t k = .ok (v k) ∧ (v k).length = tr.D) ∧ IsState tr.D v t st := by
  have hv := fun k : ℕ => C10_returns tr h hne k t h0 h1
  choose v hv using hv
  obtain ⟨st, hst, hs⟩ := sampleFlatState_ok (evaluate := tr.evaluate) hD h0 hns (fun k _ => hv k)
  refine ⟨st, v, ?_, fun k _ => hv k, hs⟩
  unfold sampleTrajectoryAtTime
  rw [if_neg (by push Not; exact ⟨h0, h1⟩), if_neg (by omega), hst]

/-- **C38.** Otherwise it returns false. -/
theorem C38_rejected (tr : Trajectory ℝ) (t : ℝ)
    (h : ¬ (0 ≤ t ∧ t ≤ tr.maxTime ∧ 3 ≤ tr.D)) : sampleTrajectoryAtTime tr t = .ok none := by
  unfold sampleTrajectoryAtTime
  split_ifs with h1 h2
  · rfl
  · rfl
  · push Not at h1
    exact absurd ⟨h1.1, h1.2, by omega⟩ h

/-- **C38.** The same for `sampleSegmentAtTime`: for `0 ≤ t ≤ getTime()` and at least three dimensions
the state is made of the derivatives of the polynomials at `t`; otherwise it returns false. -/
theorem C38_segment (s : Segment ℝ) (h : s.WF) (t : ℝ) (hns : t * 10 ^ 9 < 2 ^ 63) :
    (0 ≤ t → t ≤ s.time → 3 ≤ s.D → ∃ st, sampleSegmentAtTime s t = .ok (some st) ∧
      IsState s.D (fun k => valuesAt s.polys k t) t st) ∧
    (¬ (0 ≤ t ∧ t ≤ s.time ∧ 3 ≤ s.D) → sampleSegmentAtTime s t = .ok none) := by
  constructor
  · intro h0 h1 hD
    obtain ⟨st, hst, hs⟩ := sampleFlatState_ok (evaluate := s.evaluate)
      (v := fun k => valuesAt s.polys k t) hD h0 hns (fun k _ => by
        rw [segment_evaluate_ok s h, segValue_eq_valuesAt]
        exact ⟨rfl, by simp [valuesAt, Segment.D]⟩)
    refine ⟨st, ?_, hs⟩
    unfold sampleSegmentAtTime
    rw [if_neg (by push Not; exact ⟨h0, h1⟩), hst]
  · intro hn
    unfold sampleSegmentAtTime sampleFlatState
    split_ifs with h1 h2
    · rfl
    · rfl
    · push Not at h1
      exact absurd ⟨h1.1, h1.2, by omega⟩ hn

/-- Two segments with 4 dimensions: durations 2 and 1. -/
def exS : Trajectory ℚ :=
  ⟨4, 3, 3, [⟨[⟨[0, 1, 0]⟩, ⟨[1, 0, 1]⟩, ⟨[0, 0, 0]⟩, ⟨[0, 1 / 2, 0]⟩], 2, 3⟩,
    ⟨[⟨[2, 1, 0]⟩, ⟨[5, 4, 0]⟩, ⟨[0, 0, 0]⟩, ⟨[1, 0, 0]⟩], 1, 3⟩]⟩

/-- The same over the reals. -/
noncomputable def exSR : Trajectory ℝ :=
  ⟨4, 3, 3, [⟨[⟨[0, 1, 0]⟩, ⟨[1, 0, 1]⟩, ⟨[0, 0, 0]⟩, ⟨[0, 1 / 2, 0]⟩], 2, 3⟩,
    ⟨[⟨[2, 1, 0]⟩, ⟨[5, 4, 0]⟩, ⟨[0, 0, 0]⟩, ⟨[1, 0, 0]⟩], 1, 3⟩]⟩

theorem exSR_wf : exSR.WF := by
  refine ⟨?_, ?_, ?_, ?_, ?_⟩
  · simp [exSR, Segment.D]
  · simp [exSR]
  · norm_num [exSR, Trajectory.getSegmentTimes]
  · intro s hs
    simp only [exSR, List.mem_cons, List.not_mem_nil, or_false] at hs
    rcases hs with rfl | rfl <;>
      exact ⟨by simp [Poly.N], by simp⟩
  · simp [exSR]

example : exSR.WF ∧ exSR.segments ≠ [] ∧ 3 ≤ exSR.D ∧ (0 : ℝ) ≤ 5 / 2 ∧ (5 / 2 : ℝ) ≤ exSR.maxTime ∧
    (5 / 2 : ℝ) * 10 ^ 9 < 2 ^ 63 :=
  ⟨exSR_wf, by simp [exSR], by simp [exSR], by norm_num, by norm_num [exSR], by norm_num⟩
example : sampleTrajectoryAtTime exS (5 / 2) =
    .ok (some ⟨[5 / 2, 7, 0], [1, 4, 0], [0, 0, 0], [0, 0, 0], [0, 0, 0], .yaw 1 0 0, 2500000000⟩) := by
  decide +kernel
example : sampleTrajectoryAtTime exS (-1) = .ok none ∧ sampleTrajectoryAtTime exTr 1 = .ok none := by
  constructor <;> decide +kernel

/-! ### C55 sampling a range -/

/-- **C55.** `sampleWholeTrajectory` with a positive interval, for a trajectory whose adjacent segments
agree in the derivatives 0..4: it returns one state for every `j` with `j dt < getMaxTime()`, in order,
and state `j` is the one of `sampleTrajectoryAtTime` at `j dt`, including the time stamp. -/
theorem C55_whole (tr : Trajectory ℝ) (h : tr.WF) (hD : 3 ≤ tr.D)
    (hj : ∀ k ≤ 4, tr.JoinsAt k) (hpos : 0 < tr.maxTime) (hns : tr.maxTime * 10 ^ 9 < 2 ^ 63) (dt : ℝ)
    (hdt : 0 < dt) :
    ∃ L, (∃ F, ∀ fuel, F ≤ fuel → sampleWholeTrajectory fuel tr dt = .ok (some L)) ∧
      (∀ j : ℕ, j < L.length ↔ j * dt < tr.maxTime) ∧
      (∀ j, (hj : j < L.length) → sampleTrajectoryAtTime tr (j * dt) = .ok (some L[j])) := by
  obtain ⟨i, hi, ha, hb⟩ := exists_segment tr h 0 le_rfl hpos
  have hstart : startTime tr.getSegmentTimes i = 0 :=
    le_antisymm ha (startTime_nonneg _ h.times_nonneg i)
  obtain ⟨L, hrun, hcount, hst⟩ := sampleRange_ok tr h hD 0 tr.maxTime dt hdt le_rfl hpos.le hns i hi ha hb
    le_rfl
  have hcount' : ∀ j : ℕ, j < L.length ↔ j * dt < tr.maxTime := by
    intro j
    rw [hcount, hstart, zero_add]
    exact ⟨fun g => g.1, fun g => ⟨g, g.le⟩⟩
  refine ⟨L, hrun, hcount', ?_⟩
  intro j hjL
  have hne : tr.segments ≠ [] := by
    rintro h0
    rw [h0] at hi
    simp at hi
  have hle : (j : ℝ) * dt ≤ tr.maxTime := ((hcount' j).mp hjL).le
  have h0 : (0 : ℝ) ≤ j * dt := by positivity
  have hns' : (j : ℝ) * dt * 10 ^ 9 < 2 ^ 63 :=
    lt_of_le_of_lt (mul_le_mul_of_nonneg_right hle (by positivity)) hns
  obtain ⟨st, v, hs, hv, hstate⟩ := C38_at_time tr h hne hD (j * dt) h0 hle hns'
  obtain ⟨w, hw, hval⟩ := hst j hjL
  have hvw : ∀ k ≤ 4, w k = v k := by
    intro k hk
    obtain ⟨i', hi', g1, g2, e⟩ := hval k hk
    rw [zero_add] at g1 g2 e
    have := evaluate_closed tr h k (hj k hk) i' hi' _ g1 g2
    rw [(hv k hk).1, Res.ok.injEq] at this
    rw [e, this]
  rw [hs]
  have hstL : st = L[j] := by
    have hw' := hw
    obtain ⟨a0, a1, a2, a3, a4, a5, a6, a7, a8⟩ := hstate
    obtain ⟨b0, b1, b2, b3, b4, b5, b6, b7, b8⟩ := hw
    rw [hvw 0 (by omega)] at b0
    rw [hvw 1 (by omega)] at b1
    rw [hvw 2 (by omega)] at b2
    rw [hvw 3 (by omega)] at b3
    rw [hvw 4 (by omega)] at b4
    rw [hvw 0 (by omega), hvw 1 (by omega), hvw 2 (by omega)] at b5 b6
    have batt : st.attitude = L[j].attitude := by
      by_cases h4 : tr.D = 4
      · obtain ⟨y, y', y'', c0, c1, c2, c⟩ := a5 h4
        obtain ⟨z, z', z'', d0, d1, d2, d⟩ := b5 h4
        rw [c0] at d0
        rw [c1] at d1
        rw [c2] at d2
        cases d0; cases d1; cases d2
        rw [c, d]
      · by_cases h6 : tr.D = 6
        · rw [a6 h6, b6 h6]
        · rw [a7 h4 h6, b7 h4 h6]
    have bt : st.timeNs = L[j].timeNs := by
      rw [a8, b8, zero_add, mul_comm dt]
    rw [← b0] at a0
    rw [← b1] at a1
    rw [← b2] at a2
    rw [← b3] at a3
    rw [← b4] at a4
    cases hh : L[j]
    rw [hh] at a0 a1 a2 a3 a4 batt bt
    cases st
    simp only at a0 a1 a2 a3 a4 batt bt
    subst a0 a1 a2 a3 a4 batt bt
    rfl
  rw [hstL]

/-- **C55**, partial: `sampleTrajectoryInRange` in general. State `j` is made of derivatives at
`min_time + j dt` and has this time as stamp. Missing from the full statement: that there is a state
exactly for every `j` with `min_time + j dt < max_time`; the number of states is decided by comparing
`S + j dt` with `max_time`, where `S` is the start of the segment that contains `min_time`
(`C55_range_false`). -/
theorem C55_range_partial (tr : Trajectory ℝ) (h : tr.WF) (hD : 3 ≤ tr.D)
    (tMin tMax dt : ℝ) (hdt : 0 < dt) (h0 : 0 ≤ tMin) (hlt : tMin < tr.maxTime) (hend : tMin ≤ tMax)
    (hmax : tMax ≤ tr.maxTime) (hns : tr.maxTime * 10 ^ 9 < 2 ^ 63) :
    ∃ L i, (∃ F, ∀ fuel, F ≤ fuel → sampleTrajectoryInRange fuel tr tMin tMax dt = .ok (some L)) ∧
      startTime tr.getSegmentTimes i ≤ tMin ∧ tMin < startTime tr.getSegmentTimes (i + 1) ∧
      (∀ j : ℕ, j < L.length ↔ startTime tr.getSegmentTimes i + j * dt < tMax ∧
        tMin + j * dt ≤ tr.maxTime) ∧
      (∀ j, (hj : j < L.length) → ∃ w : ℕ → List ℝ, IsState tr.D w (tMin + dt * j) L[j] ∧
        ∀ k ≤ 4, ∃ i', ∃ hi' : i' < tr.segments.length,
          startTime tr.getSegmentTimes i' ≤ tMin + j * dt ∧
          tMin + j * dt ≤ startTime tr.getSegmentTimes (i' + 1) ∧
          w k = valuesAt tr.segments[i'].polys k (tMin + j * dt - startTime tr.getSegmentTimes i')) := by
  obtain ⟨i, hi, ha, hb⟩ := exists_segment tr h tMin h0 hlt
  obtain ⟨L, hrun, hcount, hst⟩ := sampleRange_ok tr h hD tMin tMax dt hdt hmax hend hns i hi ha hb h0
  refine ⟨L, i, hrun, ha, hb, hcount, ?_⟩
  intro j hj
  obtain ⟨w, hw, hv⟩ := hst j hj
  refine ⟨w, hw, fun k hk => ?_⟩
  obtain ⟨i', hi', g1, g2, e⟩ := hv k hk
  exact ⟨i', hi', g1, g2, by rw [e, segValue_eq_valuesAt]⟩

/-- **C55** is false for ranges that start inside a segment: asking for the states in `[1, 3/2]` every
1/2 s gives states up to the time 2 s. -/
theorem C55_range_false :
    ∃ L, sampleTrajectoryInRange 100 exS 1 (3 / 2) (1 / 2) = .ok (some L) ∧
      L.map State.timeNs = [1000000000, 1500000000, 2000000000] := by
  refine ⟨[⟨[1, 2, 0], [1, 2, 0], [0, 2, 0], [0, 0, 0], [0, 0, 0], .yaw (1 / 2) (1 / 2) 0, 1000000000⟩,
    ⟨[3 / 2, 13 / 4, 0], [1, 3, 0], [0, 2, 0], [0, 0, 0], [0, 0, 0], .yaw (3 / 4) (1 / 2) 0, 1500000000⟩,
    ⟨[2, 5, 0], [1, 4, 0], [0, 2, 0], [0, 0, 0], [0, 0, 0], .yaw 1 (1 / 2) 0, 2000000000⟩], ?_, rfl⟩
  decide +kernel

/-- **C55.** A range that leaves `[0, getMaxTime()]`, and fewer than three dimensions, are rejected. -/
theorem C55_rejected (fuel : ℕ) (tr : Trajectory ℝ) (tMin tMax dt : ℝ)
    (h : ¬ (0 ≤ tMin ∧ tMax ≤ tr.maxTime ∧ 3 ≤ tr.D)) :
    sampleTrajectoryInRange fuel tr tMin tMax dt = .ok none := by
  unfold sampleTrajectoryInRange
  split_ifs with h1 h2
  · rfl
  · rfl
  · push Not at h1
    exact absurd ⟨h1.1, h1.2, by omega⟩ h

/-- **C55**, partial: `sampleTrajectoryStartDuration(start, duration, dt)` for `start ≥ 0`, a duration
`≥ 0` and an end `start + duration` within the trajectory. State `j` is made of derivatives at
`start + j dt`, with this time as stamp. Missing: as in `C55_range_partial`, which times are sampled
when `start` is not the start of a segment. -/
theorem C55_duration_partial (tr : Trajectory ℝ) (h : tr.WF) (hD : 3 ≤ tr.D)
    (start duration dt : ℝ) (hdt : 0 < dt) (h0 : 0 ≤ start) (hlt : start < tr.maxTime)
    (hdur : 0 ≤ duration) (hmax : start + duration ≤ tr.maxTime) (hns : tr.maxTime * 10 ^ 9 < 2 ^ 63) :
    ∃ L i, (∃ F, ∀ fuel, F ≤ fuel →
        sampleTrajectoryStartDuration fuel tr start duration dt = .ok (some L)) ∧
      startTime tr.getSegmentTimes i ≤ start ∧ start < startTime tr.getSegmentTimes (i + 1) ∧
      (∀ j : ℕ, j < L.length ↔ startTime tr.getSegmentTimes i + j * dt < start + duration ∧
        start + j * dt ≤ tr.maxTime) ∧
      (start = startTime tr.getSegmentTimes i → ∀ j : ℕ, j < L.length ↔ j * dt < duration) ∧
      (∀ j, (hj : j < L.length) → ∃ w : ℕ → List ℝ, IsState tr.D w (start + dt * j) L[j] ∧
        ∀ k ≤ 4, ∃ i', ∃ hi' : i' < tr.segments.length,
          startTime tr.getSegmentTimes i' ≤ start + j * dt ∧
          start + j * dt ≤ startTime tr.getSegmentTimes (i' + 1) ∧
          w k = valuesAt tr.segments[i'].polys k (start + j * dt - startTime tr.getSegmentTimes i')) := by
  obtain ⟨L, i, hrun, ha, hb, hc, hst⟩ :=
    C55_range_partial tr h hD start (start + duration) dt hdt h0 hlt (by linarith) hmax hns
  refine ⟨L, i, hrun, ha, hb, hc, fun e j => ?_, hst⟩
  rw [hc j, ← e]
  constructor
  · rintro ⟨h1, _⟩; linarith
  · intro h1; exact ⟨by linarith, by linarith⟩

/-- **C55.** A start before 0, an end after `getMaxTime()` and fewer than three dimensions are rejected
by `sampleTrajectoryStartDuration`. -/
theorem C55_duration_rejected (fuel : ℕ) (tr : Trajectory ℝ) (start duration dt : ℝ)
    (h : ¬ (0 ≤ start ∧ start + duration ≤ tr.maxTime ∧ 3 ≤ tr.D)) :
    sampleTrajectoryStartDuration fuel tr start duration dt = .ok none :=
  C55_rejected fuel tr start (start + duration) dt h

/-- **C55.** Starting at the final time is undefined behaviour (as C12_end_false). -/
theorem C55_end_false (fuel : ℕ) (tr : Trajectory ℝ) (h : tr.WF) (hD : 3 ≤ tr.D) (dt : ℝ)
    (h0 : 0 ≤ tr.maxTime) : sampleTrajectoryInRange fuel tr tr.maxTime tr.maxTime dt = .ub := by
  unfold sampleTrajectoryInRange
  rw [if_neg (by push Not; exact ⟨h0, le_rfl⟩), if_neg (by omega), C12_end_false tr h]
  rfl

/-- One segment with 3 dimensions. -/
def exOne : Trajectory ℝ := ⟨3, 2, 2, [⟨[⟨[0, 1]⟩, ⟨[1, 0]⟩, ⟨[0, 0]⟩], 2, 2⟩]⟩

theorem exOne_wf : exOne.WF := by
  refine ⟨by simp [exOne, Segment.D], by simp [exOne], by norm_num [exOne, Trajectory.getSegmentTimes], ?_,
    by simp [exOne]⟩
  intro s hs
  simp only [exOne, List.mem_cons, List.not_mem_nil, or_false] at hs
  subst hs
  exact ⟨by simp [Poly.N], by simp⟩

example : exOne.WF ∧ 3 ≤ exOne.D ∧ (∀ k ≤ 4, exOne.JoinsAt k) ∧ 0 < exOne.maxTime ∧
    exOne.maxTime * 10 ^ 9 < 2 ^ 63 :=
  ⟨exOne_wf, by simp [exOne], fun k _ i hi => absurd hi (by simp [exOne]), by norm_num [exOne],
    by norm_num [exOne]⟩
example : (sampleWholeTrajectory 100 exS 1).bind (fun o => .ok (o.map fun l => l.map State.timeNs)) =
    .ok (some [0, 1000000000, 2000000000]) := by decide +kernel
example : sampleTrajectoryStartDuration 100 exS 1 3 1 = .ok none := by decide +kernel
example : (sampleTrajectoryStartDuration 100 exS 0 1 (1 / 2)).bind
    (fun o => .ok (o.map fun l => l.map State.timeNs)) = .ok (some [0, 500000000]) := by decide +kernel

/-! ### C56 writing sampled states -/

/-- **C56.** `sampledTrajectoryStatesToFile`: when the samples (every 0.01 s, by `sampleWholeTrajectory`)
are at least as many as the segments and the file can be opened, it succeeds; the rows are the sampled
states in order, row `j` has the end time of segment `j` in its last column, and 0 when there is no
such segment. -/
theorem C56_rows_partial [Field K] [LinearOrder K] [IsStrictOrderedRing K] [FloorRing K] (fuel : ℕ)
    (tr : Trajectory K) (states : List (State K))
    (h : sampleWholeTrajectory fuel tr (1 / 100) = .ok (some states))
    (hle : tr.segments.length ≤ states.length) :
    ∃ rows, sampledTrajectoryStatesToFile fuel true tr = .ok (true, some rows) ∧
      rows.map (·.1) = states ∧
      (∀ j, j < tr.segments.length → (rows[j]?).map (·.2) = some (startTime tr.getSegmentTimes (j + 1))) ∧
      (∀ j, tr.segments.length ≤ j → j < states.length → (rows[j]?).map (·.2) = some 0) := by
  obtain ⟨rows, hr, g1, _, g3, g4⟩ := (writeSegmentTimes_ub_iff tr.segments
    (states.map fun s => (s, (0 : K))) 0 0 (by simp)).2 (by simpa using hle)
  refine ⟨rows, ?_, by rw [g1, List.map_map]; exact List.map_id _, ?_, ?_⟩
  · unfold sampledTrajectoryStatesToFile
    rw [h, Res.ok_bind]
    simp only [hr, Res.ok_bind, if_true]
    rfl
  · intro j hj
    have := g3 j hj
    rwa [Nat.zero_add, zero_add] at this
  · intro j hj hj'
    rw [g4 j (by omega)]
    simp [hj']

/-- **C56 (returned flag).** When `sampledTrajectoryStatesToFile` returns, it returns true exactly if the
trajectory could be sampled and the file could be opened, and exactly then the file is written. -/
theorem C56_flag [Field K] [LinearOrder K] [IsStrictOrderedRing K] [FloorRing K] (fuel : ℕ)
    (canOpen : Bool) (tr : Trajectory K) (b : Bool) (f : Option (List (State K × K)))
    (h : sampledTrajectoryStatesToFile fuel canOpen tr = .ok (b, f)) :
    (b = true ↔ canOpen = true ∧ ∃ states, sampleWholeTrajectory fuel tr (1 / 100) = .ok (some states)) ∧
      (f.isSome ↔ b = true) := by
  unfold sampledTrajectoryStatesToFile at h
  rw [Res.bind_eq_ok] at h
  obtain ⟨r, hr, h⟩ := h
  rw [hr]
  cases r with
  | none =>
    simp only [Res.pure_eq, Res.ok.injEq, Prod.mk.injEq] at h
    obtain ⟨rfl, rfl⟩ := h
    simp
  | some states =>
    simp only [Res.bind_eq_ok] at h
    obtain ⟨rows, _, h⟩ := h
    cases canOpen <;> simp at h <;> obtain ⟨rfl, rfl⟩ := h <;> simp

/-- **C56** is false when there are more segments than samples: rows that do not exist are written
(whether or not the file can be opened). -/
theorem C56_short_false [Field K] [LinearOrder K] [IsStrictOrderedRing K] [FloorRing K] (fuel : ℕ)
    (canOpen : Bool) (tr : Trajectory K) (states : List (State K))
    (h : sampleWholeTrajectory fuel tr (1 / 100) = .ok (some states))
    (hlt : states.length < tr.segments.length) :
    sampledTrajectoryStatesToFile fuel canOpen tr = .ub := by
  unfold sampledTrajectoryStatesToFile
  rw [h, Res.ok_bind]
  simp only [(writeSegmentTimes_ub_iff tr.segments (states.map fun s => (s, (0 : K))) 0 0 (by simp)).1.mpr
    (by simpa using hlt)]
  rfl

/-- Two segments of 4 ms each. -/
def exShort : Trajectory ℚ :=
  ⟨3, 2, 8 / 1000, [⟨[⟨[0, 1]⟩, ⟨[1, 0]⟩, ⟨[0, 0]⟩], 4 / 1000, 2⟩,
    ⟨[⟨[4 / 1000, 1]⟩, ⟨[1, 0]⟩, ⟨[0, 0]⟩], 4 / 1000, 2⟩]⟩

example : ∃ s, sampleWholeTrajectory 10 exShort (1 / 100) = .ok (some [s]) :=
  ⟨⟨[0, 1, 0], [1, 0, 0], [0, 0, 0], [0, 0, 0], [0, 0, 0], .unchanged, 0⟩, by decide +kernel⟩
example : (sampledTrajectoryStatesToFile 10 true exShort).isUb = true := by decide +kernel
example : sampledTrajectoryStatesToFile 10 false
    (⟨3, 2, 2 / 100, [⟨[⟨[0, 1]⟩, ⟨[1, 0]⟩, ⟨[0, 0]⟩], 2 / 100, 2⟩]⟩ : Trajectory ℚ) = .ok (false, none) := by
  decide +kernel
example : (sampledTrajectoryStatesToFile 10 true
    (⟨3, 2, 2 / 100, [⟨[⟨[0, 1]⟩, ⟨[1, 0]⟩, ⟨[0, 0]⟩], 2 / 100, 2⟩]⟩ : Trajectory ℚ)).bind
      (fun r => .ok (r.1, r.2.map fun rows => rows.map (·.2))) = .ok (true, some [1 / 50, 0]) := by
  decide +kernel

end Verif
