import Mathlib.Algebra.Order.Ring.Rat
import Verif.Proofs.Timing

/-
Properties C47 (statistics of the accumulator), C48 (timing handles) and C60 (timer objects).
`Spec.addAll` adds samples one after the other, `Spec.lastN N xs` are the last `N` samples,
`Spec.runTiming` runs a history of calls on the registry and `Spec.samplesOf h ops` lists the samples a
history adds to handle `h`.
-/
set_option linter.unusedSectionVars false

namespace Verif

open Spec

variable {K : Type} [Field K] [LinearOrder K] [IsStrictOrderedRing K]

/-! ### C47 statistics -/

/-- **C47.** After any sequence of samples (fewer than 2^31) nothing undefined has happened, and count,
total and mean are those of the whole sequence, whatever the memory held before. -/
theorem C47_totals (N : ℕ) (hN : 0 < N) (junk : List K) (hj : junk.length = N) (xs : List K)
    (hn : xs.length ≤ intMax) :
    ∃ a, addAll N (Acc.new junk) xs = .ok a ∧ a.totalSamples = xs.length ∧ a.sum = xs.sum ∧
      a.mean = if xs = [] then none else some (meanOf xs) := by
  obtain ⟨a, e, h⟩ := addAll_ok N hN junk hj xs hn
  refine ⟨a, e, h.totalSamples, h.sum, ?_⟩
  unfold Acc.mean divInt meanOf
  rw [h.totalSamples, h.sum]
  by_cases hx : xs = []
  · simp [hx]
  · rw [if_neg hx, if_neg (by simpa using hx)]

/-- **C47.** The rolling mean and the variance are those of the last `min n N` samples, however often the
ring buffer has wrapped around. -/
theorem C47_window (N : ℕ) (hN : 0 < N) (junk : List K) (hj : junk.length = N) (xs : List K)
    (hn : xs.length ≤ intMax) (hne : xs ≠ []) :
    ∃ a, addAll N (Acc.new junk) xs = .ok a ∧ a.rollingMean N = some (meanOf (lastN N xs)) ∧
      a.lazyVariance N = some (varianceOf (lastN N xs)) := by
  obtain ⟨a, e, h⟩ := addAll_ok N hN junk hj xs hn
  have hpos : 0 < xs.length := List.length_pos_iff.mpr hne
  have hlen : (lastN N xs).length = min xs.length N := by
    unfold lastN
    rw [List.length_drop]
    omega
  have hmin : Nat.min a.windowSamples N = min xs.length N := by rw [h.windowSamples]
  have hm0 : min xs.length N ≠ 0 := by omega
  have hroll : a.rollingMean N = some (meanOf (lastN N xs)) := by
    unfold Acc.rollingMean divInt meanOf
    rw [hmin, if_neg hm0, h.windowSum, hlen]
  refine ⟨a, e, hroll, ?_⟩
  unfold Acc.lazyVariance
  rw [if_neg (by rw [h.windowSamples]; omega), hroll]
  simp only [Option.bind_eq_bind, Option.bind_some]
  unfold divInt
  rw [hmin, if_neg hm0]
  unfold varianceOf
  conv_rhs => rw [meanOf]
  rw [List.length_map, hlen]
  congr 2
  have hp := h.perm.map fun x => (x - meanOf (lastN N xs)) * (x - meanOf (lastN N xs))
  rw [hp.sum_eq]
  simp only [pow_two]

/-- **C47.** Before the first sample the count and the total are 0 and the variance is reported as 0 (the mean
is not defined, it is the quotient 0 / 0). -/
theorem C47_no_samples (N : ℕ) (junk : List K) :
    (Acc.new junk : Acc K).totalSamples = 0 ∧ (Acc.new junk : Acc K).sum = 0 ∧
      (Acc.new junk : Acc K).lazyVariance N = some 0 ∧ (Acc.new junk : Acc K).mean = none := by
  simp [Acc.new, Acc.start, Acc.lazyVariance, Acc.mean, divInt]

/-- **C47.** The reported minimum is the smallest sample. -/
theorem C47_min (N : ℕ) (hN : 0 < N) (junk : List K) (hj : junk.length = N) (xs : List K)
    (hn : xs.length ≤ intMax) (hne : xs ≠ []) (hfin : ∀ x ∈ xs, x ≤ dblMax) :
    ∃ a, addAll N (Acc.new junk) xs = .ok a ∧ a.min ∈ xs ∧ ∀ x ∈ xs, a.min ≤ x := by
  obtain ⟨a, e, h⟩ := addAll_ok N hN junk hj xs hn
  refine ⟨a, e, ?_, h.minLe.2⟩
  rcases h.minMem with hm | hm
  · obtain ⟨x, hx⟩ := List.exists_mem_of_ne_nil xs hne
    have h1 := h.minLe.2 x hx
    have h2 := hfin x hx
    rw [hm] at h1 ⊢
    rw [le_antisymm h1 h2]
    exact hx
  · exact hm

/-- **C47, partial.** The reported maximum is the largest sample, provided some sample is at least the
smallest positive normal double. -/
theorem C47_max_partial (N : ℕ) (hN : 0 < N) (junk : List K) (hj : junk.length = N) (xs : List K)
    (hn : xs.length ≤ intMax) (hpos : ∃ x ∈ xs, 1 / 2 ^ 1022 ≤ x) :
    ∃ a, addAll N (Acc.new junk) xs = .ok a ∧ a.max ∈ xs ∧ ∀ x ∈ xs, x ≤ a.max := by
  obtain ⟨a, e, h⟩ := addAll_ok N hN junk hj xs hn
  refine ⟨a, e, ?_, h.maxGe.2⟩
  rcases h.maxMem with hm | hm
  · obtain ⟨x, hx, hx'⟩ := hpos
    have h1 := h.maxGe.2 x hx
    rw [hm] at h1 ⊢
    rw [le_antisymm (show (dblMin : K) ≤ x from hx') h1]
    exact hx
  · exact hm

/-- **C47 is false for the maximum of small samples.** If all samples are below the smallest positive normal
double (for example 0, or negative after a clock adjustment), the reported maximum is that number, which is
not a sample. -/
theorem C47_max_false (N : ℕ) (hN : 0 < N) (junk : List K) (hj : junk.length = N) (xs : List K)
    (hn : xs.length ≤ intMax) (hsmall : ∀ x ∈ xs, x < 1 / 2 ^ 1022) :
    ∃ a, addAll N (Acc.new junk) xs = .ok a ∧ a.max = 1 / 2 ^ 1022 ∧ a.max ∉ xs ∧ 0 < a.max := by
  obtain ⟨a, e, h⟩ := addAll_ok N hN junk hj xs hn
  have hm : a.max = 1 / 2 ^ 1022 := by
    rcases h.maxMem with hm | hm
    · exact hm
    · exact absurd (hsmall _ hm) (not_lt.mpr h.maxGe.1)
  refine ⟨a, e, hm, ?_, ?_⟩
  · intro hc
    exact absurd (hsmall _ hc) (not_lt.mpr h.maxGe.1)
  · rw [hm]
    positivity

/-- Five samples in a window of three: sum 15, last three 3, 4, 5. -/
example : (do
    let a ← addAll 3 (Acc.new [7, 7, 7]) [1, 2, 3, 4, (5 : ℚ)]
    pure (a.totalSamples, [some a.sum, a.mean, a.rollingMean 3, a.lazyVariance 3, some a.min, some a.max])) =
    .ok (5, [some 15, some 3, some 4, some (2 / 3), some 1, some 5]) := by decide +kernel

/-- A single sample 0 has the maximum 2^-1022. -/
example : (do
    let a ← addAll 3 (Acc.new [7, 7, 7]) [(0 : ℚ)]
    pure a.max) = .ok (1 / 2 ^ 1022) := by decide +kernel

/-! ### C48 handles -/

/-- **C48.** A tag keeps its handle as long as there is no Reset. -/
theorem C48_stable (junk : ℕ → List K) (ops1 ops2 : List (TimingOp K)) (r1 r3 : Registry K) (tag : String)
    (e1 : runTiming junk Registry.new ops1 = .ok r1)
    (e2 : runTiming junk (r1.getHandle junk tag).2 ops2 = .ok r3)
    (hno : ∀ op ∈ ops2, op ≠ .reset) :
    (r3.getHandle junk tag).1 = (r1.getHandle junk tag).1 := by
  have i1 := (run_extends junk ops1 _ r1 regInv_new e1).inv
  obtain ⟨x1, m1⟩ := getHandle_spec junk r1 i1 tag
  have x2 := run_extends junk ops2 _ r3 x1.inv e2
  have m3 := x2.keep hno _ m1
  have hl := lookup_of_mem x2.inv.keys m3
  conv_lhs => unfold Registry.getHandle
  rw [hl]

/-- **C48.** The handles of different tags are different, at whatever times of the history they are handed
out, also across a Reset. -/
theorem C48_unique (junk : ℕ → List K) (ops1 ops2 : List (TimingOp K)) (r1 r3 : Registry K)
    (tag tag' : String) (hne : tag ≠ tag') (e1 : runTiming junk Registry.new ops1 = .ok r1)
    (e2 : runTiming junk (r1.getHandle junk tag).2 ops2 = .ok r3) :
    (r3.getHandle junk tag').1 ≠ (r1.getHandle junk tag).1 := by
  have i1 := (run_extends junk ops1 _ r1 regInv_new e1).inv
  obtain ⟨x1, m1⟩ := getHandle_spec junk r1 i1 tag
  have x2 := run_extends junk ops2 _ r3 x1.inv e2
  obtain ⟨x3, m3⟩ := getHandle_spec junk r3 x2.inv tag'
  intro hc
  rw [hc] at m3
  have hv := x1.inv.valid _ m1
  simp only at hv
  have hin : (tag', (r1.getHandle junk tag).1) ∈ (r1.getHandle junk tag).2.tags := by
    rcases x3.fresh _ m3 with h | h
    · rcases x2.fresh _ h with h' | h'
      · exact h'
      · simp only at h'; omega
    · have := x2.grow
      simp only at h
      omega
  have := List.inj_on_of_nodup_map x1.inv.handles m1 hin rfl
  exact hne (Prod.mk.inj this).1

/-- **C48.** A handle stays a valid index whatever happens later, Reset included: statistics can be read, and
samples can be added until there are 2^31 - 1. -/
theorem C48_valid (junk : ℕ → List K) (hj : ∀ i, (junk i).length = timerWindow)
    (ops1 ops2 : List (TimingOp K)) (r1 r3 : Registry K)
    (tag : String) (e1 : runTiming junk Registry.new ops1 = .ok r1)
    (e2 : runTiming junk (r1.getHandle junk tag).2 ops2 = .ok r3) :
    ∃ n, r3.numSamples (r1.getHandle junk tag).1 = .ok n ∧
      (n < intMax → ∀ x, ∃ r4, r3.addTime (r1.getHandle junk tag).1 x = .ok r4) := by
  have i1 := (run_extends junk ops1 _ r1 regInv_new e1).inv
  obtain ⟨x1, m1⟩ := getHandle_spec junk r1 i1 tag
  have x2 := run_extends junk ops2 _ r3 x1.inv e2
  have hv : (r1.getHandle junk tag).1 < r3.timers.length := by
    have h1 := x1.inv.valid _ m1
    have h2 := x2.grow
    simp only at h1
    omega
  have e3 : runTiming junk Registry.new (ops1 ++ [.getHandle tag] ++ ops2) = .ok r3 := by
    unfold runTiming at e1 e2 ⊢
    rw [List.foldlM_append, List.foldlM_append, e1, Res.ok_bind, List.foldlM_cons]
    simp only [TimingOp.step, Res.ok_bind, List.foldlM_nil, Res.pure_eq]
    exact e2
  have hst := (statInv_run junk hj _ r3 e3).acc _ hv
  refine ⟨_, by unfold Registry.numSamples; rw [Res.at'_of_lt hv]; rfl, ?_⟩
  intro hn x
  obtain ⟨a, ea, _⟩ := acc_add_ok timerWindow (by decide) _ _ hst (by
    rw [← hst.totalSamples]; exact hn) x
  exact ⟨_, by unfold Registry.addTime; rw [Res.at'_of_lt hv, Res.ok_bind, ea]; rfl⟩

/-- **C48.** GetTag inverts GetHandle until the next Reset. -/
theorem C48_tag (junk : ℕ → List K) (ops1 ops2 : List (TimingOp K)) (r1 r3 : Registry K) (tag : String)
    (e1 : runTiming junk Registry.new ops1 = .ok r1)
    (e2 : runTiming junk (r1.getHandle junk tag).2 ops2 = .ok r3)
    (hno : ∀ op ∈ ops2, op ≠ .reset) :
    r3.getTag (r1.getHandle junk tag).1 = tag := by
  have i1 := (run_extends junk ops1 _ r1 regInv_new e1).inv
  obtain ⟨x1, m1⟩ := getHandle_spec junk r1 i1 tag
  have x2 := run_extends junk ops2 _ r3 x1.inv e2
  have m3 := x2.keep hno _ m1
  unfold Registry.getTag
  cases hf : r3.tags.find? fun e => e.2 = (r1.getHandle junk tag).1 with
  | none =>
    have := List.find?_eq_none.mp hf _ m3
    simp at this
  | some e =>
    have h1 := List.mem_of_find?_eq_some hf
    have h2 := List.find?_some hf
    have := List.inj_on_of_nodup_map x2.inv.handles h1 m3 (by simpa using h2)
    simp [this]

/-- **C48.** Every timer has exactly the samples that were added to its handle during the whole history, in
number and total; nothing is lost by a Reset and nothing goes to a wrong timer. -/
theorem C48_samples (junk : ℕ → List K) (hj : ∀ i, (junk i).length = timerWindow)
    (ops : List (TimingOp K)) (r : Registry K) (e : runTiming junk Registry.new ops = .ok r) (h : ℕ)
    (n : ℕ) (hn : r.numSamples h = .ok n) :
    n = (samplesOf h ops).length ∧ r.totalSeconds h = .ok (samplesOf h ops).sum := by
  have hh : h < r.timers.length := by
    by_contra hc
    unfold Registry.numSamples at hn
    rw [Res.at'_of_ge (not_lt.mp hc)] at hn
    simp at hn
  have hst := (statInv_run junk hj ops r e).acc h hh
  unfold Registry.numSamples at hn
  rw [Res.at'_of_lt hh, Res.ok_bind] at hn
  refine ⟨by rw [← hst.totalSamples]; simpa using hn.symm, ?_⟩
  unfold Registry.totalSeconds
  rw [Res.at'_of_lt hh, Res.ok_bind, hst.sum]
  rfl

/-- Two tags, a sample, a Reset, the first tag again: handles 0, 1 and then 2; the sample stays with
handle 0. -/
example :
    let junk : ℕ → List ℚ := fun _ => List.replicate 50 0
    (do
      let r ← runTiming junk Registry.new
        [.getHandle "a", .getHandle "b", .addTime 0 3, .reset, .getHandle "a", .addTime 2 4, .addTime 0 1]
      let s0 ← r.totalSeconds 0
      let s2 ← r.totalSeconds 2
      pure (s0, s2, (r.getHandle junk "a").1, (r.getHandle junk "b").1, r.getTag 2)) =
    .ok (4, 4, 2, 3, "a") := by decide +kernel

/-! ### C60 timer objects -/

/-- **C60.** A timer on a valid handle that is started and stopped any number of times adds one sample per
period, the elapsed time, in order; then destroying it adds nothing. Missing: a timer stopped without being
started, for which the claim is false (`C60_stop_false`). -/
theorem C60_periods_partial (t : TimerObj K) (r : Registry K) (ps : List (K × K)) (x : TimerObj K × Registry K)
    (e : runPeriods t r ps = .ok x) (ht : t.timing = false) (now : K) :
    ps.foldlM (fun (r : Registry K) p => r.addTime t.handle (p.2 - p.1)) r = .ok x.2 ∧
      x.1.handle = t.handle ∧ x.1.destroy x.2 now = .ok x.2 := by
  induction ps generalizing t r with
  | nil =>
    obtain rfl : (t, r) = x := by simpa [runPeriods] using e
    exact ⟨rfl, rfl, by unfold TimerObj.destroy; rw [if_neg (by simp [ht])]⟩
  | cons p ps ih =>
    unfold runPeriods at e
    obtain ⟨y, e1, e2⟩ := Res.bind_eq_ok.mp e
    unfold TimerObj.stop at e1
    obtain ⟨r', e3, e4⟩ := Res.bind_eq_ok.mp e1
    obtain rfl : _ = y := by simpa using e4
    obtain ⟨h1, h2, h3⟩ := ih _ _ e2 rfl
    refine ⟨?_, h2, h3⟩
    rw [List.foldlM_cons]
    have e3' : r.addTime t.handle (p.2 - p.1) = .ok r' := e3
    rw [e3', Res.ok_bind]
    exact h1

/-- **C60.** A timer constructed running and destroyed adds exactly one sample, the time in between; one
constructed stopped and destroyed adds none. -/
theorem C60_scope (handle : ℕ) (r : Registry K) (t0 t1 : K) :
    (TimerObj.new handle false t0).destroy r t1 = r.addTime handle (t1 - t0) ∧
    (TimerObj.new handle true t0).destroy r t1 = .ok r := by
  constructor
  · unfold TimerObj.destroy TimerObj.new TimerObj.start TimerObj.stop
    simp only [Bool.false_eq_true, if_false, if_true]
    cases r.addTime handle (t1 - t0) <;> rfl
  · rfl

/-- **C60 is false for Stop without Start.** Stopping a timer that was constructed stopped adds the time
since the epoch of the clock as a sample. -/
theorem C60_stop_false (handle : ℕ) (r r' : Registry K) (now t1 : K)
    (e : r.addTime handle t1 = .ok r') :
    (TimerObj.new handle true now).stop r t1 = .ok (⟨0, false, handle⟩, r') := by
  unfold TimerObj.new TimerObj.stop
  simp only [if_true, sub_zero]
  rw [e]
  rfl

/-- **C60.** The benchmark timer never reports a negative time, and reports the elapsed time when the clock
does not run backwards. -/
theorem C60_mini (t0 t1 : K) :
    0 ≤ (MiniTimer.mk t0 t1).getTime ∧ (t0 ≤ t1 → (MiniTimer.mk t0 t1).getTime = t1 - t0) := by
  unfold MiniTimer.getTime
  simp only
  constructor
  · split
    · exact le_rfl
    · next h => exact sub_nonneg.mpr (not_lt.mp h)
  · intro h
    rw [if_neg (not_lt.mpr h)]

/-- Two periods, from 1 to 3 and from 10 to 11. -/
example :
    let junk : ℕ → List ℚ := fun _ => List.replicate 50 0
    let g := (Registry.new : Registry ℚ).getHandle junk "t"
    (do
      let x ← runPeriods (TimerObj.new g.1 true 0) g.2 [(1, 3), (10, 11)]
      let n ← x.2.numSamples 0
      let s ← x.2.totalSeconds 0
      pure (n, s)) = .ok (2, 3) := by decide +kernel

end Verif
