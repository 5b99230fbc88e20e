import Verif.Props.Timing

/-
Property C60, in terms of the statistics a user reads: a timer that is started and stopped adds one sample
per period to its own timer and nothing to any other, and this does not fail below 2^31 samples.
-/
set_option linter.unusedSectionVars false

namespace Verif

open Spec

variable {K : Type} [Field K] [LinearOrder K] [IsStrictOrderedRing K]

/-- **C60.** After any history of calls, a timer object on a handle with `n` samples is started and stopped
at the clock readings `ps`. As long as there are fewer than 2^31 samples this returns; the handle then has
`n + ps.length` samples, its total has grown by the lengths of the periods, and the statistics of the other
handles are the same. -/
theorem C60_samples (junk : ℕ → List K) (hj : ∀ i, (junk i).length = timerWindow)
    (ops : List (TimingOp K)) (r : Registry K) (e : runTiming junk Registry.new ops = .ok r)
    (t : TimerObj K) (n : ℕ) (s : K) (hn : r.numSamples t.handle = .ok n)
    (hs : r.totalSeconds t.handle = .ok s) (ps : List (K × K)) (hlen : n + ps.length ≤ intMax) :
    ∃ x, runPeriods t r ps = .ok x ∧ x.2.numSamples t.handle = .ok (n + ps.length) ∧
      x.2.totalSeconds t.handle = .ok (s + (ps.map fun p => p.2 - p.1).sum) ∧
      ∀ h, h ≠ t.handle → x.2.numSamples h = r.numSamples h ∧ x.2.totalSeconds h = r.totalSeconds h := by
  induction ps generalizing t r n s ops with
  | nil => exact ⟨(t, r), rfl, by simpa using hn, by simpa using hs, fun h _ => ⟨rfl, rfl⟩⟩
  | cons p ps ih =>
    simp only [List.length_cons] at hlen
    have hh : t.handle < r.timers.length := by
      by_contra hc
      unfold Registry.numSamples at hn
      rw [Res.at'_of_ge (not_lt.mp hc)] at hn
      simp at hn
    have hst := (statInv_run junk hj ops r e).acc t.handle hh
    have hn' : (r.timers[t.handle]).totalSamples = n := by
      unfold Registry.numSamples at hn
      rw [Res.at'_of_lt hh, Res.ok_bind] at hn
      simpa using hn
    have hs' : (r.timers[t.handle]).sum = s := by
      unfold Registry.totalSeconds at hs
      rw [Res.at'_of_lt hh, Res.ok_bind] at hs
      simpa using hs
    obtain ⟨a, ea, ha⟩ := acc_add_ok timerWindow (by decide) _ _ hst
      (by rw [← hst.totalSamples, hn']; omega) (p.2 - p.1)
    have hadd : r.addTime t.handle (p.2 - p.1) = .ok { r with timers := r.timers.set t.handle a } := by
      unfold Registry.addTime
      rw [Res.at'_of_lt hh, Res.ok_bind, ea]
      rfl
    have hstep : (t.start p.1).stop r p.2 =
        .ok ({ t.start p.1 with timing := false }, { r with timers := r.timers.set t.handle a }) := by
      unfold TimerObj.stop TimerObj.start
      simp only
      rw [hadd]
      rfl
    have hlt : t.handle < (r.timers.set t.handle a).length := by simpa using hh
    obtain ⟨x, h1, h2, h3, h4⟩ := ih (ops ++ [.addTime t.handle (p.2 - p.1)])
      { r with timers := r.timers.set t.handle a }
      (by
        unfold runTiming at e ⊢
        rw [List.foldlM_append, e, Res.ok_bind, List.foldlM_cons]
        show (r.addTime t.handle (p.2 - p.1)).bind _ = _
        rw [hadd]
        rfl)
      { t.start p.1 with timing := false } (n + 1) (s + (p.2 - p.1))
      (by
        unfold Registry.numSamples TimerObj.start
        simp only
        rw [Res.at'_of_lt hlt, Res.ok_bind, List.getElem_set_self, ha.totalSamples]
        simp [← hn', hst.totalSamples])
      (by
        unfold Registry.totalSeconds TimerObj.start
        simp only
        rw [Res.at'_of_lt hlt, Res.ok_bind, List.getElem_set_self, ha.sum]
        simp [← hs', hst.sum])
      (by omega)
    refine ⟨x, ?_, ?_, ?_, ?_⟩
    · unfold runPeriods
      rw [hstep, Res.ok_bind]
      exact h1
    · rw [List.length_cons, show n + (ps.length + 1) = n + 1 + ps.length by omega]
      exact h2
    · rw [List.map_cons, List.sum_cons, ← add_assoc]
      exact h3
    · intro h hne
      obtain ⟨h5, h6⟩ := h4 h hne
      rw [h5, h6]
      have hat : Res.at' (r.timers.set t.handle a) h = Res.at' r.timers h := by
        unfold Res.at'
        rw [List.getElem?_set_ne (Ne.symm hne)]
      constructor
      · unfold Registry.numSamples
        simp only [hat]
      · unfold Registry.totalSeconds
        simp only [hat]

/-- The hypotheses hold after two tags and one sample; a timer on the first handle with two periods. -/
example :
    let junk : ℕ → List ℚ := fun _ => List.replicate 50 0
    (do
      let r ← runTiming junk Registry.new [.getHandle "a", .getHandle "b", .addTime 0 3]
      let n ← r.numSamples 0
      let s ← r.totalSeconds 0
      let x ← runPeriods (TimerObj.new 0 true 0) r [(1, 3), (10, 11)]
      let n' ← x.2.numSamples 0
      let s' ← x.2.totalSeconds 0
      let m' ← x.2.numSamples 1
      pure (n, s, n', s', m')) = .ok (1, 3, 3, 6, 0) := by decide +kernel

end Verif
