import Verif.Proofs.FeasibilityRecursive

/- Helper lemmas for the feasibility check by sampling. -/
namespace Verif

open Spec Set

theorem sampledState_ok (conv : List (List ℝ) → MavState ℝ) (s : Segment ℝ) (h : s.WF) (hD : 3 ≤ s.D)
    (t : ℝ) : sampledState conv s t = .ok (conv (flatState s.polys t)) := by
  have h1 : [0, 1, 2, 3, 4].mapM (fun d : ℤ => s.evaluate t d) = .ok (flatState s.polys t) := by
    have := Res.mapM_ok (l := [0, 1, 2, 3, 4]) (f := fun d : ℤ => s.evaluate t d)
      (g := fun d : ℤ => valuesAt s.polys d.toNat t) (by
        intro a ha
        have : a = ((a.toNat : ℕ) : ℤ) := by
          simp only [List.mem_cons, List.not_mem_nil, or_false] at ha
          omega
        rw [← segValue_eq_valuesAt, ← segment_evaluate_ok s h, ← this])
    rw [this]
    rfl
  have h2 : (flatState s.polys t).mapM vecHead3 =
      .ok ((flatState s.polys t).map fun v => ![v.getD 0 0, v.getD 1 0, v.getD 2 0]) := by
    apply Res.mapM_ok
    intro v hv
    unfold flatState at hv
    rw [List.mem_map] at hv
    obtain ⟨k, _, rfl⟩ := hv
    have hlen : 3 ≤ (valuesAt s.polys k t).length := by
      rw [← segValue_eq_valuesAt, segValue_length]; exact hD
    match hv : valuesAt s.polys k t, hlen with
    | _ :: _ :: _ :: _, _ => rfl
  unfold sampledState
  rw [h1, Res.ok_bind, h2]
  rfl

theorem limitSuchThat_false {ic : InputConstraints ℝ} {t : ℤ} {p : ℝ → Bool} :
    limitSuchThat ic t p = false ↔ ∀ l, ic.getConstraint t = some l → p l = false := by
  unfold limitSuchThat
  cases ic.getConstraint t <;> simp

/-- One state: all limits are met, or the verdict names one that is not. -/
theorem checkState_spec (ic : InputConstraints ℝ) (m : MavState ℝ) :
    (checkState ic m = none ∧ StateMeets ic m) ∨
    ∃ r, checkState ic m = some r ∧ r ≠ .feasible ∧ r ≠ .indeterminable ∧ StateViolates ic m r := by
  have pos : ∀ {t p}, limitSuchThat ic t p = true → ∃ l, ic.getConstraint t = some l ∧ p l = true :=
    fun h => limitSuchThat_true.mp h
  unfold checkState
  split
  · next h =>
    obtain ⟨l, hl, hp⟩ := pos h
    exact Or.inr ⟨_, rfl, by simp, by simp, l, hl, by simpa using hp⟩
  next h1 =>
  split
  · next h =>
    obtain ⟨l, hl, hp⟩ := pos h
    exact Or.inr ⟨_, rfl, by simp, by simp, l, hl, by simpa using hp⟩
  next h2 =>
  split
  · next h =>
    obtain ⟨l, hl, hp⟩ := pos h
    exact Or.inr ⟨_, rfl, by simp, by simp, l, hl, by simpa using hp⟩
  next h3 =>
  split
  · next h =>
    obtain ⟨l, hl, hp⟩ := pos h
    exact Or.inr ⟨_, rfl, by simp, by simp, l, hl, by simpa using hp⟩
  next h4 =>
  split
  · next h =>
    obtain ⟨l, hl, hp⟩ := pos h
    exact Or.inr ⟨_, rfl, by simp, by simp, l, hl, by simpa using hp⟩
  next h5 =>
  split
  · next h =>
    obtain ⟨l, hl, hp⟩ := pos h
    exact Or.inr ⟨_, rfl, by simp, by simp, l, hl, by simpa using hp⟩
  next h6 =>
  rw [Bool.not_eq_true, limitSuchThat_false] at h1 h2 h3 h4 h5 h6
  refine Or.inl ⟨rfl, ?_, ?_, ?_, ?_, ?_, ?_⟩ <;> intro l hl
  · simpa using h1 l hl
  · simpa using h2 l hl
  · simpa using h3 l hl
  · simpa using h4 l hl
  · simpa using h5 l hl
  · simpa using h6 l hl

theorem samplingLoop_succ {K : Type} [Field K] [LinearOrder K] (conv : List (List K) → MavState K)
    (ic : InputConstraints K) (dt : K) (s : Segment K) (fuel : ℕ) (t : K) :
    samplingLoop conv ic dt s (fuel + 1) t =
      if t ≤ s.time then (do
        let m ← sampledState conv s t
        match checkState ic m with
        | some r => pure r
        | none => samplingLoop conv ic dt s fuel (t + dt))
      else .ok .feasible := rfl

end Verif
