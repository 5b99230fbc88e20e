import Verif.Props.Trajectory
import Verif.Props.Polynomial
import Verif.Model.MotionDefines
import Mathlib.Tactic.IntervalCases

/-
Property C77: equality of segments and trajectories. Property C78: names of derivatives.
-/
namespace Verif

open Polynomial Spec Set

/-! ### C77 equality -/

theorem polysEqLoop_ok (n : ℕ) : ∀ (ps qs : List (Poly ℝ)), (∀ p ∈ ps, p.N = n) → (∀ q ∈ qs, q.N = n) →
    ps.length = qs.length → ∃ b, polysEqLoop ps qs = .ok b ∧ (b = true ↔ ps = qs)
  | [], [], _, _, _ => ⟨true, rfl, by simp⟩
  | [], _ :: _, _, _, h => by simp at h
  | _ :: _, [], _, _, h => by simp at h
  | p :: ps, q :: qs, hp, hq, h => by
    obtain ⟨b, hb, hiff⟩ := polysEqLoop_ok n ps qs (fun x hx => hp x (by simp [hx]))
      (fun x hx => hq x (by simp [hx])) (by simpa using h)
    have hN : p.N = q.N := by rw [hp p (by simp), hq q (by simp)]
    have he : p.beq q = .ok (decide (p.coeffs = q.coeffs)) := if_pos hN
    by_cases hc : p.coeffs = q.coeffs
    · have hpq : p = q := by cases p; cases q; simpa using hc
      refine ⟨b, ?_, by simp [hiff, hpq]⟩
      simp [polysEqLoop, he, hc, hb]
    · have hpq : p ≠ q := fun e => hc (by rw [e])
      refine ⟨false, ?_, by simp [hpq]⟩
      simp [polysEqLoop, he, hc]

theorem polys_eq_iff (n : ℕ) (ps qs : List (Poly ℝ)) (hp : ∀ p ∈ ps, p.N = n) (hq : ∀ q ∈ qs, q.N = n) :
    ps = qs ↔ ∀ t, valuesAt ps 0 t = valuesAt qs 0 t := by
  constructor
  · intro e t; rw [e]
  · intro e
    have hlen : ps.length = qs.length := by
      have := congrArg List.length (e 0)
      simpa [valuesAt] using this
    apply List.ext_getElem hlen
    intro i h1 h2
    have hc : ∀ t, curve ps[i].coeffs t = curve qs[i].coeffs t := by
      intro t
      have := congrArg (fun l => l[i]?) (e t)
      simpa [valuesAt, h1, h2] using this
    obtain ⟨b, hb, hiff⟩ := (C03_eq ps[i] qs[i]).1
      (by rw [hp _ (List.getElem_mem h1), hq _ (List.getElem_mem h2)])
    have hN : ps[i].N = qs[i].N := by rw [hp _ (List.getElem_mem h1), hq _ (List.getElem_mem h2)]
    rw [Poly.beq, if_pos hN] at hb
    rw [hiff.2 hc] at hb
    have h3 : ps[i].coeffs = qs[i].coeffs := by simpa using hb
    revert h3
    generalize ps[i] = p
    generalize qs[i] = q
    intro h3
    cases p; cases q; simpa using h3

/-- **C77**, partial: two segments whose polynomials all have the same number of coefficients compare
equal exactly when they have the same duration and the same number of dimensions, and are the same
function of time. Missing from the full statement: segments with different numbers of coefficients
(`C77_segment_false`). -/
theorem C77_segment_partial (s r : Segment ℝ) (hs : s.WF) (hr : r.WF) (hN : s.N = r.N) :
    ∃ b, s.beq r = .ok b ∧
      (b = true ↔ s.time = r.time ∧ s.D = r.D ∧ ∀ t, valuesAt s.polys 0 t = valuesAt r.polys 0 t) := by
  have hp := hs.polysN
  have hq : ∀ q ∈ r.polys, q.N = s.N := by rw [hN]; exact hr.polysN
  unfold Segment.beq
  split_ifs with h
  · refine ⟨false, rfl, ?_⟩
    simp only [Bool.false_eq_true, false_iff]
    rintro ⟨h1, h2, _⟩
    rcases h with h | h
    · exact h h2
    · exact h h1
  · push Not at h
    obtain ⟨b, hb, hiff⟩ := polysEqLoop_ok s.N s.polys r.polys hp hq h.1
    exact ⟨b, hb, by rw [hiff, polys_eq_iff s.N _ _ hp hq]; exact ⟨fun e => ⟨h.2, h.1, e⟩, fun e => e.2.2⟩⟩

/-- **C77** is false for different numbers of coefficients: comparing two segments of the same dimension
(not 0) and duration is then undefined behaviour, although they may even be the same function. -/
theorem C77_segment_false (s r : Segment ℝ) (hs : s.WF) (hr : r.WF) (hN : s.N ≠ r.N) (h0 : 0 < s.D)
    (hD : s.D = r.D) (ht : s.time = r.time) : s.beq r = .ub := by
  unfold Segment.beq
  rw [if_neg (by push Not; exact ⟨hD, ht⟩)]
  obtain ⟨p, ps, hp⟩ : ∃ p ps, s.polys = p :: ps := by
    cases h : s.polys with
    | nil => simp [Segment.D, h] at h0
    | cons p ps => exact ⟨p, ps, rfl⟩
  obtain ⟨q, qs, hq⟩ : ∃ p ps, r.polys = p :: ps := by
    cases h : r.polys with
    | nil => rw [hD] at h0; simp [Segment.D, h] at h0
    | cons p ps => exact ⟨p, ps, rfl⟩
  have h1 : p.N = s.N := hs.polysN p (by simp [hp])
  have h2 : q.N = r.N := hr.polysN q (by simp [hq])
  rw [hp, hq, polysEqLoop, (C03_eq p q).2 (by rw [h1, h2]; exact hN)]
  rfl

theorem segmentsEqLoop_ok (n : ℕ) : ∀ (ss rs : List (Segment ℝ)), (∀ s ∈ ss, s.WF ∧ s.N = n) →
    (∀ r ∈ rs, r.WF ∧ r.N = n) → ss.length = rs.length →
    ∃ b, segmentsEqLoop ss rs = .ok b ∧ (b = true ↔ ∀ i, (h1 : i < ss.length) → (h2 : i < rs.length) →
      ss[i].time = rs[i].time ∧ ss[i].D = rs[i].D ∧
        ∀ t, valuesAt ss[i].polys 0 t = valuesAt rs[i].polys 0 t)
  | [], [], _, _, _ => ⟨true, rfl, by simp⟩
  | [], _ :: _, _, _, h => by simp at h
  | _ :: _, [], _, _, h => by simp at h
  | s :: ss, r :: rs, hp, hq, h => by
    obtain ⟨b, hb, hiff⟩ := segmentsEqLoop_ok n ss rs (fun x hx => hp x (by simp [hx]))
      (fun x hx => hq x (by simp [hx])) (by simpa using h)
    obtain ⟨b', hb', hiff'⟩ := C77_segment_partial s r (hp s (by simp)).1 (hq r (by simp)).1
      (by rw [(hp s (by simp)).2, (hq r (by simp)).2])
    cases b' with
    | false =>
      refine ⟨false, by simp [segmentsEqLoop, hb'], ?_⟩
      simp only [Bool.false_eq_true, false_iff]
      intro hall
      have := hall 0 (by simp) (by simp)
      exact absurd (hiff'.2 (by simpa using this)) (by simp)
    | true =>
      refine ⟨b, by simp [segmentsEqLoop, hb', hb], ?_⟩
      rw [hiff]
      constructor
      · intro hall i h1 h2
        cases i with
        | zero => exact hiff'.1 rfl
        | succ i => exact hall i (by simpa using h1) (by simpa using h2)
      · intro hall i h1 h2
        exact hall (i + 1) (by simpa using h1) (by simpa using h2)

/-- **C77**, partial: two trajectories with the same number of coefficients compare equal exactly when
they have the same number of segments and each segment of the one has the duration, the dimension and
the values of that of the other. Missing: different numbers of coefficients (`C77_trajectory_false`). -/
theorem C77_trajectory_partial (a b : Trajectory ℝ) (ha : a.WF) (hb : b.WF) (hN : a.N = b.N) :
    ∃ e, a.beq b = .ok e ∧
      (e = true ↔ a.segments.length = b.segments.length ∧
        ∀ i, (h1 : i < a.segments.length) → (h2 : i < b.segments.length) →
          a.segments[i].time = b.segments[i].time ∧ a.segments[i].D = b.segments[i].D ∧
          ∀ t, valuesAt a.segments[i].polys 0 t = valuesAt b.segments[i].polys 0 t) := by
  unfold Trajectory.beq
  split_ifs with h
  · exact ⟨false, rfl, by simp [h]⟩
  · push Not at h
    obtain ⟨e, he, hiff⟩ := segmentsEqLoop_ok a.N a.segments b.segments
      (fun s hs => ⟨ha.wf s hs, ha.coeffs s hs⟩)
      (fun s hs => ⟨hb.wf s hs, by rw [hN]; exact hb.coeffs s hs⟩) h
    exact ⟨e, he, by rw [hiff]; exact ⟨fun x => ⟨h, x⟩, fun x => x.2⟩⟩

/-- **C77** is false for trajectories with different numbers of coefficients. -/
theorem C77_trajectory_false :
    ∃ a b : Trajectory ℚ, a.WF ∧ b.WF ∧ a.N ≠ b.N ∧ a.beq b = .ub := by
  refine ⟨⟨1, 3, 1, [⟨[⟨[0, 1, 0]⟩], 1, 3⟩]⟩, ⟨1, 2, 1, [⟨[⟨[0, 1]⟩], 1, 2⟩]⟩,
    ⟨by decide, by decide, by decide +kernel, ?_, by decide +kernel⟩,
    ⟨by decide, by decide, by decide +kernel, ?_, by decide +kernel⟩, by decide, by decide +kernel⟩
  all_goals
    intro s hs
    exact ⟨by revert s; decide, by revert s; decide⟩

example : exTrR.WF ∧ exTrR.N = exTrR.N := ⟨exTrR_wf, rfl⟩
example : exTr.beq exTr = .ok true := by decide +kernel
example : exTr.beq (exTr.scaleSegmentTimes 2).2 = .ok false := by decide +kernel
example : (⟨[⟨[0, 1]⟩], 1, 2⟩ : Segment ℚ).beq ⟨[⟨[0, 1]⟩], 2, 2⟩ = .ok false := by decide +kernel
example : (⟨[⟨[0, 1]⟩], 1, 2⟩ : Segment ℝ).WF := ⟨by simp [Poly.N], by simp⟩
example : (⟨[⟨[0, 1, 0]⟩], 1, 3⟩ : Segment ℝ).WF := ⟨by simp [Poly.N], by simp⟩

/-! ### C78 names of derivatives -/

/-- **C78.** Position: turning an order into a name and back gives the order for the orders 0..4 and
-1 for every other number; a name different from "invalid" determines the order. -/
theorem C78_position (d : ℤ) :
    ∃ s, positionDerivativeToString d = .ok s ∧
      positionDerivativeToInt s = (if 0 ≤ d ∧ d ≤ 4 then d else -1) ∧
      (s = "invalid" ↔ ¬ (0 ≤ d ∧ d ≤ 4)) := by
  unfold positionDerivativeToString
  by_cases h : d ≥ 0 ∧ d ≤ 4
  · obtain ⟨h0, h4⟩ := h
    interval_cases d <;> exact ⟨_, rfl, by decide, by decide⟩
  · rw [if_neg h]
    exact ⟨_, rfl, by rw [if_neg h]; decide, by simp only [true_iff]; exact h⟩

/-- **C78.** Position: a string is either one of the five names, recovered from its order, or has the
order -1. -/
theorem C78_position_names (s : String) :
    (positionDerivativeToInt s = -1 ∧ ∀ d : ℤ, 0 ≤ d → d ≤ 4 → positionDerivativeToString d ≠ .ok s) ∨
    positionDerivativeToString (positionDerivativeToInt s) = .ok s := by
  by_cases h : positionDerivativeToInt s = -1
  · refine .inl ⟨h, fun d h0 h4 e => ?_⟩
    obtain ⟨s', e', hi, _⟩ := C78_position d
    rw [e] at e'
    cases e'
    rw [h, if_pos ⟨h0, h4⟩] at hi
    omega
  · refine .inr ?_
    unfold positionDerivativeToInt at h ⊢
    split_ifs at h ⊢ with h1 h2 h3 h4 h5
    · rw [h1]; rfl
    · rw [h2]; rfl
    · rw [h3]; rfl
    · rw [h4]; rfl
    · rw [h5]; rfl
    · exact absurd rfl h

/-- **C78.** Orientation, as `C78_position` with the orders 0..2. -/
theorem C78_orientation (d : ℤ) :
    ∃ s, orientationDerivativeToString d = .ok s ∧
      orientationDerivativeToInt s = (if 0 ≤ d ∧ d ≤ 2 then d else -1) ∧
      (s = "invalid" ↔ ¬ (0 ≤ d ∧ d ≤ 2)) := by
  unfold orientationDerivativeToString
  by_cases h : d ≥ 0 ∧ d ≤ 2
  · obtain ⟨h0, h4⟩ := h
    interval_cases d <;> exact ⟨_, rfl, by decide, by decide⟩
  · rw [if_neg h]
    exact ⟨_, rfl, by rw [if_neg h]; decide, by simp only [true_iff]; exact h⟩

/-- **C78.** Orientation, as `C78_position_names`. -/
theorem C78_orientation_names (s : String) :
    (orientationDerivativeToInt s = -1 ∧
      ∀ d : ℤ, 0 ≤ d → d ≤ 2 → orientationDerivativeToString d ≠ .ok s) ∨
    orientationDerivativeToString (orientationDerivativeToInt s) = .ok s := by
  by_cases h : orientationDerivativeToInt s = -1
  · refine .inl ⟨h, fun d h0 h4 e => ?_⟩
    obtain ⟨s', e', hi, _⟩ := C78_orientation d
    rw [e] at e'
    cases e'
    rw [h, if_pos ⟨h0, h4⟩] at hi
    omega
  · refine .inr ?_
    unfold orientationDerivativeToInt at h ⊢
    split_ifs at h ⊢ with h1 h2 h3
    · rw [h1]; rfl
    · rw [h2]; rfl
    · rw [h3]; rfl
    · exact absurd rfl h

example : positionDerivativeToString 3 = .ok "jerk" ∧ positionDerivativeToInt "jerk" = 3 ∧
    positionDerivativeToString 7 = .ok "invalid" := by decide
example : orientationDerivativeToString 2 = .ok "angular_acceleration" ∧
    orientationDerivativeToInt "velocity" = -1 := by decide

end Verif
