import Verif.Proofs.RosConversions

/-
Property C117 (stored durations): the duration of a segment is stored in nanoseconds as an unsigned number of 64 bits, in
YAML trees, in files and in messages. `Spec.Storable` names the durations for which the conversion is defined.
-/
set_option linter.unusedSectionVars false

namespace Verif

open Spec

variable {K S M : Type} [Field K] [LinearOrder K] [IsStrictOrderedRing K] [FloorRing K]

/-- **C117.** `getTimeNSec` is defined exactly for storable durations; it gives the number of whole nanoseconds, 0 for a
negative duration of less than a nanosecond. -/
theorem C117_nanoseconds (s : Segment K) (n : ℕ) :
    s.getTimeNSec = .ok n ↔ Storable s ∧ (n : K) ≤ max 0 (10 ^ 9 * s.time) ∧ 10 ^ 9 * s.time < n + 1 := by
  unfold Segment.getTimeNSec Storable
  dsimp only
  constructor
  · intro h
    by_cases hc : (10 ^ 9 : K) * s.time ≤ -1 ∨ (2 ^ 64 : K) ≤ (10 ^ 9 : K) * s.time
    · rw [if_pos hc] at h
      cases h
    rw [if_neg hc] at h
    rw [not_or, not_le, not_le] at hc
    cases h
    refine ⟨hc, ?_, ?_⟩
    · by_cases h0 : 0 ≤ (10 ^ 9 : K) * s.time
      · have hf := Int.floor_nonneg.mpr h0
        rw [max_eq_right h0, ← Int.cast_natCast, Int.toNat_of_nonneg hf]
        exact Int.floor_le _
      · have hf : ⌊(10 ^ 9 : K) * s.time⌋ ≤ 0 := (Int.floor_lt.mpr (by push_cast; exact not_le.mp h0)).le
        rw [Int.toNat_of_nonpos hf]
        simp
    · refine lt_of_lt_of_le (Int.lt_floor_add_one _) ?_
      have := Int.self_le_toNat ⌊(10 ^ 9 : K) * s.time⌋
      have h1 : ((⌊(10 ^ 9 : K) * s.time⌋ : ℤ) : K) ≤ ((⌊(10 ^ 9 : K) * s.time⌋.toNat : ℤ) : K) := Int.cast_le.mpr this
      rw [Int.cast_natCast] at h1
      linarith
  · rintro ⟨⟨h1, h2⟩, h3, h4⟩
    rw [if_neg (by rw [not_or, not_le, not_le]; exact ⟨h1, h2⟩)]
    congr 1
    by_cases h0 : 0 ≤ (10 ^ 9 : K) * s.time
    · rw [max_eq_right h0] at h3
      have : ⌊(10 ^ 9 : K) * s.time⌋ = (n : ℤ) := by
        rw [Int.floor_eq_iff]
        exact ⟨by exact_mod_cast h3, by exact_mod_cast h4⟩
      rw [this]
      rfl
    · have hf : ⌊(10 ^ 9 : K) * s.time⌋ ≤ 0 := (Int.floor_lt.mpr (by push_cast; exact not_le.mp h0)).le
      rw [max_eq_left (not_le.mp h0).le] at h3
      have hn : n = 0 := by
        have : (n : K) ≤ ((0 : ℕ) : K) := by simpa using h3
        exact Nat.le_zero.mp (Nat.cast_le.mp this)
      rw [Int.toNat_of_nonpos hf, hn]

theorem getTimeNSec_ub {s : Segment K} (h : ¬ Storable s) : s.getTimeNSec = .ub := by
  unfold Segment.getTimeNSec
  dsimp only
  rw [if_pos]
  unfold Storable at h
  by_contra hc
  rw [not_or, not_le, not_le] at hc
  exact h hc

theorem getTimeNSec_defined {s : Segment K} (h : Storable s) : ∃ n, s.getTimeNSec = .ok n := by
  unfold Segment.getTimeNSec
  dsimp only
  rw [if_neg (by rw [not_or, not_le, not_le]; exact h)]
  exact ⟨_, rfl⟩

theorem segmentToYaml_defined (cd : Codec K S) {s : Segment K} (h : Storable s) : ∃ y, segmentToYaml cd s = .ok y := by
  obtain ⟨n, hn⟩ := getTimeNSec_defined h
  unfold segmentToYaml
  rw [hn, Res.ok_bind, Res.mapM_ok (g := fun p : Poly K => coefficientsToYaml cd p.coeffs)
      (by intro p _; rw [Poly.getCoefficients_zero]; rfl), Res.ok_bind]
  exact ⟨_, rfl⟩

theorem segmentToText_defined (cd : Codec K S) {s : Segment K} (h : Storable s)
    (hN : ∀ p ∈ s.polys, p.coeffs.length = s.N) : ∃ y, segmentToText cd s = .ok y := by
  obtain ⟨n, hn⟩ := getTimeNSec_defined h
  unfold segmentToText
  rw [hn, Res.ok_bind, Res.mapM_ok (g := fun p : Poly K => coefficientsToYaml cd p.coeffs), Res.ok_bind]
  · exact ⟨_, rfl⟩
  · intro p hp
    have hl := hN p hp
    rw [Poly.getCoefficients_zero, Res.ok_bind, ← hl]
    have := mapM_range_all p.coeffs (fun o => match o with | some a => Res.ok a | none => Res.ub)
    have h2 : (List.range p.coeffs.length).mapM (fun j => Res.at' p.coeffs j) = .ok p.coeffs := by
      refine this.trans ?_
      rw [Res.mapM_ok (g := id) (by intro a _; rfl), List.map_id]
    rw [h2]
    rfl

theorem mapM_defined {α β : Type} (f : α → Res β) (l : List α) (h : ∀ a ∈ l, ∃ b, f a = .ok b) : ∃ r, l.mapM f = .ok r := by
  induction l with
  | nil => exact ⟨[], rfl⟩
  | cons a l ih =>
    obtain ⟨b, hb⟩ := h a (by simp)
    obtain ⟨r, hr⟩ := ih fun x hx => h x (by simp [hx])
    exact ⟨b :: r, by rw [List.mapM_cons, hb, Res.ok_bind, hr]; rfl⟩

theorem mapM_first_ub {α β : Type} (f : α → Res β) (l l' : List α) (a : α) (h : ∀ a ∈ l, ∃ b, f a = .ok b) (ha : f a = .ub) :
    (l ++ a :: l').mapM f = .ub := by
  induction l with
  | nil => rw [List.nil_append, List.mapM_cons, ha]; rfl
  | cons x l ih =>
    obtain ⟨b, hb⟩ := h x (by simp)
    rw [List.cons_append, List.mapM_cons, hb, Res.ok_bind, ih fun y hy => h y (by simp [hy])]
    rfl

theorem eigenSegOf_defined {s : Segment K} (hD : s.D ∈ [3, 4, 6]) :
    (Storable s → ∃ e, eigenSegOf s = .ok e) ∧ (¬ Storable s → eigenSegOf s = .ub) := by
  have hl : s.polys.length = s.D := rfl
  have aux : ∀ i, i < s.D → ∃ c, s.coeffsOf i = .ok c := fun i hi => ⟨_, coeffsOf_ok s i (by rw [hl]; exact hi)⟩
  have h3 : 3 ≤ s.D := by
    simp only [List.mem_cons, List.not_mem_nil, or_false] at hD
    omega
  obtain ⟨c0, e0⟩ := aux 0 (by omega)
  obtain ⟨c1, e1⟩ := aux 1 (by omega)
  obtain ⟨c2, e2⟩ := aux 2 (by omega)
  unfold eigenSegOf
  rw [e0, Res.ok_bind, e1, Res.ok_bind, e2, Res.ok_bind]
  dsimp only
  by_cases h4 : s.D = 4
  · obtain ⟨c3, e3⟩ := aux 3 (by omega)
    rw [if_pos h4, e3]
    constructor
    · intro h
      obtain ⟨n, hn⟩ := getTimeNSec_defined h
      rw [hn]
      exact ⟨_, rfl⟩
    · intro h
      rw [getTimeNSec_ub h]
      rfl
  · rw [if_neg h4]
    by_cases h6 : s.D = 6
    · obtain ⟨c3, e3⟩ := aux 3 (by omega)
      obtain ⟨c4, e4⟩ := aux 4 (by omega)
      obtain ⟨c5, e5⟩ := aux 5 (by omega)
      rw [if_pos h6, e3, e4, e5]
      constructor
      · intro h
        obtain ⟨n, hn⟩ := getTimeNSec_defined h
        rw [hn]
        exact ⟨_, rfl⟩
      · intro h
        rw [getTimeNSec_ub h]
        rfl
    · rw [if_neg h6]
      constructor
      · intro h
        obtain ⟨n, hn⟩ := getTimeNSec_defined h
        rw [hn]
        exact ⟨_, rfl⟩
      · intro h
        rw [getTimeNSec_ub h]
        rfl

/-- **C117**, for storable durations: writing a trajectory as a YAML tree, to a file and as a message is defined. (Not for
all durations, `C117_always_false`.) -/
theorem C117_defined_partial (cd : Codec K S) (mc : MsgConv K M) (tr : Trajectory K) (h : ∀ s ∈ tr.segments, Storable s)
    (hN : ∀ s ∈ tr.segments, ∀ p ∈ s.polys, p.coeffs.length = s.N) (canOpen : Bool) :
    (∃ y, trajectoryToYaml cd tr = .ok y) ∧ (∃ c, segmentsToFile cd canOpen tr.segments = .ok (canOpen, c)) ∧
      ∃ b m, trajectoryToMsg mc tr = .ok (b, m) := by
  refine ⟨?_, ?_, ?_⟩
  · obtain ⟨r, hr⟩ := mapM_defined (segmentToYaml cd) tr.segments fun s hs => segmentToYaml_defined cd (h s hs)
    unfold trajectoryToYaml segmentsToYaml
    rw [hr]
    exact ⟨_, rfl⟩
  · obtain ⟨r, hr⟩ := mapM_defined (segmentToText cd) tr.segments fun s hs => segmentToText_defined cd (h s hs) (hN s hs)
    unfold segmentsToFile
    rw [hr, Res.ok_bind]
    cases canOpen
    · exact ⟨none, rfl⟩
    · exact ⟨_, rfl⟩
  · have : ∀ l : List (Segment K), (∀ s ∈ l, Storable s) → ∃ r, toMsgLoop mc [3, 4, 6] l = .ok r := by
      intro l
      induction l with
      | nil => exact fun _ => ⟨_, rfl⟩
      | cons s l ih =>
        intro hl
        rw [toMsgLoop]
        by_cases hD : s.D ∈ [3, 4, 6]
        · rw [if_neg (not_not.mpr hD)]
          obtain ⟨e, he⟩ := (eigenSegOf_defined hD).1 (hl s (by simp))
          obtain ⟨r, hr⟩ := ih fun x hx => hl x (by simp [hx])
          rw [he, Res.ok_bind, hr]
          exact ⟨_, rfl⟩
        · rw [if_pos hD]
          exact ⟨_, rfl⟩
    obtain ⟨r, hr⟩ := this tr.segments h
    unfold trajectoryToMsg
    rw [hr, Res.ok_bind]
    cases r
    · exact ⟨_, _, rfl⟩
    · exact ⟨_, _, rfl⟩

/-- **C117.** Writing a trajectory with a duration that is not storable is undefined behaviour: as a YAML tree, to a file
(even one that cannot be opened) and as a message. -/
theorem C117_outside (cd : Codec K S) (mc : MsgConv K M) (D N : ℕ) (mt : K) (pre post : List (Segment K)) (s : Segment K)
    (hpre : ∀ x ∈ pre, Storable x ∧ x.D ∈ [3, 4, 6] ∧ ∀ p ∈ x.polys, p.coeffs.length = x.N) (hD : s.D ∈ [3, 4, 6])
    (hs : ¬ Storable s) (canOpen : Bool) :
    trajectoryToYaml cd ⟨D, N, mt, pre ++ s :: post⟩ = .ub ∧ segmentsToFile cd canOpen (pre ++ s :: post) = .ub ∧
      trajectoryToMsg mc ⟨D, N, mt, pre ++ s :: post⟩ = .ub := by
  refine ⟨?_, ?_, ?_⟩
  · unfold trajectoryToYaml segmentsToYaml
    rw [mapM_first_ub (segmentToYaml cd) pre post s fun x hx => segmentToYaml_defined cd (hpre x hx).1]
    · rfl
    · unfold segmentToYaml
      rw [getTimeNSec_ub hs]
      rfl
  · unfold segmentsToFile
    rw [mapM_first_ub (segmentToText cd) pre post s fun x hx => segmentToText_defined cd (hpre x hx).1 (hpre x hx).2.2]
    · rfl
    · unfold segmentToText
      rw [getTimeNSec_ub hs]
      rfl
  · have : toMsgLoop mc [3, 4, 6] (pre ++ s :: post) = .ub := by
      induction pre with
      | nil =>
        rw [List.nil_append, toMsgLoop, if_neg (not_not.mpr hD), (eigenSegOf_defined hD).2 hs]
        rfl
      | cons x l ih =>
        obtain ⟨h1, h2, h3⟩ := hpre x (by simp)
        obtain ⟨e, he⟩ := (eigenSegOf_defined h2).1 h1
        rw [List.cons_append, toMsgLoop, if_neg (not_not.mpr h2), he, Res.ok_bind, ih fun y hy => hpre y (by simp [hy])]
        rfl
    unfold trajectoryToMsg
    rw [this]
    rfl

/-- **C117** refuted: there are trajectories, such as one with a duration of -1 s, that cannot be written at all. -/
theorem C117_always_false (cd : Codec K S) (mc : MsgConv K M) :
    ∃ tr : Trajectory K, trajectoryToYaml cd tr = .ub ∧ segmentsToFile cd true tr.segments = .ub ∧
      trajectoryToMsg mc tr = .ub := by
  refine ⟨⟨3, 1, -1, [] ++ [⟨[⟨[1]⟩, ⟨[2]⟩, ⟨[3]⟩], -1, 1⟩]⟩, C117_outside cd mc 3 1 (-1) [] [] _ (by simp) (by simp [Segment.D])
    ?_ true⟩
  intro h
  have := h.1
  norm_num at this

/-- 1.5 ns is stored as 1, -0.5 ns as 0, and -1 ns not at all. -/
example : (⟨[], 3 / (2 * 10 ^ 9), 1⟩ : Segment ℚ).getTimeNSec = .ok 1 ∧
    (⟨[], -1 / (2 * 10 ^ 9), 1⟩ : Segment ℚ).getTimeNSec = .ok 0 ∧ ¬ Storable (⟨[], -1 / 10 ^ 9, 1⟩ : Segment ℚ) := by
  refine ⟨?_, ?_, ?_⟩
  · rw [C117_nanoseconds]
    norm_num [Storable]
  · rw [C117_nanoseconds]
    norm_num [Storable]
  · norm_num [Storable]

end Verif
