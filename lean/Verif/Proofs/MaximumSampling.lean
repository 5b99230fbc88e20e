import Verif.Proofs.Trajectory
import Verif.Proofs.TrajectoryReal
import Verif.Spec.Magnitude
import Verif.Model.MaximumSampling

/- The sampling search for maxima: a closed form of what it returns. -/
namespace Verif
open Spec

set_option linter.unusedSectionVars false

/-- The index `i` of a sample is reported when looking at the samples around it. -/
noncomputable def turnList (m sl : ℝ → ℝ) (a b c : ℝ) : List ℝ :=
  if decide (m b - m a < 0) ≠ decide (m c - m b < 0) ∧ sl b < 1 / 100 then [b] else []

/-- The samples. -/
def sampleAt (tStart dt : ℝ) (i : ℕ) : ℝ := tStart + i * dt

theorem sampleAt_succ (tStart dt : ℝ) (i : ℕ) : sampleAt tStart dt i + dt = sampleAt tStart dt (i + 1) := by
  unfold sampleAt; push_cast; ring

/-- Either no step fits into the interval after the first two samples, or exactly `j + 1` do. -/
theorem steps_cases (tStart tStop dt : ℝ) (hdt : 0 < dt) :
    tStop < sampleAt tStart dt 2 ∨
      ∃ j : ℕ, sampleAt tStart dt (j + 2) ≤ tStop ∧ tStop < sampleAt tStart dt (j + 3) := by
  by_cases h : tStop < sampleAt tStart dt 2
  · exact .inl h
  · right
    rw [not_lt] at h
    have hex : ∃ j : ℕ, tStop < sampleAt tStart dt (j + 3) := by
      obtain ⟨n, hn⟩ := Archimedean.arch (tStop - tStart) hdt
      refine ⟨n, ?_⟩
      unfold sampleAt
      push_cast
      rw [nsmul_eq_mul] at hn
      nlinarith
    classical
    refine ⟨Nat.find hex, ?_, Nat.find_spec hex⟩
    rcases Nat.eq_zero_or_pos (Nat.find hex) with h0 | h0
    · rw [h0]; exact h
    · have := Nat.find_min hex (m := Nat.find hex - 1) (by omega)
      rw [show Nat.find hex - 1 + 3 = Nat.find hex + 2 by omega] at this
      exact not_lt.mp this

/-- The candidates found before the last one is added. -/
noncomputable def foundList (s : Segment ℝ) (k : ℕ) (tStart tStop dt : ℝ) (j : ℕ) : List ℝ :=
  (List.range (j + 1)).flatMap (fun l =>
        turnList (fun x => vecNorm Real.sqrt (segValue s k x))
          (fun x => vecNorm Real.sqrt (segValue s (k + 1) x)) (sampleAt tStart dt l)
          (sampleAt tStart dt (l + 1)) (sampleAt tStart dt (l + 2))) ++
      turnList (fun x => vecNorm Real.sqrt (segValue s k x))
          (fun x => vecNorm Real.sqrt (segValue s (k + 1) x)) (sampleAt tStart dt (j + 1))
          (sampleAt tStart dt (j + 2)) tStop

section
variable (s : Segment ℝ) (hs : s.WF) (k : ℕ)
include hs

theorem bySamplingLoop_step (tStop dt : ℝ) (fuel : ℕ) (t tOld : ℝ) (a : ℝ) (last : Bool) (acc : List ℝ)
    (ht : t ≤ tStop) :
    bySamplingLoop Real.sqrt s k tStop dt (fuel + 1) t tOld (segValue s k tOld)
      (vecNorm Real.sqrt (segValue s k tOld) - vecNorm Real.sqrt (segValue s k a)) last acc =
    bySamplingLoop Real.sqrt s k tStop dt fuel
      (if t + dt > tStop ∧ last = false then tStop else t + dt) t (segValue s k t)
      (vecNorm Real.sqrt (segValue s k t) - vecNorm Real.sqrt (segValue s k tOld))
      (if t + dt > tStop ∧ last = false then true else last)
      (acc ++ turnList (fun x => vecNorm Real.sqrt (segValue s k x))
        (fun x => vecNorm Real.sqrt (segValue s (k + 1) x)) a tOld t) := by
  have e := segment_evaluate_ok s hs tOld (k + 1)
  push_cast at e
  rw [bySamplingLoop, if_pos ht, segment_evaluate_ok s hs, Res.ok_bind]
  unfold turnList
  dsimp only
  by_cases hc : decide (vecNorm Real.sqrt (segValue s k tOld) - vecNorm Real.sqrt (segValue s k a) < 0) ≠
      decide (vecNorm Real.sqrt (segValue s k t) - vecNorm Real.sqrt (segValue s k tOld) < 0)
  · by_cases hw : vecNorm Real.sqrt (segValue s (k + 1) tOld) < 1 / 100
    · by_cases hl : t + dt > tStop ∧ last = false
      · simp only [if_pos hc, if_pos hw, if_pos hl, if_pos (And.intro hc hw), e, Res.ok_bind, Res.pure_eq,
          sub_add_cancel]
      · simp only [if_pos hc, if_pos hw, if_neg hl, if_pos (And.intro hc hw), e, Res.ok_bind, Res.pure_eq]
    · by_cases hl : t + dt > tStop ∧ last = false
      · simp only [if_pos hc, if_neg hw, if_pos hl, if_neg (fun x : decide (vecNorm Real.sqrt (segValue s k tOld) - vecNorm Real.sqrt (segValue s k a) < 0) ≠
          decide (vecNorm Real.sqrt (segValue s k t) - vecNorm Real.sqrt (segValue s k tOld) < 0) ∧
          vecNorm Real.sqrt (segValue s (k + 1) tOld) < 1 / 100 => hw x.2), e, Res.ok_bind, Res.pure_eq,
          sub_add_cancel, List.append_nil]
      · simp only [if_pos hc, if_neg hw, if_neg hl, if_neg (fun x : decide (vecNorm Real.sqrt (segValue s k tOld) - vecNorm Real.sqrt (segValue s k a) < 0) ≠
          decide (vecNorm Real.sqrt (segValue s k t) - vecNorm Real.sqrt (segValue s k tOld) < 0) ∧
          vecNorm Real.sqrt (segValue s (k + 1) tOld) < 1 / 100 => hw x.2), e, Res.ok_bind, Res.pure_eq,
          List.append_nil]
  · by_cases hl : t + dt > tStop ∧ last = false
    · simp only [if_neg hc, if_pos hl, if_neg (fun x : decide (vecNorm Real.sqrt (segValue s k tOld) - vecNorm Real.sqrt (segValue s k a) < 0) ≠
          decide (vecNorm Real.sqrt (segValue s k t) - vecNorm Real.sqrt (segValue s k tOld) < 0) ∧
          vecNorm Real.sqrt (segValue s (k + 1) tOld) < 1 / 100 => hc x.1), Res.ok_bind, Res.pure_eq,
          sub_add_cancel, List.append_nil]
    · simp only [if_neg hc, if_neg hl, if_neg (fun x : decide (vecNorm Real.sqrt (segValue s k tOld) - vecNorm Real.sqrt (segValue s k a) < 0) ≠
          decide (vecNorm Real.sqrt (segValue s k t) - vecNorm Real.sqrt (segValue s k tOld) < 0) ∧
          vecNorm Real.sqrt (segValue s (k + 1) tOld) < 1 / 100 => hc x.1), Res.ok_bind, Res.pure_eq,
          List.append_nil]

theorem bySamplingLoop_run (tStart tStop dt : ℝ) (hdt : 0 < dt) (j : ℕ) : ∀ (i fuel : ℕ) (acc : List ℝ),
    sampleAt tStart dt (i + j + 2) ≤ tStop → tStop < sampleAt tStart dt (i + j + 3) → j + 3 ≤ fuel →
    bySamplingLoop Real.sqrt s k tStop dt fuel (sampleAt tStart dt (i + 2)) (sampleAt tStart dt (i + 1))
      (segValue s k (sampleAt tStart dt (i + 1)))
      (vecNorm Real.sqrt (segValue s k (sampleAt tStart dt (i + 1))) -
        vecNorm Real.sqrt (segValue s k (sampleAt tStart dt i))) false acc =
    .ok (acc ++ (List.range' i (j + 1)).flatMap (fun l =>
        turnList (fun x => vecNorm Real.sqrt (segValue s k x))
          (fun x => vecNorm Real.sqrt (segValue s (k + 1) x)) (sampleAt tStart dt l)
          (sampleAt tStart dt (l + 1)) (sampleAt tStart dt (l + 2))) ++
      turnList (fun x => vecNorm Real.sqrt (segValue s k x))
          (fun x => vecNorm Real.sqrt (segValue s (k + 1) x)) (sampleAt tStart dt (i + j + 1))
          (sampleAt tStart dt (i + j + 2)) tStop) := by
  induction j with
  | zero =>
    intro i fuel acc h1 h2 hf
    obtain ⟨f, rfl⟩ : ∃ f, fuel = f + 3 := ⟨fuel - 3, by omega⟩
    rw [show f + 3 = (f + 2) + 1 from rfl, bySamplingLoop_step s hs k _ _ _ _ _ _ _ _ h1,
      if_pos ⟨by rw [sampleAt_succ]; exact h2, rfl⟩, if_pos ⟨by rw [sampleAt_succ]; exact h2, rfl⟩,
      show f + 2 = (f + 1) + 1 from rfl, bySamplingLoop_step s hs k _ _ _ _ _ _ _ _ le_rfl,
      if_neg (by simp), if_neg (by simp), bySamplingLoop, if_neg (by linarith)]
    simp
  | succ j ih =>
    intro i fuel acc h1 h2 hf
    obtain ⟨f, rfl⟩ : ∃ f, fuel = f + 1 := ⟨fuel - 1, by omega⟩
    have hmono : ∀ a b : ℕ, a ≤ b → sampleAt tStart dt a ≤ sampleAt tStart dt b := by
      intro a b hab
      unfold sampleAt
      have : (a : ℝ) * dt ≤ b * dt := mul_le_mul_of_nonneg_right (by exact_mod_cast hab) hdt.le
      linarith
    have h3 : sampleAt tStart dt (i + 2) ≤ tStop := (hmono _ _ (by omega)).trans h1
    have h4 : ¬ (sampleAt tStart dt (i + 2) + dt > tStop ∧ false = false) := by
      rintro ⟨h, -⟩
      rw [sampleAt_succ] at h
      exact absurd ((hmono (i + 2 + 1) (i + (j + 1) + 2) (by omega)).trans h1) (not_le.mpr h)
    rw [bySamplingLoop_step s hs k _ _ _ _ _ _ _ _ h3, if_neg h4, if_neg h4, sampleAt_succ]
    rw [show i + 2 + 1 = (i + 1) + 2 from rfl, show i + 2 = (i + 1) + 1 from rfl,
      ih (i + 1) f _ (by rw [show i + 1 + j + 2 = i + (j + 1) + 2 by omega]; exact h1)
        (by rw [show i + 1 + j + 3 = i + (j + 1) + 3 by omega]; exact h2) (by omega),
      show i + 1 + j + 1 = i + (j + 1) + 1 by omega, show i + 1 + j + 2 = i + (j + 1) + 2 by omega,
      List.range'_succ (s := i) (n := j + 1), List.flatMap_cons]
    simp only [List.append_assoc]

theorem candidatesBySampling_ok (tStart tStop dt : ℝ) (hdt : 0 < dt) (fuel : ℕ) (acc : List ℝ)
    (l : List ℝ) (hl : tStop < sampleAt tStart dt 2 ∧ l = [] ∧ 1 ≤ fuel ∨
      ∃ j : ℕ, sampleAt tStart dt (j + 2) ≤ tStop ∧ tStop < sampleAt tStart dt (j + 3) ∧
        l = foundList s k tStart tStop dt j ∧ j + 3 ≤ fuel) :
    candidatesBySampling fuel Real.sqrt s k tStart tStop dt acc =
      .ok (acc ++ if (tStart :: l).getLast? ≠ some tStop then tStart :: l ++ [tStop] else tStart :: l) := by
  have h0 : sampleAt tStart dt 0 = tStart := by simp [sampleAt]
  have h1 : tStart + dt = sampleAt tStart dt 1 := by simp [sampleAt]
  have h2 : sampleAt tStart dt 1 + dt = sampleAt tStart dt 2 := sampleAt_succ _ _ _
  have hrun : bySamplingLoop Real.sqrt s k tStop dt fuel (sampleAt tStart dt 2) (sampleAt tStart dt 1)
      (segValue s k (sampleAt tStart dt 1))
      (vecNorm Real.sqrt (segValue s k (sampleAt tStart dt 1)) - vecNorm Real.sqrt (segValue s k tStart))
      false (acc ++ [tStart]) = .ok (acc ++ (tStart :: l)) := by
    rcases hl with ⟨hlt, rfl, hf⟩ | ⟨j, ha, hb, rfl, hf⟩
    · obtain ⟨f, rfl⟩ : ∃ f, fuel = f + 1 := ⟨fuel - 1, by omega⟩
      rw [bySamplingLoop, if_neg (not_le.mpr hlt)]
    · have := bySamplingLoop_run s hs k tStart tStop dt hdt j 0 fuel (acc ++ [tStart])
        (by rw [Nat.zero_add]; exact ha) (by rw [Nat.zero_add]; exact hb) hf
      rw [h0] at this
      rw [this, foundList, List.range_eq_range', Nat.zero_add]
      simp only [List.append_assoc, List.cons_append, List.nil_append]
  unfold candidatesBySampling
  rw [segment_evaluate_ok s hs, Res.ok_bind, segment_evaluate_ok s hs, Res.ok_bind, h1, h2, hrun,
    Res.ok_bind, Res.pure_eq, List.getLast?_append_of_ne_nil _ (by simp)]
  split_ifs <;> simp

end

theorem mem_turnList {m sl : ℝ → ℝ} {a b c x : ℝ} : x ∈ turnList m sl a b c ↔
    x = b ∧ ¬ (m b < m a ↔ m c < m b) ∧ sl b < 1 / 100 := by
  unfold turnList
  simp only [sub_neg]
  split_ifs with h
  · simp only [ne_eq, decide_eq_decide] at h
    simp only [List.mem_singleton, h, not_false_eq_true, and_true]
  · simp only [ne_eq, decide_eq_decide] at h
    simp only [List.not_mem_nil, false_iff]
    rintro ⟨-, h'⟩
    exact h h'

theorem turnList_pairwise (m sl : ℝ → ℝ) (a b c : ℝ) : (turnList m sl a b c).Pairwise (· < ·) := by
  unfold turnList
  split_ifs <;> simp

theorem pairwise_add_last {l : List ℝ} {T : ℝ} (h : l.Pairwise (· < ·)) (hT : ∀ x ∈ l, x ≤ T)
    (hl : l.getLast? ≠ some T) : (l ++ [T]).Pairwise (· < ·) := by
  rw [List.pairwise_append]
  refine ⟨h, by simp, ?_⟩
  intro x hx y hy
  rw [List.mem_singleton] at hy
  subst hy
  refine lt_of_le_of_ne (hT x hx) ?_
  rintro rfl
  apply hl
  obtain ⟨a, b, rfl⟩ := List.append_of_mem hx
  cases b with
  | nil => simp
  | cons z b =>
    rw [List.pairwise_append] at h
    have h1 := (List.pairwise_cons.mp h.2.1).1 z (by simp)
    exact absurd (hT z (by simp)) (not_le.mpr h1)

theorem mem_foundList (s : Segment ℝ) (k : ℕ) (tStart tStop dt : ℝ) (j : ℕ) (x : ℝ) :
    x ∈ foundList s k tStart tStop dt j ↔
      (∃ l, l ≤ j ∧ x ∈ turnList (fun x => vecNorm Real.sqrt (segValue s k x))
          (fun x => vecNorm Real.sqrt (segValue s (k + 1) x)) (sampleAt tStart dt l)
          (sampleAt tStart dt (l + 1)) (sampleAt tStart dt (l + 2))) ∨
      x ∈ turnList (fun x => vecNorm Real.sqrt (segValue s k x))
          (fun x => vecNorm Real.sqrt (segValue s (k + 1) x)) (sampleAt tStart dt (j + 1))
          (sampleAt tStart dt (j + 2)) tStop := by
  unfold foundList
  rw [List.mem_append, List.mem_flatMap]
  simp only [List.mem_range, Nat.lt_succ_iff]

theorem sampleAt_lt {tStart dt : ℝ} (hdt : 0 < dt) {a b : ℕ} (h : a < b) :
    sampleAt tStart dt a < sampleAt tStart dt b := by
  unfold sampleAt
  have : (a : ℝ) * dt < b * dt := mul_lt_mul_of_pos_right (by exact_mod_cast h) hdt
  linarith

theorem foundList_pairwise (s : Segment ℝ) (k : ℕ) (tStart tStop dt : ℝ) (hdt : 0 < dt) (j : ℕ) :
    (tStart :: foundList s k tStart tStop dt j).Pairwise (· < ·) := by
  rw [List.pairwise_cons]
  constructor
  · intro x hx
    have h0 : sampleAt tStart dt 0 = tStart := by simp [sampleAt]
    rw [← h0]
    rw [mem_foundList] at hx
    rcases hx with ⟨l, _, hx⟩ | hx
    · rw [(mem_turnList.mp hx).1]; exact sampleAt_lt hdt (by omega)
    · rw [(mem_turnList.mp hx).1]; exact sampleAt_lt hdt (by omega)
  · unfold foundList
    rw [List.pairwise_append]
    refine ⟨?_, turnList_pairwise _ _ _ _ _, ?_⟩
    · rw [List.pairwise_flatMap]
      refine ⟨fun l _ => turnList_pairwise _ _ _ _ _, ?_⟩
      refine (List.pairwise_lt_range (n := j + 1)).imp ?_
      intro a b hab x hx y hy
      rw [(mem_turnList.mp hx).1, (mem_turnList.mp hy).1]
      exact sampleAt_lt hdt (by omega)
    · intro x hx y hy
      rw [List.mem_flatMap] at hx
      obtain ⟨l, hl, hx⟩ := hx
      rw [List.mem_range] at hl
      rw [(mem_turnList.mp hx).1, (mem_turnList.mp hy).1]
      exact sampleAt_lt hdt (by omega)

theorem bySamplingLoop_more {sq : ℝ → ℝ} {s : Segment ℝ} {d : ℤ} {tStop dt : ℝ} (extra : ℕ) :
    ∀ {fuel : ℕ} {t tOld : ℝ} {v : List ℝ} {dir : ℝ} {last : Bool} {acc r : List ℝ},
      bySamplingLoop sq s d tStop dt fuel t tOld v dir last acc = .ok r →
      bySamplingLoop sq s d tStop dt (fuel + extra) t tOld v dir last acc = .ok r := by
  intro fuel
  induction fuel with
  | zero => intro t tOld v dir last acc r h; simp [bySamplingLoop] at h
  | succ n ih =>
    intro t tOld v dir last acc r h
    rw [show n + 1 + extra = (n + extra) + 1 by omega]
    rw [bySamplingLoop] at h ⊢
    by_cases hc : t ≤ tStop
    · rw [if_pos hc] at h ⊢
      rw [Res.bind_eq_ok] at h ⊢
      obtain ⟨w, hw, h⟩ := h
      refine ⟨w, hw, ?_⟩
      dsimp only at h ⊢
      by_cases hd : decide (dir < 0) ≠ decide (vecNorm sq w - vecNorm sq v < 0)
      · rw [if_pos hd, Res.bind_eq_ok] at h ⊢
        obtain ⟨a, ha, h⟩ := h
        refine ⟨a, ha, ?_⟩
        rw [Res.pure_eq, Res.ok_bind] at h ⊢
        by_cases hl : t + dt > tStop ∧ last = false
        · rw [if_pos hl] at h ⊢; exact ih h
        · rw [if_neg hl] at h ⊢; exact ih h
      · rw [if_neg hd, Res.pure_eq, Res.ok_bind] at h ⊢
        by_cases hl : t + dt > tStop ∧ last = false
        · rw [if_pos hl] at h ⊢; exact ih h
        · rw [if_neg hl] at h ⊢; exact ih h
    · rw [if_neg hc] at h ⊢; exact h

theorem candidatesBySampling_more {sq : ℝ → ℝ} {s : Segment ℝ} {d : ℤ} {tStart tStop dt : ℝ}
    {fuel : ℕ} {acc r : List ℝ} (h : candidatesBySampling fuel sq s d tStart tStop dt acc = .ok r)
    (extra : ℕ) : candidatesBySampling (fuel + extra) sq s d tStart tStop dt acc = .ok r := by
  unfold candidatesBySampling at h ⊢
  rw [Res.bind_eq_ok] at h ⊢
  obtain ⟨a, ha, h⟩ := h
  refine ⟨a, ha, ?_⟩
  rw [Res.bind_eq_ok] at h ⊢
  obtain ⟨b, hb, h⟩ := h
  refine ⟨b, hb, ?_⟩
  rw [Res.bind_eq_ok] at h ⊢
  obtain ⟨c, hc, h⟩ := h
  exact ⟨c, bySamplingLoop_more extra hc, h⟩

/-- With a step that is not positive the loop is never left. -/
theorem bySamplingLoop_hang (s : Segment ℝ) (hs : s.WF) (k : ℕ) (tStop dt : ℝ) (hdt : dt ≤ 0) (fuel : ℕ) :
    ∀ (t tOld a : ℝ) (acc : List ℝ), t ≤ tStop →
      bySamplingLoop Real.sqrt s k tStop dt fuel t tOld (segValue s k tOld)
        (vecNorm Real.sqrt (segValue s k tOld) - vecNorm Real.sqrt (segValue s k a)) false acc = .hang := by
  induction fuel with
  | zero => intro t tOld a acc _; rfl
  | succ n ih =>
    intro t tOld a acc ht
    have hn : ¬ (t + dt > tStop ∧ false = false) := fun h => by linarith [h.1]
    rw [bySamplingLoop_step s hs k _ _ _ _ _ _ _ _ ht, if_neg hn, if_neg hn]
    exact ih _ _ _ _ (by linarith)

end Verif
