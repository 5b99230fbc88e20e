import Verif.Proofs.MaximumSampling

/-
C86: the candidates for the maximum magnitude of a segment found by sampling.
-/
namespace Verif
open Spec

theorem vecNorm_segValue (s : Segment ℝ) (k : ℕ) (t : ℝ) :
    vecNorm Real.sqrt (segValue s k t) = magnitude s.polys (List.range s.D) k t := by
  unfold vecNorm magnitude
  rw [segValue_eq_valuesAt]
  have hl : s.D = (valuesAt s.polys k t).length := by simp [valuesAt, Segment.D]
  rw [hl]
  congr 2
  apply List.ext_getElem (by simp)
  intro i h1 h2
  simp only [List.getElem_map, List.getElem_range]
  rw [List.getD_eq_getElem?_getD, List.getElem?_eq_getElem (by simpa using h1), Option.getD_some]

/-- **C86**, but for the last claim. The candidates are appended to what the vector held. They are in ascending order without repetition,
begin with the start and end with the end of the interval; the others are exactly the samples
`t_start + i dt` at which the sampled magnitudes change between rising and falling (seen from the
neighbouring samples; the end of the interval follows on the last sample) and at which the vector of
the next derivative is shorter than 0.01. -/
theorem C86_candidates_partial (s : Segment ℝ) (hs : s.WF) (k : ℕ) (tStart tStop dt : ℝ) (hdt : 0 < dt)
    (hle : tStart ≤ tStop) (fuel : ℕ) (acc r : List ℝ)
    (h : candidatesBySampling fuel Real.sqrt s k tStart tStop dt acc = .ok r) :
    ∃ found, r = acc ++ found ∧ found.Pairwise (· < ·) ∧ found.head? = some tStart ∧
      found.getLast? = some tStop ∧
      ∀ t, t ∈ found ↔ t = tStart ∨ t = tStop ∨
        ∃ i : ℕ, 1 ≤ i ∧ t = tStart + i * dt ∧ magnitude s.polys (List.range s.D) (k + 1) t < 1 / 100 ∧
          (t + dt ≤ tStop ∧ Turns (magnitude s.polys (List.range s.D) k) (t - dt) t (t + dt) ∨
            2 ≤ i ∧ t ≤ tStop ∧ tStop < t + dt ∧
              Turns (magnitude s.polys (List.range s.D) k) (t - dt) t tStop) := by
  have hback : ∀ i : ℕ, sampleAt tStart dt (i + 1) - dt = sampleAt tStart dt i := by
    intro i; rw [← sampleAt_succ]; ring
  have hmono : ∀ a b : ℕ, a ≤ b → sampleAt tStart dt a ≤ sampleAt tStart dt b := by
    intro a b hab
    rcases hab.lt_or_eq with h | rfl
    · exact (sampleAt_lt hdt h).le
    · exact le_rfl
  -- the closed form, for enough fuel; less fuel gives a hang
  obtain ⟨l, hlr, hsort, hbd, hmem⟩ : ∃ l : List ℝ,
      r = acc ++ (if (tStart :: l).getLast? ≠ some tStop then tStart :: l ++ [tStop] else tStart :: l) ∧
      (tStart :: l).Pairwise (· < ·) ∧ (∀ x ∈ tStart :: l, x ≤ tStop) ∧
      (∀ t, t ∈ l ↔ ∃ i : ℕ, 1 ≤ i ∧ t = tStart + i * dt ∧
          magnitude s.polys (List.range s.D) (k + 1) t < 1 / 100 ∧
          (t + dt ≤ tStop ∧ Turns (magnitude s.polys (List.range s.D) k) (t - dt) t (t + dt) ∨
            2 ≤ i ∧ t ≤ tStop ∧ tStop < t + dt ∧
              Turns (magnitude s.polys (List.range s.D) k) (t - dt) t tStop)) := by
    have hfuel : ∀ extra : ℕ, candidatesBySampling (fuel + extra) Real.sqrt s k tStart tStop dt acc = .ok r :=
      fun extra => candidatesBySampling_more h extra
    rcases steps_cases tStart tStop dt hdt with hlt | ⟨j, ha, hb⟩
    · have := candidatesBySampling_ok s hs k tStart tStop dt hdt (fuel + 1) acc []
        (.inl ⟨hlt, rfl, by omega⟩)
      rw [hfuel 1] at this
      injection this with this
      refine ⟨[], this, by simp, by simpa using hle, ?_⟩
      intro t
      simp only [List.not_mem_nil, false_iff, not_exists]
      rintro i ⟨hi, ht, -, h | h⟩
      · have h1 := hmono 1 i hi
        have h2 := sampleAt_succ tStart dt 1
        have : t = sampleAt tStart dt i := ht
        rw [this] at h
        linarith [h.1]
      · have h1 := hmono 2 i h.1
        have : t = sampleAt tStart dt i := ht
        rw [this] at h
        linarith [h.2.1]
    · have := candidatesBySampling_ok s hs k tStart tStop dt hdt (fuel + (j + 3)) acc _
        (.inr ⟨j, ha, hb, rfl, by omega⟩)
      rw [hfuel] at this
      injection this with this
      have hm : ∀ t, t ∈ foundList s k tStart tStop dt j ↔ ∃ i : ℕ, 1 ≤ i ∧ t = tStart + i * dt ∧
          magnitude s.polys (List.range s.D) (k + 1) t < 1 / 100 ∧
          (t + dt ≤ tStop ∧ Turns (magnitude s.polys (List.range s.D) k) (t - dt) t (t + dt) ∨
            2 ≤ i ∧ t ≤ tStop ∧ tStop < t + dt ∧
              Turns (magnitude s.polys (List.range s.D) k) (t - dt) t tStop) := by
        intro t
        rw [mem_foundList]
        simp only [mem_turnList, vecNorm_segValue]
        constructor
        · rintro (⟨l, hl, rfl, h1, h2⟩ | ⟨rfl, h1, h2⟩)
          · refine ⟨l + 1, by omega, rfl, h2, .inl ⟨?_, ?_⟩⟩
            · rw [sampleAt_succ]; exact (hmono _ _ (by omega)).trans ha
            · rw [sampleAt_succ, hback]; exact h1
          · refine ⟨j + 2, by omega, rfl, h2, .inr ⟨by omega, ha, ?_, ?_⟩⟩
            · rw [sampleAt_succ]; exact hb
            · rw [hback]; exact h1
        · rintro ⟨i, hi, ht, h2, h | h⟩
          · left
            obtain ⟨l, rfl⟩ : ∃ l, i = l + 1 := ⟨i - 1, by omega⟩
            have ht' : t = sampleAt tStart dt (l + 1) := ht
            subst ht'
            rw [sampleAt_succ, hback] at h
            refine ⟨l, ?_, rfl, h.2, h2⟩
            by_contra hc
            have := hmono (j + 3) (l + 1 + 1) (by omega)
            linarith [h.1]
          · right
            obtain ⟨l, rfl⟩ : ∃ l, i = l + 1 := ⟨i - 1, by omega⟩
            have ht' : t = sampleAt tStart dt (l + 1) := ht
            subst ht'
            rw [sampleAt_succ, hback] at h
            have : l = j + 1 := by
              by_contra hc
              rcases Nat.lt_or_ge l (j + 1) with hlt | hge
              · have := hmono (l + 1 + 1) (j + 2) (by omega)
                linarith [h.2.2.1]
              · have := hmono (j + 3) (l + 1) (by omega)
                linarith [h.2.1]
            subst this
            exact ⟨rfl, h.2.2.2, h2⟩
      refine ⟨_, this, foundList_pairwise s k tStart tStop dt hdt j, ?_, hm⟩
      intro x hx
      rw [List.mem_cons] at hx
      rcases hx with rfl | hx
      · exact hle
      · obtain ⟨i, _, _, _, h | h⟩ := (hm x).mp hx
        · linarith [h.1]
        · exact h.2.1
  refine ⟨_, hlr, ?_, ?_, ?_, ?_⟩
  · split_ifs with hc
    · exact pairwise_add_last hsort hbd hc
    · exact hsort
  · split_ifs <;> rfl
  · split_ifs with hc
    · rw [List.getLast?_append_of_ne_nil _ (by simp)]; rfl
    · exact not_not.mp hc
  · intro t
    split_ifs with hc
    · rw [List.mem_append, List.mem_singleton, List.mem_cons, hmem, or_assoc, or_comm (a := ∃ _, _)]
    · rw [List.mem_cons, hmem]
      constructor
      · rintro (h | h)
        · exact .inl h
        · exact .inr (.inr h)
      · rintro (h | rfl | h)
        · exact .inl h
        · have := List.mem_of_getLast? (not_not.mp hc)
          rw [List.mem_cons, hmem] at this
          exact this
        · exact .inr h

/-- **C86.** With a positive step the function returns. -/
theorem C86_returns_partial (s : Segment ℝ) (hs : s.WF) (k : ℕ) (tStart tStop dt : ℝ) (hdt : 0 < dt)
    (acc : List ℝ) : ∃ fuel r, candidatesBySampling fuel Real.sqrt s k tStart tStop dt acc = .ok r := by
  rcases steps_cases tStart tStop dt hdt with hlt | ⟨j, ha, hb⟩
  · exact ⟨1, _, candidatesBySampling_ok s hs k tStart tStop dt hdt 1 acc [] (.inl ⟨hlt, rfl, le_rfl⟩)⟩
  · exact ⟨j + 3, _, candidatesBySampling_ok s hs k tStart tStop dt hdt (j + 3) acc _
      (.inr ⟨j, ha, hb, rfl, le_rfl⟩)⟩

/-- With a step that is zero or negative the function does not return (unless the interval ends before
the sample two steps after the start). -/
theorem C86_step_false (s : Segment ℝ) (hs : s.WF) (k : ℕ) (tStart tStop dt : ℝ) (hdt : dt ≤ 0)
    (hle : tStart + dt + dt ≤ tStop) (fuel : ℕ) (acc : List ℝ) :
    candidatesBySampling fuel Real.sqrt s k tStart tStop dt acc = .hang := by
  unfold candidatesBySampling
  rw [segment_evaluate_ok s hs, Res.ok_bind, segment_evaluate_ok s hs, Res.ok_bind,
    bySamplingLoop_hang s hs k tStop dt hdt fuel _ _ _ _ hle]
  rfl

/-- A planar segment: `x = 10 t - 10 t²`, `y = t`, for one second. -/
def exBulge : Segment ℝ := ⟨[⟨[0, 10, -10]⟩, ⟨[0, 1, 0]⟩], 1, 3⟩

theorem exBulge_wf : exBulge.WF :=
  ⟨by intro p hp; simp only [exBulge, List.mem_cons, List.not_mem_nil, or_false] at hp
      rcases hp with rfl | rfl <;> rfl, by norm_num [exBulge, kMaxConvolutionSize]⟩

theorem exBulge_value (t : ℝ) : segValue exBulge 0 t = [10 * t - 10 * t ^ 2, t] := by
  simp only [segValue, exBulge, List.map_cons, List.map_nil]
  norm_num [derivAt, ofCoeffs, Finset.sum_range_succ]
  ring

theorem exBulge_slope (t : ℝ) : segValue exBulge 1 t = [10 - 20 * t, 1] := by
  simp only [segValue, exBulge, List.map_cons, List.map_nil]
  norm_num [derivAt, ofCoeffs, Finset.sum_range_succ]
  ring

/-- However small the step, the maximum can be missed: the next derivative does not vanish where the
magnitude of a vector is largest. Here the candidates are the ends of the interval only, where the
magnitude is at most 1, although it exceeds 2 in the middle. -/
theorem C86_maximum_false (dt : ℝ) (hdt : 0 < dt) (fuel : ℕ) (r : List ℝ)
    (h : candidatesBySampling fuel Real.sqrt exBulge (0 : ℕ) 0 exBulge.time dt [] = .ok r) :
    (∀ t ∈ r, magnitude exBulge.polys (List.range exBulge.D) 0 t ≤ 1) ∧
      2 < magnitude exBulge.polys (List.range exBulge.D) 0 (1 / 2) := by
  have hv : ∀ t, magnitude exBulge.polys (List.range exBulge.D) 0 t =
      Real.sqrt ((10 * t - 10 * t ^ 2) ^ 2 + t ^ 2) := by
    intro t
    rw [← vecNorm_segValue, exBulge_value]
    simp [vecNorm]
  constructor
  · obtain ⟨found, rfl, -, -, -, hm⟩ := C86_candidates_partial exBulge exBulge_wf 0 0 exBulge.time dt hdt
      (by norm_num [exBulge]) fuel [] r h
    intro t ht
    rw [hm] at ht
    rcases ht with rfl | rfl | ⟨i, -, -, hsl, -⟩
    · rw [hv]; norm_num
    · rw [hv]; norm_num [exBulge]
    · exfalso
      rw [← vecNorm_segValue, exBulge_slope] at hsl
      have : (1 : ℝ) ≤ vecNorm Real.sqrt [10 - 20 * t, 1] := by
        unfold vecNorm
        rw [Real.one_le_sqrt]
        simp only [List.map_cons, List.map_nil, List.sum_cons, List.sum_nil]
        nlinarith [sq_nonneg (10 - 20 * t)]
      linarith
  · rw [hv, Real.lt_sqrt (by norm_num)]
    norm_num

/-- A segment in one dimension with a maximum in its middle: `x = t - t²`. -/
def exHill : Segment ℝ := ⟨[⟨[0, 1, -1]⟩], 1, 3⟩

theorem exHill_wf : exHill.WF :=
  ⟨by intro p hp; simp only [exHill, List.mem_cons, List.not_mem_nil, or_false] at hp
      subst hp; rfl, by norm_num [exHill, kMaxConvolutionSize]⟩

/-- The hypotheses can be met, and a maximum at a sample is found. -/
example : ∃ fuel found, candidatesBySampling fuel Real.sqrt exHill (0 : ℕ) 0 1 (1 / 4) [7] =
    .ok ([7] ++ found) ∧ 1 / 2 ∈ found := by
  obtain ⟨fuel, r, h⟩ := C86_returns_partial exHill exHill_wf 0 0 1 (1 / 4) (by norm_num) [7]
  obtain ⟨found, rfl, -, -, -, hm⟩ := C86_candidates_partial exHill exHill_wf 0 0 1 (1 / 4) (by norm_num)
    (by norm_num) fuel [7] r h
  refine ⟨fuel, found, h, (hm _).mpr (.inr (.inr ⟨2, by norm_num, by norm_num, ?_, .inl ⟨by norm_num, ?_⟩⟩))⟩
  · rw [← vecNorm_segValue]
    norm_num [segValue, exHill, vecNorm, derivAt, ofCoeffs, Finset.sum_range_succ]
  · unfold Turns
    simp only [← vecNorm_segValue]
    have e : ∀ t, vecNorm Real.sqrt (segValue exHill 0 t) = |t - t ^ 2| := by
      intro t
      rw [← Real.sqrt_sq_eq_abs]
      simp only [segValue, exHill, vecNorm, derivAt, ofCoeffs, Finset.sum_range_succ, List.map_cons,
        List.map_nil, List.sum_cons, List.sum_nil]
      norm_num [Finset.sum_range_succ, sub_eq_add_neg]
    rw [e, e, e]
    norm_num [abs_of_pos]

/-- The refutation of returning for steps that are not positive concerns real calls. -/
example : exHill.WF ∧ ((0 : ℝ) + 0 + 0 ≤ exHill.time) := ⟨exHill_wf, by norm_num [exHill]⟩

/-- The search on the planar segment does return. -/
example : ∃ fuel r, candidatesBySampling fuel Real.sqrt exBulge (0 : ℕ) 0 exBulge.time (1 / 100) [] = .ok r :=
  C86_returns_partial exBulge exBulge_wf 0 0 _ _ (by norm_num) []

end Verif
