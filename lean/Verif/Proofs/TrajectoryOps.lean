import Verif.Proofs.Trajectory
import Mathlib.Tactic.FieldSimp

/- Helper lemmas: the operations that modify or combine trajectories. -/
set_option linter.unusedSectionVars false

namespace Verif

open Polynomial Spec

variable {K : Type} [Field K] [LinearOrder K] [IsStrictOrderedRing K]

/-! #### bookkeeping -/

/-- The bookkeeping part of well-formedness. -/
def Book (tr : Trajectory K) : Prop :=
  tr.maxTime = tr.getSegmentTimes.sum ∧ ∀ s ∈ tr.segments, s.D = tr.D ∧ s.N = tr.N

theorem book_addSegments {tr r : Trajectory K} {segs} (h : Book tr) (hr : tr.addSegments segs = .ok r) :
    Book r := by
  rw [addSegments_ok_iff] at hr
  obtain ⟨h1, rfl⟩ := hr
  refine ⟨?_, ?_⟩
  · simp only [Trajectory.getSegmentTimes, List.map_append, List.sum_append]
    rw [h.1]; rfl
  · intro s hs
    rcases List.mem_append.mp hs with hs | hs
    · exact h.2 s hs
    · exact h1 s hs

theorem book_setSegments {r : Trajectory K} {segs} (hr : Trajectory.setSegments segs = .ok r) :
    Book r := by
  rw [setSegments_ok_iff] at hr
  obtain ⟨_, h1, h2, h3⟩ := hr
  refine ⟨?_, ?_⟩
  · rw [h3, Trajectory.getSegmentTimes, h2]
  · rw [h2]; exact h1

theorem book_addTrajectoriesLoop {D N : ℕ} {ts : List (Trajectory K)} {m r : Trajectory K} {b}
    (h : Book m) (hr : addTrajectoriesLoop D N ts m = .ok (b, r)) : Book r := by
  induction ts generalizing m with
  | nil => simp only [addTrajectoriesLoop, Res.ok.injEq, Prod.mk.injEq] at hr; rw [← hr.2]; exact h
  | cons t ts ih =>
    unfold addTrajectoriesLoop at hr
    split at hr
    · simp only [Res.ok.injEq, Prod.mk.injEq] at hr; rw [← hr.2]; exact h
    · rw [Res.bind_eq_ok] at hr
      obtain ⟨m', h1, h2⟩ := hr
      exact ih (book_addSegments h h1) h2

theorem scaleTime_D (s : Segment K) (c : K) : (s.scaleTime c).D = s.D := by
  simp [Segment.scaleTime, Segment.D]

theorem scaleCore_times (tr : Trajectory K) (c : K) :
    (tr.scaleCore c).getSegmentTimes = tr.getSegmentTimes.map (· * c) := by
  simp [Trajectory.scaleCore, Trajectory.getSegmentTimes, Segment.scaleTime]

theorem book_scaleCore {tr : Trajectory K} (c : K) (h : Book tr) : Book (tr.scaleCore c) := by
  refine ⟨?_, ?_⟩
  · unfold Trajectory.scaleCore Trajectory.getSegmentTimes
    simp only
    rw [foldl_add_eq_list_sum, zero_add]
  · intro s hs
    simp only [Trajectory.scaleCore, List.mem_map] at hs
    obtain ⟨s', hs', rfl⟩ := hs
    exact ⟨(scaleTime_D s' c).trans (h.2 s' hs').1, (h.2 s' hs').2⟩

theorem offset_time (s : Segment K) (o : List K) : (s.offset o).2.time = s.time := by
  unfold Segment.offset; split <;> rfl

theorem offset_segN (s : Segment K) (o : List K) : (s.offset o).2.N = s.N := by
  unfold Segment.offset; split <;> rfl

theorem offset_D (s : Segment K) (o : List K) : (s.offset o).2.D = s.D := by
  unfold Segment.offset
  split
  · rfl
  · next h =>
    simp only [Segment.D, offsetPolys, List.length_append, List.length_zipWith, List.length_take,
      List.length_drop] at *
    omega

theorem offsetLoop_segments (o : List K) (segs : List (Segment K)) :
    (offsetLoop o segs).2.map (·.time) = segs.map (·.time) ∧
    (offsetLoop o segs).2.map (fun s => (s.D, s.N)) = segs.map (fun s => (s.D, s.N)) := by
  induction segs with
  | nil => simp [offsetLoop]
  | cons s ss ih =>
    unfold offsetLoop
    simp only
    split
    · simp [offset_time, offset_segN, offset_D, ih.1, ih.2]
    · simp [offset_time, offset_segN, offset_D]

theorem book_offset {tr : Trajectory K} (o : List K) (h : Book tr) : Book (tr.offset o).2 := by
  unfold Trajectory.offset
  split
  · exact h
  · simp only
    have hl := offsetLoop_segments o tr.segments
    refine ⟨?_, ?_⟩
    · simp only [Trajectory.getSegmentTimes, hl.1]; exact h.1
    · intro s hs
      have : (s.D, s.N) ∈ (offsetLoop o tr.segments).2.map (fun s => (s.D, s.N)) :=
        List.mem_map.mpr ⟨s, hs, rfl⟩
      rw [hl.2] at this
      obtain ⟨s', hs', he⟩ := List.mem_map.mp this
      simp only [Prod.mk.injEq] at he
      have := h.2 s' hs'
      exact ⟨he.1.symm.trans this.1, he.2.symm.trans this.2⟩

theorem reachable_book {tr : Trajectory K} (h : Reachable tr) : Book tr := by
  induction h with
  | default => exact ⟨rfl, by simp [Trajectory.empty]⟩
  | setSegments h => exact book_setSegments h
  | addSegments _ h ih => exact book_addSegments ih h
  | scale c _ ih =>
    unfold Trajectory.scaleSegmentTimes
    split
    · exact ih
    · exact book_scaleCore c ih
  | offset o _ ih => exact book_offset o ih
  | addTrajectories _ h ih => exact book_addTrajectoriesLoop ih h
  | addTrajectoriesAliased _ h ih =>
    exact book_addTrajectoriesLoop ⟨rfl, by simp [Trajectory.empty]⟩ h
  | single _ h _ =>
    unfold Trajectory.withSingleDimension at h
    rw [Res.bind_eq_ok] at h
    obtain ⟨_, _, h⟩ := h
    rw [Res.bind_eq_ok] at h
    obtain ⟨_, _, h⟩ := h
    exact book_setSegments h
  | append _ _ h ih1 ih2 =>
    unfold Trajectory.withAppendedDimension at h
    split at h
    · simp only [Res.ok.injEq, Option.some.injEq] at h; rw [← h]; exact ih2
    · split at h
      · simp only [Res.ok.injEq, Option.some.injEq] at h; rw [← h]; exact ih1
      · rw [Res.bind_eq_ok] at h
        obtain ⟨_, _, h⟩ := h
        split at h
        · simp at h
        · rw [Res.bind_eq_ok] at h
          obtain ⟨r, h1, h2⟩ := h
          simp only [Res.pure_eq, Res.ok.injEq, Option.some.injEq] at h2
          rw [← h2]; exact book_setSegments h1

/-! #### scaling -/

theorem findSegment_scale (c : K) (hc : 0 < c) (t : K) (segs : List (Segment K)) (acc : K) (i : ℕ) :
    findSegment (c * t) (segs.map fun s => s.scaleTime c) (c * acc) i =
      ((findSegment t segs acc i).1, c * (findSegment t segs acc i).2) := by
  induction segs generalizing acc i with
  | nil => simp [findSegment]
  | cons s ss ih =>
    simp only [List.map_cons]
    unfold findSegment
    have e : c * acc + (s.scaleTime c).time = c * (acc + s.time) := by
      simp [Segment.scaleTime]; ring
    rw [e]
    by_cases h : acc + s.time > t
    · rw [if_pos h, if_pos (mul_lt_mul_of_pos_left h hc)]
    · rw [if_neg h, if_neg (by
        intro h'; exact h (lt_of_mul_lt_mul_left h' hc.le))]
      exact ih _ _

theorem segment_WF_scaleTime {s : Segment K} (h : s.WF) (c : K) : (s.scaleTime c).WF := by
  refine ⟨?_, h.small⟩
  intro p hp
  simp only [Segment.scaleTime, List.mem_map] at hp
  obtain ⟨q, hq, rfl⟩ := hp
  rw [scaleInTime_coeffs_length]
  exact h.polysN q hq

theorem segValue_scaleTime (s : Segment K) (c : K) (hc : c ≠ 0) (k : ℕ) (t : K) :
    segValue (s.scaleTime c) k (c * t) = (segValue s k t).map (· / c ^ k) := by
  simp only [segValue, Segment.scaleTime, List.map_map]
  apply List.map_congr_left
  intro p _
  simp only [Function.comp_apply, derivAt_scaleInTime]
  rw [show 1 / c * (c * t) = t by field_simp]
  rw [one_div, inv_pow, div_eq_inv_mul]

theorem evaluate_scaleCore (tr : Trajectory K) (hwf : ∀ s ∈ tr.segments, s.WF) (c : K) (hc : 0 < c)
    (t : K) (k : ℕ) :
    (tr.scaleCore c).evaluate (c * t) k = (fun v => v.map (· / c ^ k)) <$> tr.evaluate t k := by
  have hf := findSegment_scale c hc t tr.segments 0 0
  rw [mul_zero] at hf
  unfold Trajectory.evaluate Trajectory.scaleCore
  simp only [hf, List.length_map]
  set r := findSegment t tr.segments 0 0 with hr
  by_cases h : t > r.2
  · rw [if_pos (mul_lt_mul_of_pos_left h hc), if_pos h]
    simp
  · rw [if_neg (fun h' => h (lt_of_mul_lt_mul_left h' hc.le)), if_neg h]
    set i := if r.1 ≥ tr.segments.length then tr.segments.length - 1 else r.1 with hi
    by_cases hlt : i < tr.segments.length
    · rw [Res.at'_of_lt (by simpa using hlt), Res.at'_of_lt hlt, Res.ok_bind, Res.ok_bind]
      simp only [List.getElem_map]
      set s := tr.segments[i] with hs
      have hw : s.WF := hwf s (List.getElem_mem hlt)
      have e : c * t - (c * r.2 - (s.scaleTime c).time) = c * (t - (r.2 - s.time)) := by
        simp [Segment.scaleTime]; ring
      rw [e, segment_evaluate_ok _ (segment_WF_scaleTime hw c), segment_evaluate_ok _ hw, Res.map_ok,
        segValue_scaleTime s c hc.ne']
    · rw [Res.at'_of_ge (by simpa using hlt), Res.at'_of_ge (by omega)]
      rfl

theorem scaleTime_scaleTime (s : Segment K) (a b : K) :
    (s.scaleTime a).scaleTime b = s.scaleTime (a * b) := by
  unfold Segment.scaleTime
  simp only [List.map_map, Segment.mk.injEq, and_true]
  refine ⟨?_, by ring⟩
  apply List.map_congr_left
  intro p _
  simp only [Function.comp_apply, Poly.scaleInTime, Poly.mk.injEq]
  apply List.ext_getElem
  · simp [scaleLoop_length]
  · intro i h1 h2
    have hh : ∀ (b s : K) (l : List K) (h : i < (scaleLoop b s l).length),
        (scaleLoop b s l)[i] = (scaleLoop b s l).getD i 0 := by
      intro b s l h; simp [List.getD_eq_getElem?_getD, h]
    rw [hh, hh, scaleLoop_getD, scaleLoop_getD, scaleLoop_getD]
    rw [show (1 : K) / (a * b) = 1 / a * (1 / b) by rw [one_div_mul_one_div], mul_pow]
    ring

/-! #### offset -/

theorem findSegment_congr (t : K) (segs segs' : List (Segment K)) (acc : K) (i : ℕ)
    (h : segs.map (·.time) = segs'.map (·.time)) :
    findSegment t segs acc i = findSegment t segs' acc i := by
  induction segs generalizing segs' acc i with
  | nil => cases segs' with
    | nil => rfl
    | cons _ _ => simp at h
  | cons s ss ih =>
    cases segs' with
    | nil => simp at h
    | cons s' ss' =>
      simp only [List.map_cons, List.cons.injEq] at h
      unfold findSegment
      rw [h.1, ih ss' _ _ h.2]

theorem offsetLoop_ok (o : List K) (segs : List (Segment K))
    (h : ∀ s ∈ segs, min s.D 3 ≤ o.length) :
    offsetLoop o segs = (true, segs.map fun s => (s.offset o).2) := by
  induction segs with
  | nil => rfl
  | cons s ss ih =>
    unfold offsetLoop
    have h1 : (s.offset o).1 = true := by
      unfold Segment.offset
      rw [if_neg (by have := h s (by simp); omega)]
    simp only [h1, if_true, ih (fun x hx => h x (by simp [hx])), List.map_cons]

theorem segment_offset_polys (s : Segment K) (o : List K) (h : min s.D 3 ≤ o.length)
    (d : ℕ) (hd : d < s.polys.length) :
    (s.offset o).2.polys[d]? =
      some (if d < 3 then (s.polys[d]'hd).offset (o.getD d 0) else s.polys[d]'hd) := by
  unfold Segment.offset
  rw [if_neg (by omega)]
  simp only [offsetPolys]
  have hD : s.D = s.polys.length := rfl
  by_cases h3 : d < 3
  · have ho : d < o.length := by omega
    rw [if_pos h3, List.getElem?_append_left (by simp; omega), List.getElem?_zipWith]
    simp [h3, hd, ho, List.getD_eq_getElem?_getD]
  · rw [if_neg h3, List.getElem?_append_right (by simp; omega)]
    simp only [List.length_zipWith, List.length_take, List.getElem?_drop]
    rw [show 3 + (d - min (min 3 s.polys.length) o.length) = d by omega]
    simp [hd]

theorem segment_WF_offset {s : Segment K} (h : s.WF) (o : List K) (ho : min s.D 3 ≤ o.length) :
    (s.offset o).2.WF := by
  refine ⟨?_, ?_⟩
  · intro p hp
    obtain ⟨d, hd, rfl⟩ := List.getElem_of_mem hp
    have hd' : d < s.polys.length := by
      have := offset_D s o
      unfold Segment.D at this
      omega
    have e := segment_offset_polys s o ho d hd'
    rw [List.getElem?_eq_getElem hd, Option.some.injEq] at e
    rw [e, offset_segN]
    split
    · rw [offset_N]; exact h.polysN _ (List.getElem_mem _)
    · exact h.polysN _ (List.getElem_mem _)
  · rw [offset_segN]; exact h.small

theorem segValue_offset (s : Segment K) (h : s.WF) (o : List K) (ho : min s.D 3 ≤ o.length)
    (hN : 0 < s.N) (k : ℕ) (t : K) (d : ℕ) (hd : d < s.polys.length) :
    (segValue (s.offset o).2 k t).getD d 0 =
      (segValue s k t).getD d 0 + if k = 0 ∧ d < 3 then o.getD d 0 else 0 := by
  simp only [segValue, List.getD_eq_getElem?_getD, List.getElem?_map,
    segment_offset_polys s o ho d hd]
  simp only [List.getElem?_eq_getElem hd, Option.map_some, Option.getD_some]
  by_cases h3 : d < 3
  · rw [if_pos h3, derivAt_offset _ _ (by rw [h.polysN _ (List.getElem_mem _)]; exact hN)]
    simp [h3]
  · rw [if_neg h3]; simp [h3]

/-! #### concatenation -/

theorem findSegment_cons (t : K) (s : Segment K) (ss : List (Segment K)) (acc : K) (i : ℕ) :
    findSegment t (s :: ss) acc i =
      if acc + s.time > t then (i, acc + s.time) else findSegment t ss (acc + s.time) (i + 1) := rfl

theorem findSegment_append (t : K) (A B : List (Segment K)) (acc : K) (i : ℕ) :
    findSegment t (A ++ B) acc i =
      if (findSegment t A acc i).1 < i + A.length then findSegment t A acc i
      else findSegment t B (findSegment t A acc i).2 (i + A.length) := by
  induction A generalizing acc i with
  | nil => simp [findSegment]
  | cons s ss ih =>
    simp only [List.cons_append]
    rw [findSegment_cons, findSegment_cons]
    by_cases h : acc + s.time > t
    · simp [h]
    · simp only [h, if_false]
      rw [ih]
      simp only [List.length_cons]
      rw [show i + 1 + ss.length = i + (ss.length + 1) by omega]

theorem findSegment_shift (t : K) (B : List (Segment K)) (acc : K) (i : ℕ) :
    findSegment t B acc i =
      (i + (findSegment (t - acc) B 0 0).1, acc + (findSegment (t - acc) B 0 0).2) := by
  have key : ∀ (a : K) (j : ℕ), findSegment t B (acc + a) (i + j) =
      (i + (findSegment (t - acc) B a j).1, acc + (findSegment (t - acc) B a j).2) := by
    induction B with
    | nil => intro a j; simp [findSegment]
    | cons s ss ih =>
      intro a j
      rw [findSegment_cons, findSegment_cons]
      by_cases h : acc + a + s.time > t
      · rw [if_pos h, if_pos (by linarith)]
        simp [add_assoc]
      · rw [if_neg h, if_neg (by push Not at *; linarith)]
        have := ih (a + s.time) (j + 1)
        rw [← add_assoc acc a, ← add_assoc i j] at this
        exact this
  have := key 0 0
  simpa using this

theorem findSegment_le_length (t : K) (A : List (Segment K)) (acc : K) (i : ℕ) :
    (findSegment t A acc i).1 ≤ i + A.length := by
  induction A generalizing acc i with
  | nil => simp [findSegment]
  | cons s ss ih =>
    rw [findSegment_cons]
    split
    · simp
    · refine le_trans (ih _ _) ?_
      simp; omega

/-- If the search stops inside the list, the accumulated time there is after `t`. -/
theorem findSegment_lt (t : K) (A : List (Segment K)) (acc : K) (i : ℕ)
    (h : (findSegment t A acc i).1 < i + A.length) : t < (findSegment t A acc i).2 := by
  induction A generalizing acc i with
  | nil => simp [findSegment] at h
  | cons s ss ih =>
    rw [findSegment_cons] at h ⊢
    split
    · assumption
    · next hn =>
      rw [if_neg hn] at h
      exact ih _ _ (by simp at h; omega)

theorem evaluate_append_left (D D' N N' : ℕ) (m m' : K) (A B : List (Segment K))
    (hA : ∀ s ∈ A, 0 ≤ s.time) (t : K) (ht : t < (A.map (·.time)).sum) (h0 : 0 ≤ t) (k : ℤ) :
    (Trajectory.mk D N m (A ++ B)).evaluate t k = (Trajectory.mk D' N' m' A).evaluate t k := by
  have hfound : (findSegment t A 0 0).1 < A.length := by
    by_contra hcon
    -- otherwise all partial sums are at most t
    have hex : ∃ j, j < A.length ∧ startTime (A.map (·.time)) j ≤ t ∧
        t < startTime (A.map (·.time)) (j + 1) := by
      by_contra hc
      push Not at hc
      have : ∀ j, j ≤ A.length → startTime (A.map (·.time)) j ≤ t := by
        intro j
        induction j with
        | zero => intro _; rw [startTime_zero]; exact h0
        | succ j ih => intro hj; exact hc j (by omega) (ih (by omega))
      have := this A.length le_rfl
      rw [show A.length = (A.map (·.time)).length by simp, startTime_length] at this
      linarith
    obtain ⟨j, hj, h1, h2⟩ := hex
    have hn : ∀ x ∈ A.map (·.time), (0 : K) ≤ x := by
      intro x hx
      obtain ⟨s, hs, rfl⟩ := List.mem_map.mp hx
      exact hA s hs
    have := findSegment_found t A 0 0 j hj
      (by intro m hm; rw [zero_add]; exact le_trans (startTime_mono _ hn (by omega)) h1)
      (by rw [zero_add]; exact h2)
    rw [this] at hcon
    simp only [zero_add] at hcon
    exact hcon hj
  have hlt := findSegment_lt t A 0 0 (by simpa using hfound)
  unfold Trajectory.evaluate
  simp only
  have e := findSegment_append t A B 0 0
  rw [if_pos (by simpa using hfound)] at e
  rw [e]
  rw [if_neg (c := t > _) (not_lt.mpr hlt.le), if_neg (c := t > _) (not_lt.mpr hlt.le)]
  rw [if_neg (c := _ ≥ (A ++ B).length) (by simp only [List.length_append]; omega),
    if_neg (c := _ ≥ A.length) (by omega)]
  rw [Res.at'_of_lt hfound, Res.at'_of_lt (by simp; omega), List.getElem_append_left hfound]

theorem evaluate_append_right (D N N' : ℕ) (m m' : K) (A B : List (Segment K))
    (hA : ∀ s ∈ A, 0 ≤ s.time) (hB : B ≠ []) (t : K) (ht : (A.map (·.time)).sum ≤ t) (k : ℤ) :
    (Trajectory.mk D N m (A ++ B)).evaluate t k =
      (Trajectory.mk D N' m' B).evaluate (t - (A.map (·.time)).sum) k := by
  have hn : ∀ x ∈ A.map (·.time), (0 : K) ≤ x := by
    intro x hx
    obtain ⟨s, hs, rfl⟩ := List.mem_map.mp hx
    exact hA s hs
  have hnone := findSegment_none t A 0 0 (by
    intro m hm
    rw [zero_add]
    refine le_trans ?_ ht
    rw [← startTime_length]
    exact startTime_mono _ hn (by simpa using hm))
  simp only [zero_add] at hnone
  have hBl : 0 < B.length := List.length_pos_iff.mpr hB
  unfold Trajectory.evaluate
  simp only
  rw [findSegment_append, hnone]
  simp only [zero_add, lt_irrefl, if_false]
  rw [findSegment_shift]
  set r := findSegment (t - (A.map (·.time)).sum) B 0 0 with hr
  simp only
  by_cases h : t > (A.map (·.time)).sum + r.2
  · rw [if_pos h, if_pos (by linarith)]
  · rw [if_neg h, if_neg (c := t - _ > _) (by push Not at *; linarith)]
    have hidx : (if A.length + r.1 ≥ (A ++ B).length then (A ++ B).length - 1 else A.length + r.1) =
        A.length + (if r.1 ≥ B.length then B.length - 1 else r.1) := by
      simp only [List.length_append]
      split <;> split <;> omega
    rw [hidx]
    set j := if r.1 ≥ B.length then B.length - 1 else r.1 with hj
    have hjl : j < B.length := by
      rw [hj]; split <;> omega
    rw [Res.at'_of_lt hjl, Res.at'_of_lt (by simp; omega), Res.ok_bind, Res.ok_bind]
    have : (A ++ B)[A.length + j]'(by simp; omega) = B[j] := by
      rw [List.getElem_append_right (by omega)]; simp
    rw [this]
    congr 1
    ring

end Verif
