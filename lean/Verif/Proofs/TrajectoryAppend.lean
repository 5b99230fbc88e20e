import Verif.Proofs.TrajectoryReal

/- Helper lemmas: appending dimensions and concatenation. -/
set_option linter.unusedSectionVars false

namespace Verif

open Polynomial Spec

variable {K : Type} [Field K] [LinearOrder K] [IsStrictOrderedRing K]

theorem appendedPoly_ok (p : Poly K) (n : ℕ) (h : p.N ≤ n) :
    ∃ q, appendedPoly n p = some q ∧ q.N = n ∧ ∀ k t, derivAt q.coeffs k t = derivAt p.coeffs k t := by
  unfold appendedPoly Poly.withAppendedCoefficients
  by_cases h1 : n = p.N
  · exact ⟨p, by simp [h1], h1.symm, fun _ _ => rfl⟩
  · refine ⟨⟨p.coeffs ++ List.replicate (n - p.N) 0⟩, ?_, ?_, ?_⟩
    · simp [h1, show ¬ n < p.N by omega]
    · unfold Poly.N at *; simp; omega
    · intro k t; exact derivAt_append_zeros _ _ _ _

theorem mapM_appendedPoly (l : List (Poly K)) (n : ℕ) (h : ∀ p ∈ l, p.N ≤ n) :
    ∃ r, l.mapM (appendedPoly n) = some r ∧ r.length = l.length ∧ (∀ q ∈ r, q.N = n) ∧
      ∀ d, (hd : d < l.length) → (hr : d < r.length) →
        ∀ k t, derivAt r[d].coeffs k t = derivAt l[d].coeffs k t := by
  induction l with
  | nil => exact ⟨[], rfl, rfl, by simp, by simp⟩
  | cons p l ih =>
    obtain ⟨r, h1, h2, h3, h4⟩ := ih (fun q hq => h q (by simp [hq]))
    obtain ⟨q, g1, g2, g3⟩ := appendedPoly_ok p n (h p (by simp))
    refine ⟨q :: r, ?_, by simp [h2], ?_, ?_⟩
    · rw [List.mapM_cons, g1, h1]; rfl
    · intro x hx
      rcases List.mem_cons.mp hx with rfl | hx
      · exact g2
      · exact h3 x hx
    · intro d hd hr k t
      cases d with
      | zero => exact g3 k t
      | succ d => simpa using h4 d (by simpa using hd) (by simpa using hr) k t

/-- The two motions in the result `r` of appending the dimensions of `a` to `s`, as functions of the
fraction `x` of the segment time. -/
structure AppendSpec (s a r : Segment K) : Prop where
  time : r.time = max s.time a.time
  N : r.N = max s.N a.N
  polysN : ∀ p ∈ r.polys, p.N = r.N
  D : r.polys.length = s.polys.length + a.polys.length
  first : ∀ d, (hd : d < s.polys.length) → (hr : d < r.polys.length) → ∀ x,
    derivAt r.polys[d].coeffs 0 (x * r.time) = derivAt s.polys[d].coeffs 0 (x * s.time)
  second : ∀ d, (hd : d < a.polys.length) → (hr : s.polys.length + d < r.polys.length) → ∀ x,
    derivAt r.polys[s.polys.length + d].coeffs 0 (x * r.time) =
      derivAt a.polys[d].coeffs 0 (x * a.time)

theorem scaled_position (p : Poly K) (t T : K) (hT : 0 < T) (x : K) :
    derivAt (p.scaleInTime (t / T)).coeffs 0 (x * T) = derivAt p.coeffs 0 (x * t) := by
  rw [derivAt_scaleInTime, pow_zero, one_mul]
  congr 1
  field_simp

theorem segment_append_sameN (s a : Segment K) (hs : s.WF) (ha : a.WF) (hN : 0 < s.N)
    (hD : 0 < s.D) (hDa : 0 < a.D) (h : s.N = a.N) (hs0 : 0 ≤ s.time) (ha0 : 0 ≤ a.time) :
    ∃ r, s.withAppendedDimension a = some r ∧ AppendSpec s a r := by
  unfold Segment.withAppendedDimension
  rw [if_neg (by omega), if_neg (by omega)]
  simp only [if_pos h]
  refine ⟨_, rfl, ?_⟩
  set T := max s.time a.time with hT
  set cur := if s.time < T ∧ T > 0 then s.polys.map fun p => p.scaleInTime (s.time / T)
    else s.polys with hcur
  set app := if ¬ (s.time < T ∧ T > 0) ∧ a.time < T ∧ T > 0 then
    a.polys.map fun p => p.scaleInTime (a.time / T) else a.polys with happ
  have lcur : cur.length = s.polys.length := by rw [hcur]; split <;> simp
  have lapp : app.length = a.polys.length := by rw [happ]; split <;> simp
  have ncur : ∀ p ∈ cur, p.N = s.N := by
    intro p hp
    rw [hcur] at hp
    split at hp
    · obtain ⟨q, hq, rfl⟩ := List.mem_map.mp hp
      rw [scaleInTime_coeffs_length]; exact hs.polysN q hq
    · exact hs.polysN p hp
  have napp : ∀ p ∈ app, p.N = a.N := by
    intro p hp
    rw [happ] at hp
    split at hp
    · obtain ⟨q, hq, rfl⟩ := List.mem_map.mp hp
      rw [scaleInTime_coeffs_length]; exact ha.polysN q hq
    · exact ha.polysN p hp
  refine ⟨rfl, by simp [max_comm], ?_, by simp [lcur, lapp], ?_, ?_⟩
  · intro p hp
    simp only [List.mem_append] at hp
    simp only [h, max_self]
    rcases hp with hp | hp
    · rw [ncur p hp, h]
    · exact napp p hp
  · intro d hd hr x
    simp only
    have e : (cur ++ app)[d]'hr = cur[d]'(by omega) := List.getElem_append_left (by omega)
    rw [e]
    by_cases hc : s.time < T ∧ T > 0
    · have : cur = s.polys.map fun p => p.scaleInTime (s.time / T) := by rw [hcur, if_pos hc]
      simp only [this, List.getElem_map]
      exact scaled_position _ _ _ hc.2 x
    · have : cur = s.polys := by rw [hcur, if_neg hc]
      simp only [this]
      have : T = s.time := by
        by_contra hne
        have h1 : s.time < T := lt_of_le_of_ne (le_max_left _ _) (Ne.symm hne)
        exact hc ⟨h1, lt_of_le_of_lt hs0 h1⟩
      rw [this]
  · intro d hd hr x
    simp only
    have e : (cur ++ app)[s.polys.length + d]'hr = app[d]'(by omega) := by
      rw [List.getElem_append_right (by omega)]
      simp only [lcur, Nat.add_sub_cancel_left]
    rw [e]
    by_cases hc : ¬ (s.time < T ∧ T > 0) ∧ a.time < T ∧ T > 0
    · have : app = a.polys.map fun p => p.scaleInTime (a.time / T) := by rw [happ, if_pos hc]
      simp only [this, List.getElem_map]
      exact scaled_position _ _ _ hc.2.2 x
    · have : app = a.polys := by rw [happ, if_neg hc]
      simp only [this]
      have : T = a.time := by
        by_contra hne
        have h1 : a.time < T := lt_of_le_of_ne (le_max_right _ _) (Ne.symm hne)
        have h2 : 0 < T := lt_of_le_of_lt ha0 h1
        refine hc ⟨?_, h1, h2⟩
        rintro ⟨h3, _⟩
        rcases max_choice s.time a.time with h4 | h4
        · rw [← hT] at h4; exact absurd h4 h3.ne'
        · rw [← hT] at h4; exact hne h4
      rw [this]

theorem segment_append_sameTime (s a : Segment K) (hs : s.WF) (ha : a.WF) (hN : 0 < s.N)
    (hNa : 0 < a.N) (hD : 0 < s.D) (hDa : 0 < a.D) (h : s.time = a.time) (hne : s.N ≠ a.N) :
    ∃ r, s.withAppendedDimension a = some r ∧ AppendSpec s a r := by
  unfold Segment.withAppendedDimension
  rw [if_neg (by omega), if_neg (by omega)]
  simp only [if_neg hne]
  obtain ⟨r, h1, h2, h3, h4⟩ := mapM_appendedPoly (s.polys ++ a.polys) (max a.N s.N) (by
    intro p hp
    rcases List.mem_append.mp hp with hp | hp
    · rw [hs.polysN p hp]; omega
    · rw [ha.polysN p hp]; omega)
  rw [h1]
  have hT : max s.time a.time = s.time := by rw [h, max_self]
  refine ⟨⟨r, max s.time a.time, max a.N s.N⟩, rfl, rfl, by simp [max_comm], h3, ?_, ?_, ?_⟩
  · rw [h2, List.length_append]
  · intro d hd hr x
    simp only [hT]
    rw [h4 d (by simp; omega) hr]
    congr 2
    exact List.getElem_append_left hd
  · intro d hd hr x
    simp only [hT]
    rw [h4 _ (by simp; omega) hr, h]
    congr 2
    rw [List.getElem_append_right (by omega)]
    simp

theorem appendDimLoop_ok (S A : List (Segment K)) (hl : S.length = A.length)
    (h : ∀ i, (hi : i < S.length) → (hj : i < A.length) →
      ∃ r, S[i].withAppendedDimension A[i] = some r ∧ AppendSpec S[i] A[i] r) :
    ∃ R, appendDimLoop S A = some R ∧ R.length = S.length ∧
      ∀ i, (hi : i < S.length) → (hj : i < A.length) → (hr : i < R.length) →
        AppendSpec S[i] A[i] R[i] := by
  induction S generalizing A with
  | nil =>
    cases A with
    | nil => exact ⟨[], rfl, rfl, by simp⟩
    | cons _ _ => simp at hl
  | cons s ss ih =>
    cases A with
    | nil => simp at hl
    | cons a as =>
      obtain ⟨r, h1, h2⟩ := h 0 (by simp) (by simp)
      obtain ⟨R, g1, g2, g3⟩ := ih as (by simpa using hl) (by
        intro i hi hj
        exact h (i + 1) (by simpa using hi) (by simpa using hj))
      refine ⟨r :: R, ?_, by simp [g2], ?_⟩
      · simp only [appendDimLoop]
        simp only [List.getElem_cons_zero] at h1
        rw [h1, g1]; rfl
      · intro i hi hj hr
        cases i with
        | zero => exact h2
        | succ i => exact g3 i (by simpa using hi) (by simpa using hj) (by simpa using hr)

theorem trajectory_append_ok (tr a : Trajectory K) (h : tr.WF) (ha : a.WF)
    (hK : tr.segments.length = a.segments.length) (hne : 0 < tr.segments.length)
    (hN : 0 < tr.N) (hNa : 0 < a.N) (hD : 0 < tr.D) (hDa : 0 < a.D)
    (hcase : tr.N = a.N ∨ tr.getSegmentTimes = a.getSegmentTimes) :
    ∃ r, tr.withAppendedDimension a = .ok (some r) ∧ r.D = tr.D + a.D ∧ r.N = max tr.N a.N ∧
      r.segments.length = tr.segments.length ∧
      r.maxTime = r.getSegmentTimes.sum ∧
      ∀ i, (hi : i < tr.segments.length) → (hj : i < a.segments.length) →
        (hr : i < r.segments.length) → AppendSpec tr.segments[i] a.segments[i] r.segments[i] := by
  obtain ⟨R, h1, h2, h3⟩ := appendDimLoop_ok tr.segments a.segments hK (by
    intro i hi hj
    have ws := h.wf _ (List.getElem_mem hi)
    have wa := ha.wf _ (List.getElem_mem hj)
    have ds := h.dims _ (List.getElem_mem hi)
    have da := ha.dims _ (List.getElem_mem hj)
    have ns := h.coeffs _ (List.getElem_mem hi)
    have na := ha.coeffs _ (List.getElem_mem hj)
    by_cases hNN : tr.N = a.N
    · exact segment_append_sameN _ _ ws wa (by omega) (by omega) (by omega) (by omega)
        (h.nonneg _ (List.getElem_mem hi)) (ha.nonneg _ (List.getElem_mem hj))
    · have ht := hcase.resolve_left hNN
      refine segment_append_sameTime _ _ ws wa (by omega) (by omega) (by omega) (by omega) ?_
        (by omega)
      have e1 : tr.getSegmentTimes[i]? = a.getSegmentTimes[i]? := by rw [ht]
      simpa [Trajectory.getSegmentTimes, hi, hj] using e1)
  have hR : R ≠ [] := by
    intro h0; rw [h0] at h2; simp at h2; omega
  have hset := (setSegments_ok_iff (⟨tr.D + a.D, max tr.N a.N, (R.map (·.time)).sum, R⟩ :
    Trajectory K) R).mpr ⟨hR, by
      intro x hx
      obtain ⟨i, hi, rfl⟩ := List.getElem_of_mem hx
      have g := h3 i (by omega) (by omega) hi
      refine ⟨?_, ?_⟩
      · change (R[i].polys).length = _
        rw [g.D]
        have := h.dims _ (List.getElem_mem (show i < tr.segments.length by omega))
        have := ha.dims _ (List.getElem_mem (show i < a.segments.length by omega))
        unfold Segment.D at *
        simp only
        omega
      · rw [g.N, h.coeffs _ (List.getElem_mem _), ha.coeffs _ (List.getElem_mem _)], rfl, rfl⟩
  refine ⟨⟨tr.D + a.D, max tr.N a.N, (R.map (·.time)).sum, R⟩, ?_, rfl, rfl, h2, rfl, h3⟩
  unfold Trajectory.withAppendedDimension
  rw [if_neg (by omega), if_neg (by omega), Res.check_of hK, Res.ok_bind, h1]
  simp only
  rw [hset]
  rfl

/-! #### concatenation of trajectories -/

theorem addTrajectoriesLoop_true (D N : ℕ) (ts : List (Trajectory K)) (m : Trajectory K)
    (hm : m.D = D ∧ m.N = N)
    (hts : ∀ t ∈ ts, t.D = D ∧ t.N = N ∧ ∀ s ∈ t.segments, s.D = t.D ∧ s.N = t.N) :
    addTrajectoriesLoop D N ts m = .ok (true,
      ⟨D, N, m.maxTime + (ts.map fun t => t.getSegmentTimes.sum).sum,
        m.segments ++ (ts.map (·.segments)).flatten⟩) := by
  induction ts generalizing m with
  | nil =>
    obtain ⟨rfl, rfl⟩ := hm
    simp [addTrajectoriesLoop]
  | cons t ts ih =>
    have ht := hts t (by simp)
    unfold addTrajectoriesLoop
    rw [if_neg (by simp [ht.1, ht.2.1])]
    have hadd := (addSegments_ok_iff m _ t.segments).mpr ⟨by
      intro s hs
      have := ht.2.2 s hs
      exact ⟨by rw [this.1, ht.1, hm.1], by rw [this.2, ht.2.1, hm.2]⟩, rfl⟩
    rw [hadd, Res.ok_bind, ih { m with maxTime := m.maxTime + (t.segments.map (·.time)).sum,
                                                  segments := m.segments ++ t.segments }
      ⟨hm.1, hm.2⟩ (fun x hx => hts x (by simp [hx]))]
    simp only [List.map_cons, List.sum_cons, List.flatten_cons, List.append_assoc, add_assoc]
    rfl

theorem addTrajectoriesLoop_false (D N : ℕ) (ts : List (Trajectory K)) (m : Trajectory K)
    (hm : m.D = D ∧ m.N = N)
    (hts : ∀ t ∈ ts, ∀ s ∈ t.segments, s.D = t.D ∧ s.N = t.N)
    (hbad : ∃ t ∈ ts, t.D ≠ D ∨ t.N ≠ N) :
    ∃ r, addTrajectoriesLoop D N ts m = .ok (false, r) := by
  induction ts generalizing m with
  | nil => simp at hbad
  | cons t ts ih =>
    unfold addTrajectoriesLoop
    by_cases h : t.D ≠ D ∨ t.N ≠ N
    · rw [if_pos h]; exact ⟨_, rfl⟩
    · rw [if_neg h]
      push Not at h
      have hadd := (addSegments_ok_iff m _ t.segments).mpr ⟨by
        intro s hs
        have := hts t (by simp) s hs
        exact ⟨by rw [this.1, h.1, hm.1], by rw [this.2, h.2, hm.2]⟩, rfl⟩
      rw [hadd, Res.ok_bind]
      refine ih _ ⟨hm.1, hm.2⟩ (fun x hx => hts x (by simp [hx])) ?_
      obtain ⟨x, hx, hb⟩ := hbad
      rcases List.mem_cons.mp hx with rfl | hx
      · exact absurd hb (by push Not; exact h)
      · exact ⟨x, hx, hb⟩

/-- Evaluation of a concatenation inside part `i`. -/
theorem evaluate_flatten (D N : ℕ) (m : K) (parts : List (Trajectory K))
    (hp : ∀ p ∈ parts, p.WF) (i : ℕ) (hi : i < parts.length) (t : K)
    (h1 : startTime (parts.map (·.maxTime)) i ≤ t)
    (h2 : t < startTime (parts.map (·.maxTime)) (i + 1)) (k : ℤ) :
    (Trajectory.mk D N m (parts.map (·.segments)).flatten).evaluate t k =
      parts[i].evaluate (t - startTime (parts.map (·.maxTime)) i) k := by
  have ne_of_lt : ∀ (parts : List (Trajectory K)) (i : ℕ) (t : K), (∀ p ∈ parts, p.WF) →
      i < parts.length →
      startTime (parts.map (·.maxTime)) i ≤ t → t < startTime (parts.map (·.maxTime)) (i + 1) →
      (parts.map (·.segments)).flatten ≠ [] := by
    intro parts i t hp hi h1 h2 hnil
    have : (parts[i]'hi).segments = [] := by
      rw [List.flatten_eq_nil_iff] at hnil
      exact hnil _ (List.mem_map.mpr ⟨_, List.getElem_mem hi, rfl⟩)
    rw [startTime_succ _ _ (by simpa using hi)] at h2
    simp only [List.getElem_map] at h2
    rw [(hp _ (List.getElem_mem hi)).total, Trajectory.getSegmentTimes, this] at h2
    simp at h2
    exact absurd h1 (not_le.mpr h2)
  induction parts generalizing i t m with
  | nil => simp at hi
  | cons p ps ih =>
    have wp := hp p (by simp)
    have hsum : (p.segments.map (·.time)).sum = p.maxTime := wp.total.symm
    simp only [List.map_cons, List.flatten_cons]
    cases i with
    | zero =>
      rw [startTime_zero] at h1
      simp only [startTime, List.map_cons, List.take_succ_cons, List.take_zero, List.sum_cons,
        List.sum_nil, add_zero] at h2
      rw [evaluate_append_left D p.D N p.N m p.maxTime _ _ wp.nonneg t (by rw [hsum]; exact h2) h1,
        List.getElem_cons_zero]
      simp [startTime]
    | succ i =>
      have e : ∀ j, startTime (p.maxTime :: ps.map (·.maxTime)) (j + 1) =
          p.maxTime + startTime (ps.map (·.maxTime)) j := by
        intro j; simp [startTime]
      simp only [List.map_cons, e] at h1 h2
      have hi' : i < ps.length := by simpa using hi
      have hps : ∀ p ∈ ps, p.WF := fun x hx => hp x (by simp [hx])
      have hnn : ∀ x ∈ ps.map (·.maxTime), (0 : K) ≤ x := by
        intro x hx
        obtain ⟨q, hq, rfl⟩ := List.mem_map.mp hx
        have wq := hps q hq
        rw [wq.total]
        exact List.sum_nonneg wq.times_nonneg
      have h0 := startTime_nonneg _ hnn i
      rw [evaluate_append_right D N N m m _ _ wp.nonneg
        (ne_of_lt ps i (t - p.maxTime) hps hi' (by linarith) (by linarith)) t
        (by rw [hsum]; linarith), hsum,
        ih m hps i hi' (t - p.maxTime) (by linarith) (by linarith)]
      simp only [List.getElem_cons_succ, e]
      congr 1
      ring

/-- The value of a concatenation at its end is the end value of its last part. -/
theorem evaluate_flatten_end (D N : ℕ) (parts : List (Trajectory K)) (hp : ∀ p ∈ parts, p.WF)
    (last : Trajectory K) (hl : last.WF) (hne : 0 < last.segments.length) (k : ℤ) (m : K) :
    (Trajectory.mk D N m ((parts ++ [last]).map (·.segments)).flatten).evaluate
        ((parts ++ [last]).map (·.maxTime)).sum k = last.evaluate last.maxTime k := by
  induction parts generalizing m with
  | nil =>
    simp only [List.nil_append, List.map_cons, List.map_nil, List.flatten_cons, List.flatten_nil,
      List.append_nil, List.sum_cons, List.sum_nil, add_zero]
    have hlen : 0 < last.segments.length := hne
    have hfind := findSegment_none last.maxTime last.segments 0 0
      (by
        intro m hm
        rw [zero_add, hl.total, ← startTime_length]
        exact startTime_mono _ hl.times_nonneg (by rw [getSegmentTimes_length]; omega))
    have htot : (last.segments.map (·.time)).sum = last.maxTime := hl.total.symm
    unfold Trajectory.evaluate
    simp only [hfind, zero_add, htot, lt_irrefl, if_false]
  | cons p ps ih =>
    have wp := hp p (by simp)
    have hsum : (p.segments.map (·.time)).sum = p.maxTime := wp.total.symm
    have hps : ∀ p ∈ ps, p.WF := fun x hx => hp x (by simp [hx])
    have hnn : 0 ≤ ((ps ++ [last]).map (·.maxTime)).sum := by
      apply List.sum_nonneg
      intro x hx
      obtain ⟨q, hq, rfl⟩ := List.mem_map.mp hx
      have wq : q.WF := by
        rcases List.mem_append.mp hq with hq | hq
        · exact hps q hq
        · rw [List.mem_singleton.mp hq]; exact hl
      rw [wq.total]
      exact List.sum_nonneg wq.times_nonneg
    simp only [List.cons_append, List.map_cons, List.flatten_cons, List.sum_cons]
    rw [evaluate_append_right D N N m m _ _ wp.nonneg ?_ _ (by rw [hsum]; linarith), hsum,
      add_sub_cancel_left, ih hps]
    simp only [List.map_append, List.flatten_append, List.map_cons, List.map_nil, List.flatten_cons,
      List.flatten_nil, List.append_nil]
    intro h0
    have := List.append_eq_nil_iff.mp h0
    rw [this.2] at hne
    simp at hne

end Verif
