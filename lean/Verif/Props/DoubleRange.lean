import Verif.Proofs.DoubleRange

/-
C135: sampling a range with overflow, infinities, NaN and intervals that are lost in a sum.
-/
namespace Verif

open Spec

/-! ### C135 ordinary calls -/

/-- **C135.** For finite times within the trajectory and an interval that is not too small for the end time
(`t_end ≤ n * dt` with `n ≤ 2^51`; memory for `n + 1` samples), `evaluateRange` returns after at most
`2 * n` samples; the times increase and stay below the end, and each value is one of a segment at a time that is not
beyond its duration. When the start lies in the first segment, the first sample is the one at the start. Missing: a
start at or after the end of the trajectory, other intervals (`C135_undefined`, `C135_negative`,
`C135_lost_interval`). -/
theorem C135_returns_partial {segs : List (Segment Dbl)} {tr : Trajectory Dbl} (hset : Trajectory.setSegments segs = .ok tr)
    (hN : ∀ s ∈ segs, ∀ p ∈ s.polys, p.N ≤ 22) (ts : List ℝ) (hts : segs.map (·.time) = ts.map .fin)
    (hd : ∀ x ∈ ts, IsDouble x ∧ 0 ≤ x) (M : ℝ) (hM : tr.maxTime = .fin M) (tStart tEnd dt : ℝ) (hs : IsDouble tStart)
    (he : IsDouble tEnd) (hdd : IsDouble dt) (h0 : 0 ≤ tStart) (hsM : tStart < M) (hse : tStart ≤ tEnd) (hdt : 0 < dt)
    (n : ℕ) (hn : n ≤ 2 ^ 51) (hb : tEnd ≤ n * dt) (room : ℕ) (hroom : n + 1 ≤ room) (d : ℕ) :
    ∃ l, (∀ fuel, 2 * n + segs.length < fuel → tr.evaluateRangeDbl room fuel (.fin tStart) (.fin tEnd) (.fin dt) d = .ok l) ∧
      l.length ≤ 2 * n ∧
      (∀ e ∈ l, ∃ x, e.1 = .fin x ∧ 0 ≤ x ∧ x < tEnd ∧
        ∃ (k : ℕ) (s : Segment Dbl) (τ : Dbl), segs[k]? = some s ∧ ¬ τ > s.time ∧ s.evaluate τ d = .ok e.2) ∧
      (l.map (·.1)).Pairwise (· < ·) ∧
      (∀ s, segs.head? = some s → Dbl.fin tStart < s.time → 0 < tEnd →
        ∃ v rest, s.evaluate (.fin tStart) d = .ok v ∧ l = (.fin 0, v) :: rest) := by
  obtain ⟨hne, htr, hmax⟩ := setSegments_fold hset
  rw [hM] at hmax
  obtain ⟨m, hm1, hm2⟩ := count_ok he h0 hse hdt hn hb
  obtain ⟨k, a, f1, -, f3, f4, f5, f6, -⟩ := findSegment_double tStart M segs ts 0 0 hts hd isDouble_zero le_rfl hmax.symm
  have f1' : findSegment (.fin tStart) segs 0 0 = (k, .fin a) := f1
  have hk : k < segs.length ∧ tStart < a := by
    rcases findSegment_stop (.fin tStart) segs 0 0 with ⟨-, h | h⟩ | ⟨h1, h2⟩
    · exact absurd h hne
    · rw [← hmax] at h
      exact absurd hsM h
    · rw [f1', zero_add] at h1
      rw [f1'] at h2
      exact ⟨h1, h2⟩
  obtain ⟨hk, hlt⟩ := hk
  obtain ⟨x, hx⟩ : ∃ x, ts[k]? = some x := by
    have : k < ts.length := by
      have := congrArg List.length hts
      rw [List.length_map, List.length_map] at this
      omega
    exact ⟨_, List.getElem?_eq_getElem this⟩
  have hxk : segs[k].time = .fin x := by
    have h1 : (segs.map (·.time))[k]? = some segs[k].time := by rw [List.getElem?_map, List.getElem?_eq_getElem hk]; rfl
    rw [hts, List.getElem?_map, hx] at h1
    exact (Option.some.inj h1).symm
  obtain ⟨hxd, hx0⟩ := hd x (List.mem_of_getElem? hx)
  obtain ⟨b, b1, b2, b3, -⟩ := fin_sub_between f3 hx0 (f6 k x (by omega) hx)
  have hcall : ∀ fuel, tr.evaluateRangeDbl room fuel (.fin tStart) (.fin tEnd) (.fin dt) d =
      evaluateRangeLoop segs (.fin tEnd) (.fin dt) d fuel k (.fin b) (.fin tStart - .fin b) := by
    intro fuel
    unfold Trajectory.evaluateRangeDbl Trajectory.rangeFrom
    rw [hm1, Res.ok_bind, if_neg (by omega)]
    dsimp only
    rw [htr, f1', if_neg (show ¬ Dbl.fin tStart > .fin a from not_lt.mpr hlt.le), Res.at'_of_lt hk, Res.ok_bind, hxk, b1]
  have hb' : tEnd ≤ 2 ^ 51 * dt := hb.trans (mul_le_mul_of_nonneg_right (by exact_mod_cast hn) hdt.le)
  have hm' : tEnd - b ≤ ((2 * n : ℕ) : ℝ) * (dt / 2) := by push_cast; linarith
  obtain ⟨l, l1, l2, l3, l4⟩ := loop_returns (d := d) hN hdd hdt hb' (2 * n + segs.length + 1) (2 * n) k b (.fin tStart - .fin b) b2
    b3 hk hm' (by omega)
  refine ⟨l, ?_, l2, ?_, l4, ?_⟩
  · intro fuel hfuel
    obtain ⟨l', l1', -⟩ := loop_returns (d := d) hN hdd hdt hb' fuel (2 * n) k b (.fin tStart - .fin b) b2 b3 hk hm'
      (by omega)
    rw [hcall, l1']
    exact congrArg _ (loop_unique l1' l1)
  · intro e he
    obtain ⟨y, q1, q2, q3, q4⟩ := l3 e he
    exact ⟨y, q1, b3.trans q2, q3, q4⟩
  · intro s hs1 hs2 hs3
    have hk0 : k = 0 ∧ b = 0 := by
      cases segs with
      | nil => exact absurd rfl hne
      | cons s' ss =>
        rw [List.head?_cons, Option.some.injEq] at hs1
        subst hs1
        cases ts with
        | nil => simp at hts
        | cons y ys =>
          rw [List.map_cons, List.map_cons, List.cons.injEq] at hts
          have hy := hts.1
          have hyd := hd y (by simp)
          rw [hy] at hs2
          have hsum : (0 : Dbl) + s'.time = .fin y := by
            rw [hy]
            change Dbl.ofReal (0 + y) = _
            unfold Dbl.ofReal
            rw [zero_add, hyd.1.round64, if_pos hyd.1.lt]
          rw [findSegment, hsum, if_pos hs2] at f1'
          obtain ⟨e1, e2⟩ := Prod.ext_iff.mp f1'
          dsimp only at e1 e2
          subst e1
          rw [List.getElem?_cons_zero, Option.some.injEq] at hx
          rw [← e2, hx, fin_sub, sub_self] at b1
          exact ⟨rfl, by rw [(ofReal_eq_fin b1).1, round64_zero]⟩
    obtain ⟨rfl, rfl⟩ := hk0
    have hs4 : segs[0]? = some s := by rwa [← List.head?_eq_getElem?]
    have htis : Dbl.fin tStart - .fin 0 = .fin tStart := by
      rw [fin_sub, sub_zero]
      unfold Dbl.ofReal
      rw [hs.round64, if_pos hs.lt]
    rw [htis] at l1
    have hs5 : ¬ Dbl.fin tStart > s.time := by
      rw [List.getElem?_eq_getElem hk, Option.some.injEq] at hs4
      rw [← hs4, hxk] at hs2 ⊢
      exact not_lt.mpr (show tStart ≤ x from le_of_lt (show tStart < x from hs2))
    obtain ⟨v, hv⟩ := segment_evaluates (hN s (List.mem_of_getElem? hs4)) (.fin tStart) d
    rw [loop_sample hs4 (show Dbl.fin 0 < .fin tEnd from hs3) hs5 hv, Res.bind_eq_ok] at l1
    obtain ⟨rest, -, l1⟩ := l1
    exact ⟨v, rest, hv, (Res.ok.inj l1).symm⟩

/-- **C135.** An infinite interval gives at most one sample. -/
theorem C135_infinite_interval {segs : List (Segment Dbl)} {tr : Trajectory Dbl} (hset : Trajectory.setSegments segs = .ok tr)
    (hN : ∀ s ∈ segs, ∀ p ∈ s.polys, p.N ≤ 22) {τ e : ℝ} (s : Segment Dbl) (hs : segs.head? = some s) (hτ : s.time = .fin τ)
    (hτd : IsDouble τ) (hτ0 : 0 < τ) (he : 0 < e) (hee : IsDouble e) (room : ℕ) (hroom : 1 ≤ room) (fuel d : ℕ) :
    ∃ v, s.evaluate 0 d = .ok v ∧
      tr.evaluateRangeDbl room (fuel + 2) 0 (.fin e) (.inf false) d = .ok [(0, v)] ∧
      tr.evaluateRangeDbl room fuel 0 (.fin e) (.inf true) d = .hang := by
  obtain ⟨-, htr, -⟩ := setSegments_fold hset
  obtain ⟨v, hv⟩ := segment_evaluates (hN s (List.mem_of_mem_head? hs)) 0 d
  refine ⟨v, hv, ?_, ?_⟩
  · rw [call_at_zero htr hs hτ hτd hτ0 (m := 1) (count_infinite hee false) hroom]
    rw [loop_sample (by rwa [← List.head?_eq_getElem?]) (show (0 : Dbl) < .fin e from he)
      (by rw [hτ]; exact not_lt.mpr hτ0.le) hv, loop_done (by exact fun h => absurd h (by change ¬ (false = true); simp)), Res.ok_bind]
    rfl
  · rw [call_at_zero htr hs hτ hτd hτ0 (m := 1) (count_infinite hee true) hroom]
    exact loop_negative (by rwa [← List.head?_eq_getElem?]) (hN s (List.mem_of_mem_head? hs)) he hτ0 hτ (Or.inr rfl) _ _ _
      (Or.inl ⟨0, le_rfl, rfl⟩) (Or.inl ⟨0, le_rfl, rfl⟩)

/-! ### C135 calls that do not return -/

/-- **C135**, a limit: when a time is an infinity or NaN, or the interval is zero or NaN, the behaviour is undefined
(the number of expected samples is not a `size_t`). -/
theorem C135_undefined (room fuel : ℕ) (tr : Trajectory Dbl) (tStart tEnd dt : Dbl) (d : ℤ)
    (h : ¬ IsFinite tStart ∨ ¬ IsFinite tEnd ∨ dt = .nan ∨ dt = 0) :
    tr.evaluateRangeDbl room fuel tStart tEnd dt d = .ub := by
  unfold Trajectory.evaluateRangeDbl
  rw [count_undefined h]
  rfl

/-- **C135**, a limit: the same for more than `2^64` expected samples. -/
theorem C135_too_many (room fuel : ℕ) (tr : Trajectory Dbl) (e dt : ℝ) (he : IsDouble e) (hdt : 0 < dt)
    (h : 2 ^ 64 * dt ≤ e) (d : ℤ) : tr.evaluateRangeDbl room fuel 0 (.fin e) (.fin dt) d = .ub := by
  unfold Trajectory.evaluateRangeDbl
  rw [count_many he hdt h]
  rfl

/-- **C135**, a limit: with a negative interval that is not smaller in size than the range the call never returns and
asks for more and more memory. -/
theorem C135_negative {segs : List (Segment Dbl)} {tr : Trajectory Dbl} (hset : Trajectory.setSegments segs = .ok tr)
    (hN : ∀ s ∈ segs, ∀ p ∈ s.polys, p.N ≤ 22) {τ e dt : ℝ} (s : Segment Dbl) (hs : segs.head? = some s) (hτ : s.time = .fin τ)
    (hτd : IsDouble τ) (hτ0 : 0 < τ) (he : 0 < e) (hee : IsDouble e) (hdt : e ≤ -dt) (room : ℕ) (hroom : 1 ≤ room)
    (fuel d : ℕ) : tr.evaluateRangeDbl room fuel 0 (.fin e) (.fin dt) d = .hang := by
  obtain ⟨-, htr, -⟩ := setSegments_fold hset
  obtain ⟨m, hm1, hm2⟩ := count_negative hee he hdt
  rw [call_at_zero htr hs hτ hτd hτ0 hm1 (by omega)]
  exact loop_negative (by rwa [← List.head?_eq_getElem?]) (hN s (List.mem_of_mem_head? hs)) he hτ0 hτ
    (Or.inl ⟨dt, by linarith, rfl⟩) _ _ _ (Or.inl ⟨0, le_rfl, rfl⟩) (Or.inl ⟨0, le_rfl, rfl⟩)

/-- **C135**, a limit: an interval that is lost in the sum. In a trajectory of two seconds the range from 1 to
`1 + 2^-50` with the interval `2^-54` has 16 samples, but `1 + 2^-54` is 1 as a `double`: the call never returns and asks
for more and more memory. -/
theorem C135_lost_interval {segs : List (Segment Dbl)} {tr : Trajectory Dbl} (hset : Trajectory.setSegments segs = .ok tr)
    (hN : ∀ s ∈ segs, ∀ p ∈ s.polys, p.N ≤ 22) (hts : segs.map (·.time) = [.fin 1, .fin 1]) (room : ℕ) (hroom : 17 ≤ room)
    (fuel d : ℕ) :
    tr.evaluateRangeDbl room fuel 1 (.fin (1 + (2 : ℝ) ^ (-50 : ℤ))) (.fin ((2 : ℝ) ^ (-54 : ℤ))) d = .hang := by
  obtain ⟨-, htr, -⟩ := setSegments_fold hset
  obtain ⟨s0, s1, rfl, h0, h1⟩ : ∃ s0 s1, segs = [s0, s1] ∧ s0.time = .fin 1 ∧ s1.time = .fin 1 := by
    obtain ⟨s0, l, rfl, e1, e2⟩ := List.map_eq_cons_iff.mp hts
    obtain ⟨s1, l', rfl, e3, e4⟩ := List.map_eq_cons_iff.mp e2
    rw [List.map_eq_nil_iff] at e4
    exact ⟨s0, s1, by rw [e4], e1, e3⟩
  have key : ∀ n : ℕ, n < 2 ^ 53 → Dbl.ofReal n = .fin n := fun n hn => by
    unfold Dbl.ofReal
    rw [(isDouble_nat hn).round64, if_pos (isDouble_nat hn).lt]
  have a1 : (0 : Dbl) + .fin 1 = .fin 1 := by
    have := key 1 (by norm_num)
    change Dbl.ofReal (0 + 1) = _
    rwa [zero_add, ← Nat.cast_one (R := ℝ)]
  have a2 : Dbl.fin 1 + .fin 1 = .fin 2 := by
    have := key 2 (by norm_num)
    change Dbl.ofReal (1 + 1) = _
    rw [show (1 : ℝ) + 1 = ((2 : ℕ) : ℝ) by norm_num, this]
    norm_num
  have a3 : Dbl.fin 2 - .fin 1 = .fin 1 := by
    have := key 1 (by norm_num)
    rw [fin_sub, show (2 : ℝ) - 1 = ((1 : ℕ) : ℝ) by norm_num, this]
    norm_num
  have a4 : (1 : Dbl) - .fin 1 = .fin 0 := by
    have := key 0 (by norm_num)
    change Dbl.fin 1 - .fin 1 = _
    rw [fin_sub, show (1 : ℝ) - 1 = ((0 : ℕ) : ℝ) by norm_num, this]
    norm_num
  unfold Trajectory.evaluateRangeDbl Trajectory.rangeFrom
  rw [count_lost, Res.ok_bind, if_neg (by omega), htr]
  have hf : findSegment (1 : Dbl) [s0, s1] 0 0 = (1, .fin 2) := by
    rw [findSegment, h0, a1, if_neg (show ¬ Dbl.fin 1 > 1 from lt_irrefl (1 : ℝ)), findSegment, h1, a2,
      if_pos (show Dbl.fin 2 > 1 from (by norm_num : (1 : ℝ) < 2))]
  dsimp only
  rw [hf]
  dsimp only
  rw [if_neg (show ¬ (1 : Dbl) > .fin 2 from (by norm_num : ¬ (2 : ℝ) < 1))]
  change evaluateRangeLoop [s0, s1] _ _ _ fuel 1 (.fin 2 - s1.time) (1 - (.fin 2 - s1.time)) = _
  rw [h1, a3, a4]
  exact loop_stall (i := 1) rfl (hN s1 (by simp)) h1 (by linarith [zpow2_pos (-50)]) fuel 0 le_rfl (by norm_num)

/-- **C135**, the negation of the claim without conditions: finite arguments in order, a positive interval, a range
within the trajectory, few samples, and no number of iterations is enough. -/
theorem C135_returns_false : ¬ ∀ (segs : List (Segment Dbl)) (tr : Trajectory Dbl), Trajectory.setSegments segs = .ok tr →
    ∀ tStart tEnd dt M : ℝ, IsDouble tStart → IsDouble tEnd → IsDouble dt → 0 ≤ tStart → tStart < tEnd → tr.maxTime = .fin M →
    tEnd ≤ M → 0 < dt → (tEnd - tStart) / dt ≤ 16 →
    ∃ fuel l, tr.evaluateRangeDbl 100 fuel (.fin tStart) (.fin tEnd) (.fin dt) 0 = .ok l := by
  intro H
  have d50 : IsDouble (1 + (2 : ℝ) ^ (-50 : ℤ)) := lost_end_double
  have hp := zpow2_pos (-54)
  have h54 : (2 : ℝ) ^ (-50 : ℤ) = 16 * (2 : ℝ) ^ (-54 : ℤ) := by
    rw [show (-50 : ℤ) = 4 + -54 by norm_num, zpow_add₀ (by norm_num)]
    norm_num
  have hle : (2 : ℝ) ^ (-50 : ℤ) ≤ 1 := zpow_le_one_of_neg (by norm_num)
  have hset : Trajectory.setSegments [(⟨[], .fin 1, 0⟩ : Segment Dbl), ⟨[], .fin 1, 0⟩] =
      .ok ⟨0, 0, (0 : Dbl) + .fin 1 + .fin 1, [⟨[], .fin 1, 0⟩, ⟨[], .fin 1, 0⟩]⟩ := rfl
  obtain ⟨fuel, l, h⟩ := H _ _ hset 1 (1 + (2 : ℝ) ^ (-50 : ℤ)) ((2 : ℝ) ^ (-54 : ℤ)) 2
    (by simpa using isDouble_nat (n := 1) (by norm_num)) d50 ⟨1, -54, by decide, by norm_num, by norm_num, by norm_num⟩
    (by norm_num) (by linarith [zpow2_pos (-50)]) two_seconds (by linarith) hp (by
      rw [add_sub_cancel_left, h54, mul_div_assoc, div_self hp.ne', mul_one])
  have h2 := C135_lost_interval hset (by simp) rfl 100 (by norm_num) fuel 0
  have h3 : Res.ok l = Res.hang := h.symm.trans h2
  simp at h3

/-! ### C135 the range check of the sampling functions -/

/-- **C135**, a limit: `sampleTrajectoryInRange` refuses a start before 0 and an end after the trajectory, but a NaN
passes its check, as does a start at `+∞` or an interval that is zero or NaN, and the behaviour is undefined. -/
theorem C135_check (room fuel : ℕ) (tr : Trajectory Dbl) (tMin tMax dt : Dbl) :
    (tMin < 0 ∨ tr.maxTime < tMax → samplePositionsDbl room fuel tr tMin tMax dt = .ok none) ∧
    (3 ≤ tr.D → ¬ tMin < 0 → ¬ tr.maxTime < tMax → ¬ IsFinite tMin ∨ ¬ IsFinite tMax ∨ dt = .nan ∨ dt = 0 →
      samplePositionsDbl room fuel tr tMin tMax dt = .ub) ∧
    (3 ≤ tr.D → tMin = .nan → tMax = .nan → samplePositionsDbl room fuel tr tMin tMax dt = .ub) := by
  have key : 3 ≤ tr.D → ¬ tMin < 0 → ¬ tr.maxTime < tMax → ¬ IsFinite tMin ∨ ¬ IsFinite tMax ∨ dt = .nan ∨ dt = 0 →
      samplePositionsDbl room fuel tr tMin tMax dt = .ub := by
    intro h1 h2 h3 h4
    unfold samplePositionsDbl
    rw [if_neg (by rintro (h | h); exacts [h2 h, h3 h]), if_neg (by omega), C135_undefined _ _ _ _ _ _ _ h4]
    rfl
  refine ⟨fun h => if_pos h, key, ?_⟩
  rintro h1 rfl rfl
  exact key h1 (not_nan_lt _) (not_lt_nan _) (Or.inl (by rintro ⟨x, hx⟩; simp at hx))

/-! ### Examples -/

/-- Two segments of one second, used as an example. -/
noncomputable def exTwoSeconds : List (Segment Dbl) :=
  [⟨[⟨[.fin 1, .fin 2]⟩], .fin 1, 2⟩, ⟨[⟨[.fin 3, .fin 4]⟩], .fin 1, 2⟩]

/-- The hypotheses of `C135_returns_partial`: the range from 0 to 1 with the interval 1/4. -/
example : ∃ tr, Trajectory.setSegments exTwoSeconds = .ok tr ∧ (∀ s ∈ exTwoSeconds, ∀ p ∈ s.polys, p.N ≤ 22) ∧
    exTwoSeconds.map (·.time) = [(1 : ℝ), 1].map .fin ∧ (∀ x ∈ [(1 : ℝ), 1], IsDouble x ∧ 0 ≤ x) ∧ tr.maxTime = .fin 2 ∧
    IsDouble 0 ∧ IsDouble 1 ∧ IsDouble (1 / 4) ∧ (4 : ℕ) ≤ 2 ^ 51 ∧ (1 : ℝ) ≤ (4 : ℕ) * (1 / 4) := by
  have d1 : IsDouble 1 := ⟨1, 0, by decide, by norm_num, by norm_num, by norm_num⟩
  refine ⟨⟨1, 2, (0 : Dbl) + .fin 1 + .fin 1, exTwoSeconds⟩, rfl, ?_, rfl, ?_, two_seconds, isDouble_zero, d1, ?_,
    by norm_num, by norm_num⟩
  · intro s hs p hp
    simp only [exTwoSeconds, List.mem_cons, List.not_mem_nil, or_false] at hs
    rcases hs with rfl | rfl <;>
    · simp only [List.mem_cons, List.not_mem_nil, or_false] at hp
      subst hp
      simp [Poly.N]
  · intro x hx
    simp only [List.mem_cons, List.not_mem_nil, or_false, or_self] at hx
    rw [hx]
    exact ⟨d1, by norm_num⟩
  · exact ⟨1, -2, by decide, by norm_num, by norm_num, by norm_num⟩

/-- The hypotheses of `C135_infinite_interval`, `C135_negative` and `C135_lost_interval`. -/
example : (∃ tr, Trajectory.setSegments exTwoSeconds = .ok tr) ∧ (∃ s, exTwoSeconds.head? = some s ∧ s.time = .fin 1) ∧
    exTwoSeconds.map (·.time) = [.fin 1, .fin 1] ∧ (1 : ℝ) ≤ -(-1) :=
  ⟨⟨⟨1, 2, (0 : Dbl) + .fin 1 + .fin 1, exTwoSeconds⟩, rfl⟩, ⟨_, rfl, rfl⟩, rfl, by norm_num⟩

/-- The hypotheses of `C135_undefined` and `C135_too_many`. -/
example : ¬ IsFinite (.inf false) ∧ (2 : ℝ) ^ 64 * (1 / 2 ^ 64) ≤ 1 :=
  ⟨by rintro ⟨x, hx⟩; simp at hx, by norm_num⟩

end Verif
