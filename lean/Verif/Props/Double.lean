import Verif.Proofs.DoubleLookup
import Verif.Props.Rounded

/-
C132: evaluation with overflow, underflow, infinities and NaN.
-/
namespace Verif

open Spec

/-! ### C132 the arithmetic -/

/-- **C132**, the arithmetic that is used is the one of the format: a sum, a difference and a product of finite
numbers is a `double` to which none is nearer, or an infinity of the sign of the exact result, and the latter only when
the exact result is at least `2^1024 - 2^970` in size. -/
theorem C132_arithmetic (x y : ℝ) :
    (∀ z, Dbl.fin x + .fin y = .fin z → Nearest (x + y) z) ∧ (∀ z, Dbl.fin x - .fin y = .fin z → Nearest (x - y) z) ∧
    (∀ z, Dbl.fin x * .fin y = .fin z → Nearest (x * y) z) ∧
    (∀ s, Dbl.fin x + .fin y = .inf s → (s = true ↔ x + y < 0)) ∧
    (∀ s, Dbl.fin x - .fin y = .inf s → (s = true ↔ x - y < 0)) ∧
    (∀ s, Dbl.fin x * .fin y = .inf s → (s = true ↔ x * y < 0)) ∧
    (|x + y| < (2 : ℝ) ^ (1024 : ℤ) - (2 : ℝ) ^ (970 : ℤ) → IsFinite (Dbl.fin x + .fin y)) ∧
    (|x - y| < (2 : ℝ) ^ (1024 : ℤ) - (2 : ℝ) ^ (970 : ℤ) → IsFinite (Dbl.fin x - .fin y)) ∧
    (|x * y| < (2 : ℝ) ^ (1024 : ℤ) - (2 : ℝ) ^ (970 : ℤ) → IsFinite (Dbl.fin x * .fin y)) :=
  ⟨fun _ h => ofReal_nearest h, fun _ h => ofReal_nearest (by rwa [fin_sub] at h), fun _ h => ofReal_nearest h,
    fun _ h => ofReal_eq_inf h, fun _ h => ofReal_eq_inf (by rwa [fin_sub] at h), fun _ h => ofReal_eq_inf h,
    fun h => ⟨_, ofReal_finite h⟩, fun h => ⟨_, by rw [fin_sub]; exact ofReal_finite h⟩, fun h => ⟨_, ofReal_finite h⟩⟩

/-- **C132**, a `double` is not changed by rounding, so that exact results stay exact. -/
theorem C132_exact (x y : ℝ) :
    (IsDouble (x + y) → Dbl.fin x + .fin y = .fin (x + y)) ∧ (IsDouble (x * y) → Dbl.fin x * .fin y = .fin (x * y)) := by
  have key : ∀ z, IsDouble z → Dbl.ofReal z = .fin z := by
    intro z hz
    unfold Dbl.ofReal
    rw [hz.round64, if_pos hz.lt]
  exact ⟨key _, key _⟩

/-! ### C132 polynomials -/

/-- **C132.** What is not finite does not disappear: when `evaluate(t, d)` returns a finite number, every coefficient
that takes part in it is finite, and so is the time unless the derivative is constant. -/
theorem C132_propagates (p : Poly Dbl) (t : Dbl) (d : ℕ) (v : ℝ) (hd : d < p.N)
    (h : p.evaluate t d = .ok (.fin v)) :
    (∀ (j : ℕ) x, d ≤ j → p.coeffs[j]? = some x → IsFinite x) ∧ (d + 1 < p.N → IsFinite t) := by
  unfold Poly.evaluate at h
  rw [if_neg (by omega)] at h
  split_ifs at h with h1
  rw [Res.ok.injEq, Int.toNat_natCast] at h
  unfold Poly.evalCore at h
  dsimp only at h
  obtain ⟨h2, h3, h4⟩ := hornerDown_finite _ _ _ _ _ ⟨v, h⟩
  refine ⟨fun j x hj hx => ?_, fun h5 => h3 (by omega)⟩
  have hjN : j < p.N := (List.getElem?_eq_some_iff.mp hx).1
  have key : IsFinite ((baseCoeff d j : Dbl) * p.coeffs.getD j 0) := by
    by_cases hl : j = p.N - 1
    · rw [hl]; exact h2
    · have := h4 (j - d) (by omega)
      rwa [show d + (j - d) = j by omega] at this
  obtain ⟨z, hz⟩ := key
  obtain ⟨-, y, -, hy, -⟩ := mul_eq_fin hz
  rw [List.getD_eq_getElem?_getD, hx, Option.getD_some] at hy
  exact ⟨y, hy⟩

/-- **C132.** When `evaluate(t, d)` returns a finite number, it is the `d`-th derivative at `t` up to `2 N` relative
errors of every term and what underflow can add. No bound on the size of coefficients or time is assumed. -/
theorem C132_finite (p : Poly Dbl) (c : List ℝ) (hc : p.coeffs = c.map .fin) (hN : p.N ≤ 22) (t : ℝ) (d : ℕ) (v : ℝ)
    (h : p.evaluate (.fin t) d = .ok (.fin v)) :
    |v - iteratedDeriv d (curve c) t| ≤
      ((1 + 1 / 2 ^ 53 : ℝ) ^ (2 * p.N) - 1) * iteratedDeriv d (curve (c.map abs)) |t| + underflowError p.N t := by
  rw [iteratedDeriv_curve, iteratedDeriv_curve]
  unfold Poly.evaluate at h
  have hlen : p.N = c.length := by unfold Poly.N; rw [hc, List.length_map]
  by_cases hd : (d : ℤ) ≥ p.N
  · rw [if_pos hd, Res.ok.injEq] at h
    have hv : v = 0 := (Dbl.fin.inj h).symm
    rw [derivAt_eq_sum, derivAt_eq_sum, List.length_map, show c.length - d = 0 by omega, Finset.sum_range_zero,
      Finset.sum_range_zero, hv, sub_zero, abs_zero, mul_zero, zero_add]
    unfold underflowError
    have := tiny64_pos
    have := u64_pos
    positivity
  · rw [if_neg hd, if_neg (by unfold kMaxConvolutionSize; omega), Res.ok.injEq, Int.toNat_natCast] at h
    exact evalCore_double p c hc hN d (by omega) t v h

/-- **C132.** The result is finite when the derivative of the polynomial with the absolute values of the coefficients
is not over `2^1021` at `|t|` (or at 1), for times up to `2^40` seconds. -/
theorem C132_range (p : Poly Dbl) (c : List ℝ) (hc : p.coeffs = c.map .fin) (hN : p.N ≤ 22) (t : ℝ) (d : ℕ)
    (ht : |t| ≤ 2 ^ 40) (hr : iteratedDeriv d (curve (c.map abs)) (max 1 |t|) ≤ (2 : ℝ) ^ (1021 : ℤ)) :
    ∃ v, p.evaluate (.fin t) d = .ok (.fin v) := by
  rw [iteratedDeriv_curve] at hr
  unfold Poly.evaluate
  by_cases hd : (d : ℤ) ≥ p.N
  · exact ⟨0, by rw [if_pos hd]; rfl⟩
  · rw [if_neg hd, if_neg (by unfold kMaxConvolutionSize; omega), Int.toNat_natCast]
    obtain ⟨v, hv⟩ := evalCore_range p c hc hN d (by omega) t (max 1 |t|) (le_max_left _ _) (le_max_right _ _)
      (max_le (by norm_num) ht) hr
    exact ⟨v, by rw [hv]⟩

/-- **C132.** At the time NaN the value of every derivative that is not constant is NaN. -/
theorem C132_nan (p : Poly Dbl) (hN : p.N ≤ 22) (d : ℕ) (hd : d + 1 < p.N) : p.evaluate .nan d = .ok .nan := by
  unfold Poly.evaluate
  rw [if_neg (by omega), if_neg (by unfold kMaxConvolutionSize; omega), Int.toNat_natCast]
  unfold Poly.evalCore
  dsimp only
  rw [hornerDown_nan_time _ _ _ (by omega)]

/-! ### C132 trajectories -/

/-- **C132.** In a trajectory whose durations are finite and not negative and whose total time did not overflow, a time
up to `getMaxTime()` is looked up with the accuracy of C101: neither overflow nor underflow happens in the search, and
the time in the segment is finite. -/
theorem C132_lookup {segs : List (Segment Dbl)} {tr : Trajectory Dbl} (hset : Trajectory.setSegments segs = .ok tr)
    (ts : List ℝ) (hts : segs.map (·.time) = ts.map .fin) (hd : ∀ x ∈ ts, IsDouble x ∧ 0 ≤ x) (M : ℝ)
    (hM : tr.maxTime = .fin M) (t : ℝ) (htd : IsDouble t) (ht0 : 0 ≤ t) (ht1 : t ≤ M) (d : ℕ) :
    ∃ i s τ, segs[i]? = some s ∧ tr.evaluate (.fin t) d = s.evaluate (.fin τ) d ∧
      (ts.take i).sum - ((1 + 1 / 2 ^ 53 : ℝ) ^ (i + 1) - 1) * (ts.take i).sum ≤ t ∧
      t ≤ (ts.take (i + 1)).sum + ((1 + 1 / 2 ^ 53 : ℝ) ^ (i + 1) - 1) * (ts.take (i + 1)).sum ∧
      |τ - (t - (ts.take i).sum)| ≤
        1 / 2 ^ 53 * t + ((1 + 1 / 2 ^ 53 : ℝ) ^ (i + 3) - 1) * (ts.take (i + 1)).sum := by
  obtain ⟨hne, e1, e2⟩ := setSegments_fold hset
  have h0 : IsDouble 0 := ⟨0, 0, by decide, by norm_num, by norm_num, by simp⟩
  rw [hM] at e2
  obtain ⟨k, a, g1, g2, g3, g4, g5, g6, g7⟩ := findSegment_double t M segs ts 0 0 hts hd h0 le_rfl e2.symm
  have hlen : segs.length = ts.length := by
    have := congrArg List.length hts
    simpa using this
  have hne' : ts.map onlyTime ≠ [] := by
    have := List.length_pos_iff.mpr hne
    rw [← List.length_pos_iff, List.length_map]
    omega
  obtain ⟨k', a', i, s', b1, b2, b3, b4, b5, b6, b7⟩ := lookup_bounds round53_rounding hne' (by
      intro s hs
      obtain ⟨x, hx, rfl⟩ := List.mem_map.mp hs
      exact (hd x hx).2) ⟨t⟩ ht0 (by
      change t ≤ Fl.val (List.foldl _ (⟨0⟩ : Fl round53) _)
      rw [g7]
      exact ht1)
  change findSegment (⟨t⟩ : Fl round53) (ts.map onlyTime) ⟨0⟩ 0 = _ at b1
  rw [g2, Prod.mk.injEq] at b1
  obtain ⟨rfl, rfl⟩ := b1
  rw [List.length_map, ← hlen] at b3
  rw [List.getElem?_map, Option.map_eq_some_iff] at b4
  obtain ⟨x, hx, rfl⟩ := b4
  rw [exactStart_onlyTime] at b5 b7
  rw [exactStart_onlyTime] at b6 b7
  have hi : i < segs.length := by
    rw [hlen]
    exact (List.getElem?_eq_some_iff.mp hx).1
  have hsi : segs[i]? = some segs[i] := List.getElem?_eq_getElem hi
  have htime : segs[i].time = .fin x := by
    have := congrArg (fun l => l[i]?) hts
    simpa [hsi, hx] using this
  have hxd := hd x (List.mem_of_getElem? hx)
  have hik : i ≤ k := by
    rw [b3]
    split_ifs <;> omega
  have hxa : x ≤ a := g6 i x (by omega) hx
  have hd1 := sub_finite g3 hxd.1 g4 hxd.2
  have hd2 := round53_isDouble g3 hxd.1 g4 hxd.2
  have hd3 : 0 ≤ round53 (a - x) := by
    rw [← rnd_zero round53_rounding]
    exact round53_rounding.mono (by linarith)
  refine ⟨i, segs[i], round53 (t - round53 (a - x)), hsi, ?_, b5, b6, b7⟩
  unfold Trajectory.evaluate
  rw [e1]
  change (if Dbl.fin t > (findSegment (.fin t) segs (.fin 0) 0).2 then _ else _) = _
  rw [show findSegment (Dbl.fin t) segs 0 0 = (k, .fin a) from g1, g1]
  dsimp only
  rw [if_neg (show ¬ Dbl.fin t > .fin a from not_lt.mpr b2), ← b3, Res.at'_of_lt hi, Res.ok_bind, htime, hd1,
    sub_finite htd hd2 ht0 hd3]

/-- **C132.** Every finite entry of the result is the value of the dimension at the time in the segment, up to the
errors of C132_finite. -/
theorem C132_segment (s : Segment Dbl) (hN : ∀ p ∈ s.polys, p.N ≤ 22) (τ : ℝ) (d : ℕ) (l : List Dbl)
    (h : s.evaluate (.fin τ) d = .ok l) :
    List.Forall₂ (fun (p : Poly Dbl) v => ∀ c x, p.coeffs = c.map .fin → v = .fin x →
      |x - iteratedDeriv d (curve c) τ| ≤ ((1 + 1 / 2 ^ 53 : ℝ) ^ (2 * p.N) - 1) *
        iteratedDeriv d (curve (c.map abs)) |τ| + underflowError p.N τ) s.polys l := by
  unfold Segment.evaluate at h
  generalize s.polys = ps at hN h
  induction ps generalizing l with
  | nil =>
    rw [List.mapM_nil, Res.pure_eq, Res.ok.injEq] at h
    subst h
    exact .nil
  | cons p ps ih =>
    rw [List.mapM_cons, Res.bind_eq_ok] at h
    obtain ⟨v, hv, h⟩ := h
    rw [Res.bind_eq_ok] at h
    obtain ⟨vs, hvs, h⟩ := h
    rw [Res.pure_eq, Res.ok.injEq] at h
    subst h
    refine .cons (fun c x hc hx => ?_) (ih _ (fun q hq => hN q (by simp [hq])) hvs)
    rw [hx] at hv
    exact C132_finite p c hc (hN p (by simp)) τ d x hv

/-- **C132.** Looking up and evaluating together. -/
theorem C132_trajectory {segs : List (Segment Dbl)} {tr : Trajectory Dbl}
    (hset : Trajectory.setSegments segs = .ok tr) (hN : ∀ s ∈ segs, ∀ p ∈ s.polys, p.N ≤ 22)
    (ts : List ℝ) (hts : segs.map (·.time) = ts.map .fin) (hd : ∀ x ∈ ts, IsDouble x ∧ 0 ≤ x) (M : ℝ)
    (hM : tr.maxTime = .fin M) (t : ℝ) (htd : IsDouble t) (ht0 : 0 ≤ t) (ht1 : t ≤ M) (d : ℕ) :
    ∃ i s τ l, segs[i]? = some s ∧ tr.evaluate (.fin t) d = .ok l ∧
      |τ - (t - (ts.take i).sum)| ≤
        1 / 2 ^ 53 * t + ((1 + 1 / 2 ^ 53 : ℝ) ^ (i + 3) - 1) * (ts.take (i + 1)).sum ∧
      List.Forall₂ (fun (p : Poly Dbl) v => ∀ c x, p.coeffs = c.map .fin → v = .fin x →
        |x - iteratedDeriv d (curve c) τ| ≤ ((1 + 1 / 2 ^ 53 : ℝ) ^ (2 * p.N) - 1) *
          iteratedDeriv d (curve (c.map abs)) |τ| + underflowError p.N τ) s.polys l := by
  obtain ⟨i, s, τ, h1, h2, -, -, h5⟩ := C132_lookup hset ts hts hd M hM t htd ht0 ht1 d
  have hN' := hN s (List.mem_of_getElem? h1)
  obtain ⟨l, hl⟩ : ∃ l, s.evaluate (.fin τ) d = .ok l := by
    unfold Segment.evaluate
    generalize s.polys = ps at hN'
    induction ps with
    | nil => exact ⟨[], rfl⟩
    | cons p ps ih =>
      obtain ⟨l, hl⟩ := ih fun q hq => hN' q (by simp [hq])
      obtain ⟨v, hv⟩ : ∃ v, p.evaluate (.fin τ) d = .ok v := by
        unfold Poly.evaluate
        by_cases hd : (d : ℤ) ≥ p.N
        · exact ⟨0, by rw [if_pos hd]⟩
        · have := hN' p (by simp)
          exact ⟨_, by rw [if_neg hd, if_neg (by unfold kMaxConvolutionSize; omega)]⟩
      exact ⟨v :: l, by rw [List.mapM_cons, hv, Res.ok_bind, hl]; rfl⟩
  exact ⟨i, s, τ, l, h1, h2.trans hl, h5, C132_segment s hN' τ d l hl⟩

/-- **C132.** A time after `getMaxTime()`, and `+∞`, give the zero vector. -/
theorem C132_beyond {segs : List (Segment Dbl)} {tr : Trajectory Dbl} (hset : Trajectory.setSegments segs = .ok tr)
    (ts : List ℝ) (hts : segs.map (·.time) = ts.map .fin) (hd : ∀ x ∈ ts, IsDouble x ∧ 0 ≤ x) (M : ℝ)
    (hM : tr.maxTime = .fin M) (t : Dbl) (ht : t > .fin M) (d : ℕ) :
    tr.evaluate t d = .ok (List.replicate tr.D 0) := by
  obtain ⟨-, e1, e2⟩ := setSegments_fold hset
  rw [hM] at e2
  unfold Trajectory.evaluate
  rw [e1]
  dsimp only
  cases t with
  | fin t =>
    have h0 : IsDouble 0 := ⟨0, 0, by decide, by norm_num, by norm_num, by simp⟩
    obtain ⟨k, a, g1, -, -, -, g5, -⟩ := findSegment_double t M segs ts 0 0 hts hd h0 le_rfl e2.symm
    rw [show findSegment (Dbl.fin t) segs 0 0 = (k, .fin a) from g1]
    dsimp only
    exact if_pos (show a < t from g5.trans_lt ht)
  | inf s =>
    have hs : s = false := ht
    subst hs
    rw [findSegment_end _ not_gt_inf]
    dsimp only
    rw [← e2]
    exact if_pos ht
  | nan => exact absurd ht (not_lt_nan _)

/-- **C132.** The time NaN is not reported: the last segment is evaluated at NaN. -/
theorem C132_nan_time {segs : List (Segment Dbl)} {tr : Trajectory Dbl} (hset : Trajectory.setSegments segs = .ok tr)
    (d : ℕ) : ∃ s, segs[segs.length - 1]? = some s ∧ tr.evaluate .nan d = s.evaluate .nan d := by
  obtain ⟨hne, e1, -⟩ := setSegments_fold hset
  have hpos : 0 < segs.length := List.length_pos_iff.mpr hne
  have hi : segs.length - 1 < segs.length := by omega
  refine ⟨segs[segs.length - 1], List.getElem?_eq_getElem hi, ?_⟩
  unfold Trajectory.evaluate
  rw [e1, findSegment_end _ (not_nan_lt ·)]
  dsimp only
  rw [if_neg (not_lt_nan _), if_pos (by omega), Res.at'_of_lt hi, Res.ok_bind, nan_sub]

/-- **C132.** With the time `-∞` the first segment is used, and no entry of the result is finite for a dimension
whose derivative is not constant. -/
theorem C132_minus_infinity {segs : List (Segment Dbl)} {tr : Trajectory Dbl}
    (hset : Trajectory.setSegments segs = .ok tr) (ts : List ℝ) (hts : segs.map (·.time) = ts.map .fin)
    (hd : ∀ x ∈ ts, IsDouble x ∧ 0 ≤ x) (d : ℕ) :
    ∃ s, segs[0]? = some s ∧ tr.evaluate (.inf true) d = s.evaluate (.inf true) d ∧
      ∀ l, s.evaluate (.inf true) d = .ok l →
        List.Forall₂ (fun (p : Poly Dbl) v => d + 1 < p.N → ¬ IsFinite v) s.polys l := by
  obtain ⟨hne, e1, -⟩ := setSegments_fold hset
  have hpos : 0 < segs.length := List.length_pos_iff.mpr hne
  refine ⟨segs[0], List.getElem?_eq_getElem hpos, ?_, ?_⟩
  · obtain ⟨x, hx⟩ : ∃ x, ts[0]? = some x := by
      have hlen : segs.length = ts.length := by
        have := congrArg List.length hts
        simpa using this
      exact ⟨ts[0], List.getElem?_eq_getElem (by omega)⟩
    have htime : segs[0].time = .fin x := by
      have := congrArg (fun l => l[0]?) hts
      simpa [List.getElem?_eq_getElem hpos, hx] using this
    have hxd := (hd x (List.mem_of_getElem? hx))
    have hsum : (0 : Dbl) + segs[0].time = .fin x := by
      rw [htime]
      have := (C132_exact 0 x).1
      rw [zero_add] at this
      exact this hxd.1
    have hfind : findSegment (Dbl.inf true) segs 0 0 = (0, .fin x) := by
      cases segs with
      | nil => simp at hpos
      | cons s ss =>
        rw [List.getElem_cons_zero] at hsum
        rw [findSegment, hsum, if_pos (show Dbl.fin x > .inf true from rfl)]
    unfold Trajectory.evaluate
    rw [e1, hfind]
    dsimp only
    rw [if_neg (show ¬ Dbl.inf true > .fin x from fun h => absurd (show true = false from h) (by simp)),
      if_neg (by omega), Res.at'_of_lt hpos, Res.ok_bind, htime, sub_finite hxd.1 hxd.1 hxd.2 hxd.2]
    rfl
  · intro l h
    unfold Segment.evaluate at h
    generalize segs[0].polys = ps at h
    induction ps generalizing l with
    | nil =>
      rw [List.mapM_nil, Res.pure_eq, Res.ok.injEq] at h
      subst h
      exact .nil
    | cons p ps ih =>
      rw [List.mapM_cons, Res.bind_eq_ok] at h
      obtain ⟨v, hv, h⟩ := h
      rw [Res.bind_eq_ok] at h
      obtain ⟨vs, hvs, h⟩ := h
      rw [Res.pure_eq, Res.ok.injEq] at h
      subst h
      refine .cons (fun hp ⟨x, hx⟩ => ?_) (ih _ hvs)
      rw [hx] at hv
      obtain ⟨y, hy⟩ := (C132_propagates p _ d x (by omega) hv).2 hp
      simp at hy

/-! ### Examples -/

theorem isDouble_zpow {e : ℤ} (h1 : -1074 ≤ e) (h2 : e ≤ 971) : IsDouble ((2 : ℝ) ^ e) :=
  ⟨1, e, by decide, h1, h2, by simp⟩

theorem isDouble_zero : IsDouble 0 := ⟨0, 0, by decide, by norm_num, by norm_num, by simp⟩

/-- A polynomial with two coefficients, `0` and `2^e`, at a time. -/
theorem exLinear {e : ℤ} (h1 : -1074 ≤ e) (h2 : e ≤ 971) (t : Dbl) :
    (⟨[.fin 0, .fin (2 ^ e)]⟩ : Poly Dbl).evaluate t 0 = .ok (Dbl.fin (2 ^ e) * t + .fin 0) := by
  have e1 : (1 : Dbl) * .fin (2 ^ e) = .fin (2 ^ e) := by
    have := (C132_exact 1 ((2 : ℝ) ^ e)).2
    rw [one_mul] at this
    exact this (isDouble_zpow h1 h2)
  have e2 : (1 : Dbl) * .fin 0 = .fin 0 := by
    have := (C132_exact 1 0).2
    rw [mul_zero] at this
    exact this isDouble_zero
  have : (⟨[.fin 0, .fin (2 ^ e)]⟩ : Poly Dbl).evaluate t 0 =
      .ok ((1 : Dbl) * .fin (2 ^ e) * t + (1 : Dbl) * .fin 0) := rfl
  rw [this, e1, e2]

/-- **C132**, underflow is to be counted: without it the bound is false. The value `2^-2000` is returned as 0. -/
theorem C132_underflow_false : ¬ ∀ (p : Poly Dbl) (c : List ℝ) (t v : ℝ), p.coeffs = c.map .fin → p.N ≤ 22 →
    p.evaluate (.fin t) 0 = .ok (.fin v) →
    |v - curve c t| ≤ ((1 + 1 / 2 ^ 53 : ℝ) ^ (2 * p.N) - 1) * curve (c.map abs) |t| := by
  intro H
  have hp := zpow2_pos (-1000)
  have hr : round64 ((2 : ℝ) ^ (-1000 : ℤ) * (2 : ℝ) ^ (-1000 : ℤ)) = 0 := by
    rw [← zpow_add₀ (by norm_num)]
    unfold round64
    rw [if_pos]
    · rw [← zpow_sub₀ (by norm_num), roundEven_of_lt (n := 0), Int.cast_zero, zero_mul]
      · have := zpow2_pos (-1000 + -1000 - -1074)
        have h0 : ((0 : ℤ) : ℝ) = 0 := Int.cast_zero
        rw [h0]
        refine lt_trans (by norm_num) this
      · refine lt_of_lt_of_le (zpow_lt_zpow_right₀ (by norm_num) (by norm_num) : _ < (2 : ℝ) ^ (-1 : ℤ)) ?_
        norm_num
    · rw [abs_of_pos (zpow2_pos _)]
      exact zpow_lt_zpow_right₀ (by norm_num) (by norm_num)
  have hv : (⟨[.fin 0, .fin (2 ^ (-1000 : ℤ))]⟩ : Poly Dbl).evaluate (.fin (2 ^ (-1000 : ℤ))) 0 = .ok (.fin 0) := by
    rw [exLinear (by norm_num) (by norm_num), fin_mul]
    unfold Dbl.ofReal
    rw [hr, abs_zero, if_pos (zpow2_pos _)]
    have := (C132_exact 0 0).1
    rw [add_zero] at this
    rw [this isDouble_zero]
  have h := H ⟨[.fin 0, .fin (2 ^ (-1000 : ℤ))]⟩ [0, 2 ^ (-1000 : ℤ)] (2 ^ (-1000 : ℤ)) 0 rfl (by simp [Poly.N]) hv
  have hc : ∀ a b t : ℝ, curve [a, b] t = a + b * t := by
    intro a b t
    simp [curve, Finset.sum_range_succ]
  rw [List.map_cons, List.map_cons, List.map_nil, hc, hc, abs_zero, abs_of_pos hp, zero_add, zero_sub, abs_neg,
    abs_of_pos (mul_pos hp hp)] at h
  have h1 : ((1 + 1 / 2 ^ 53 : ℝ) ^ (2 * (⟨[.fin 0, .fin (2 ^ (-1000 : ℤ))]⟩ : Poly Dbl).N) - 1) ≤ 1 / 2 := by
    change ((1 + 1 / 2 ^ 53 : ℝ) ^ 4 - 1) ≤ 1 / 2
    norm_num
  have h2 := mul_pos hp hp
  have h3 := h.trans (mul_le_mul_of_nonneg_right h1 h2.le)
  generalize (2 : ℝ) ^ (-1000 : ℤ) * (2 : ℝ) ^ (-1000 : ℤ) = z at *
  linarith

/-- Overflow is seen in the result. -/
example : (⟨[.fin 0, .fin (2 ^ (900 : ℤ))]⟩ : Poly Dbl).evaluate (.fin (2 ^ (900 : ℤ))) 0 = .ok (.inf false) := by
  rw [exLinear (by norm_num) (by norm_num), fin_mul, ← zpow_add₀ (by norm_num)]
  have h : round64 ((2 : ℝ) ^ ((900 : ℤ) + 900)) = 2 ^ ((900 : ℤ) + 900) := by
    rw [round64_one_le]
    · have := round53_fix (m := 1) (e := 900 + 900) (by decide)
      simpa using this
    · rw [abs_of_pos (zpow2_pos _)]
      exact one_le_zpow₀ (by norm_num) (by norm_num)
  unfold Dbl.ofReal
  rw [h, abs_of_pos (zpow2_pos _), if_neg, show decide ((2 : ℝ) ^ ((900 : ℤ) + 900) < 0) = false from
    decide_eq_false (not_lt.mpr (zpow2_pos _).le)]
  · rfl
  · exact not_lt.mpr (zpow_le_zpow_right₀ (by norm_num) (by norm_num))

/-- The hypothesis of `C132_range` is met by large coefficients. -/
example : ∃ v, (⟨[.fin 0, .fin (2 ^ (900 : ℤ))]⟩ : Poly Dbl).evaluate (.fin 2) 0 = .ok (.fin v) := by
  refine C132_range _ [0, 2 ^ (900 : ℤ)] rfl (by simp [Poly.N]) 2 0 (by norm_num) ?_
  rw [iteratedDeriv_zero]
  have hc : ∀ a b t : ℝ, curve [a, b] t = a + b * t := by
    intro a b t
    simp [curve, Finset.sum_range_succ]
  rw [List.map_cons, List.map_cons, List.map_nil, hc, abs_zero, abs_of_pos (zpow2_pos _), zero_add,
    show max 1 |(2 : ℝ)| = (2 : ℝ) ^ (1 : ℤ) by norm_num, ← zpow_add₀ (by norm_num)]
  exact zpow_le_zpow_right₀ (by norm_num) (by norm_num)

/-- Two segments used as an example. -/
noncomputable def exDouble : List (Segment Dbl) :=
  [⟨[⟨[.fin 1, .fin 2]⟩], .fin 1, 2⟩, ⟨[⟨[.fin 3, .fin 4]⟩], .fin 2, 2⟩]

/-- The hypotheses of the lookup are met, and the sum of the durations is 3. -/
example : ∃ tr, Trajectory.setSegments exDouble = .ok tr ∧ exDouble.map (·.time) = [(1 : ℝ), 2].map .fin ∧
    (∀ x ∈ [(1 : ℝ), 2], IsDouble x ∧ 0 ≤ x) ∧ tr.maxTime = .fin 3 ∧ tr.evaluate .nan 0 = .ok [.nan] := by
  have d1 : IsDouble 1 := ⟨1, 0, by decide, by norm_num, by norm_num, by norm_num⟩
  have d2 : IsDouble 2 := ⟨2, 0, by decide, by norm_num, by norm_num, by norm_num⟩
  have d3 : IsDouble 3 := ⟨3, 0, by decide, by norm_num, by norm_num, by norm_num⟩
  have s1 : (0 : Dbl) + .fin 1 = .fin 1 := by
    have := (C132_exact 0 1).1
    rw [zero_add] at this
    exact this d1
  have s2 : Dbl.fin 1 + .fin 2 = .fin 3 := by
    have := (C132_exact 1 2).1
    rw [show (1 : ℝ) + 2 = 3 by norm_num] at this
    exact this d3
  have hset : Trajectory.setSegments exDouble = .ok ⟨1, 2, (0 : Dbl) + .fin 1 + .fin 2, exDouble⟩ := rfl
  refine ⟨_, hset, rfl, ?_, ?_, ?_⟩
  · intro x hx
    simp only [List.mem_cons, List.not_mem_nil, or_false] at hx
    rcases hx with rfl | rfl
    · exact ⟨d1, by norm_num⟩
    · exact ⟨d2, by norm_num⟩
  · change (0 : Dbl) + .fin 1 + .fin 2 = _
    rw [s1, s2]
  · obtain ⟨s, h1, h2⟩ := C132_nan_time hset 0
    have hs : s = ⟨[⟨[.fin 3, .fin 4]⟩], .fin 2, 2⟩ := (Option.some.inj h1).symm
    rw [show ((0 : ℕ) : ℤ) = 0 from rfl] at h2
    rw [h2, hs]
    unfold Segment.evaluate
    have := C132_nan ⟨[.fin 3, .fin 4]⟩ (by simp [Poly.N]) 0 (by simp [Poly.N])
    rw [show ((0 : ℕ) : ℤ) = 0 from rfl] at this
    rw [List.mapM_cons, this]
    rfl

end Verif
