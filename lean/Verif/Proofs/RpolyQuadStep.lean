import Verif.Proofs.RpolySteps

/-
The step with a quadratic shift, and the new quadratic, in terms of polynomials.
-/
namespace Verif
open Verif.Spec Polynomial

/-- What the scalars of `calcSC_ak1` are, for the remainders `b (x + u) + a` of `P` and `d (x + u) + c` of `K`. -/
structure ScalOK (a b u v c d : ℝ) (s : Scal ℝ) (w : ℝ) : Prop where
  ne : w ≠ 0
  which : s.two = true ∧ w = d ∨ s.two = false ∧ w = c
  a1 : w * s.a1 = b * c - a * d
  a3 : w * s.a3 = a ^ 2 + u * a * b + v * b ^ 2
  a7 : w * s.a7 = u * a * d + v * b * d + a * c
  a4 : (if s.two then (a + s.g) * s.f + s.h else a + u * b + s.h * s.f) * w = a * c + u * b * c + v * b * d
  a5 : (if s.two then (s.f + u) * c + v * d else c + (u + v * s.f) * d) * w = c ^ 2 + u * c * d + v * d ^ 2

theorem calcScal_ok (m : RMath ℝ) (hm : ExactMath m) (a b u v c d k1 k2 : ℝ) :
    (calcScal m a b u v c d k1 k2 = none ∧ |c| ≤ 10 * m.eps * |k1| ∧ |d| ≤ 10 * m.eps * |k2|) ∨
    ∃ s w, calcScal m a b u v c d k1 k2 = some s ∧ ScalOK a b u v c d s w := by
  have he := hm.eps
  unfold calcScal
  rw [hm.fabs, hm.fabs, hm.fabs, hm.fabs, num_eq]
  push_cast
  by_cases h3 : |c| ≤ 10 * m.eps * |k1| ∧ |d| ≤ 10 * m.eps * |k2|
  · left
    rw [if_pos h3]
    exact ⟨rfl, h3⟩
  · right
    rw [if_neg h3]
    by_cases hcd : |c| ≤ |d|
    · have hd : d ≠ 0 := by
        intro e
        rw [e, abs_zero] at hcd
        have hc : |c| = 0 := le_antisymm hcd (abs_nonneg _)
        apply h3
        rw [hc, e, abs_zero]
        constructor <;> positivity
      simp only [if_pos hcd]
      refine ⟨_, d, rfl, hd, Or.inl ⟨rfl, rfl⟩, ?_, ?_, ?_, ?_, ?_⟩
      all_goals
        simp only [if_true]
        field_simp
        try ring
    · have hc : c ≠ 0 := by
        intro e
        apply hcd
        rw [e, abs_zero]
        exact abs_nonneg _
      simp only [if_neg hcd]
      refine ⟨_, c, rfl, hc, Or.inr ⟨rfl, rfl⟩, ?_, ?_, ?_, ?_, ?_⟩
      all_goals
        simp only [Bool.false_eq_true, if_false]
        field_simp
        try ring

/-- The new `K` in the usual case. -/
theorem quad_combine (n : ℕ) (lp lk t : List ℝ) (a b c d a3 a7 q0 q1 : ℝ) (hp : lp.length + 1 = n) (hk : lk.length + 2 = n)
    (hq0 : Res.at' (lp ++ [b, a]) 0 = .ok q0) (hq1 : Res.at' (lp ++ [b, a]) 1 = .ok q1)
    (h : (List.range (n - 2)).mapM (fun i => do
      let x ← Res.at' (lp ++ [b, a]) (i + 1)
      let y ← Res.at' (lk ++ [d, c]) i
      let z ← Res.at' (lp ++ [b, a]) (i + 2)
      pure (-(a7 * x) + a3 * y + z)) = .ok t) :
    decPoly (q0 :: (-(a7 * q0) + q1) :: t) = C a3 * decPoly lk - C a7 * decPoly lp + (X * decPoly lp + C b) := by
  obtain ⟨hl, he⟩ := mapM_range_get h
  have e : q0 :: (-(a7 * q0) + q1) :: t = List.zipWith (fun x y => a3 * x + 1 * y) (0 :: 0 :: lk)
      (List.zipWith (fun x y => (-a7) * x + 1 * y) (0 :: lp) (lp ++ [b])) := by
    cases lp with
    | nil => simp at hp; omega
    | cons p0 lp =>
      have h0 : q0 = p0 := at'_append_left (l := p0 :: lp) (i := 0) (by simp) hq0
      have hs : ∀ i x, i < lp.length + 1 → Res.at' (p0 :: lp ++ [b, a]) (i + 1) = .ok x → (lp ++ [b])[i]? = some x := by
        intro i x hi hx
        rw [Res.at'_eq_ok] at hx
        have e1 : p0 :: lp ++ [b, a] = p0 :: ((lp ++ [b]) ++ [a]) := by simp
        rw [e1, List.getElem?_cons_succ, List.getElem?_append_left (by simpa using hi)] at hx
        exact hx
      have h1 := hs 0 q1 (by omega) hq1
      have hlen : (lp ++ [b]).length = lp.length + 1 := by simp
      have hex : ∃ y0 ys, lp ++ [b] = y0 :: ys := by
        cases hh : lp ++ [b] with
        | nil => simp at hh
        | cons y0 ys => exact ⟨y0, ys, rfl⟩
      obtain ⟨y0, ys, hy⟩ := hex
      have hq1' : q1 = y0 := by
        rw [hy] at h1
        simpa using h1.symm
      have hys : ys.length = lp.length := by
        have := congrArg List.length hy
        simpa using this.symm
      rw [List.cons_append, hy]
      simp only [List.zipWith_cons_cons]
      congr 1
      · rw [h0]; ring
      · congr 1
        · rw [hq1', h0]; ring
        · apply List.ext_getElem
          · rw [List.length_zipWith, List.length_zipWith]
            simp at hp
            omega
          · intro i h1 h2
            have h3 := he i h1
            rw [Res.bind_eq_ok] at h3
            obtain ⟨x', e1, h3⟩ := h3
            rw [Res.bind_eq_ok] at h3
            obtain ⟨y', e2, h3⟩ := h3
            rw [Res.bind_eq_ok] at h3
            obtain ⟨z', e3, h3⟩ := h3
            rw [Res.pure_eq, Res.ok.injEq] at h3
            simp only [List.length_cons] at hp
            have e1' := at'_append_left (l := p0 :: lp) (i := i + 1) (by simp; omega) e1
            rw [List.getElem_cons_succ] at e1'
            have e2' := at'_append_left (l := lk) (by omega) e2
            have e3' := hs (i + 1) z' (by omega) e3
            rw [hy, List.getElem?_cons_succ, List.getElem?_eq_getElem (by omega)] at e3'
            rw [← h3, List.getElem_zipWith, List.getElem_zipWith, e1', e2', ← Option.some.inj e3']
            ring
  rw [e, decPoly_zipWith _ _ _ _ (by simp [List.length_zipWith]; omega), decPoly_zipWith _ _ _ _ (by simp), decPoly_zero_cons,
    decPoly_zero_cons, decPoly_zero_cons, decPoly_snoc, map_neg, map_one]
  ring

/-- The new `K` when the remainders are almost proportional. -/
theorem quad_combine_unscaled (n : ℕ) (lp lk t : List ℝ) (a b c d a3 a7 q0 : ℝ) (hp : lp.length + 1 = n)
    (hk : lk.length + 2 = n) (hq0 : Res.at' (lp ++ [b, a]) 0 = .ok q0)
    (h : (List.range (n - 2)).mapM (fun i => do
      let x ← Res.at' (lp ++ [b, a]) (i + 1)
      let y ← Res.at' (lk ++ [d, c]) i
      pure (-(a7 * x) + a3 * y)) = .ok t) :
    decPoly (num 0 :: (-a7 * q0) :: t) = C a3 * decPoly lk - C a7 * decPoly lp := by
  obtain ⟨hl, he⟩ := mapM_range_get h
  have e : (-a7 * q0) :: t = List.zipWith (fun x y => a3 * x + (-a7) * y) (0 :: lk) lp := by
    cases lp with
    | nil => simp at hp; omega
    | cons p0 lp =>
      have h0 : q0 = p0 := at'_append_left (l := p0 :: lp) (i := 0) (by simp) hq0
      rw [List.zipWith_cons_cons]
      congr 1
      · rw [h0]; ring
      · simp only [List.length_cons] at hp
        apply List.ext_getElem
        · rw [List.length_zipWith]; omega
        · intro i h1 h2
          have h3 := he i h1
          rw [Res.bind_eq_ok] at h3
          obtain ⟨x', e1, h3⟩ := h3
          rw [Res.bind_eq_ok] at h3
          obtain ⟨y', e2, h3⟩ := h3
          rw [Res.pure_eq, Res.ok.injEq] at h3
          have e1' := at'_append_left (l := p0 :: lp) (i := i + 1) (by simp; omega) e1
          rw [List.getElem_cons_succ] at e1'
          have e2' := at'_append_left (l := lk) (by omega) e2
          rw [← h3, List.getElem_zipWith, e1', e2']
          ring
  have hn0 : (num 0 : ℝ) = 0 := by rw [num_eq]; simp
  rw [hn0, decPoly_zero_cons, e, decPoly_zipWith _ _ _ _ (by simp; omega), decPoly_zero_cons, map_neg]
  ring

theorem quadSD_length (u v : ℝ) (p : List ℝ) (r : List ℝ × ℝ × ℝ) (h : quadSD u v p = .ok r) :
    r.1.length = p.length := by
  match p, h with
  | p0 :: p1 :: ps, h =>
    cases h
    simp [quadSDLoop_length]

theorem split_last_two {α : Type} (k : List α) (hk : 2 ≤ k.length) : ∃ l y x, k = l ++ [y, x] := by
  have h1 : k ≠ [] := by intro e; simp [e] at hk
  have h2 : k.dropLast ≠ [] := by
    intro e
    have := congrArg List.length e
    simp at this
    omega
  refine ⟨k.dropLast.dropLast, k.dropLast.getLast h2, k.getLast h1, ?_⟩
  have e1 := List.dropLast_append_getLast h1
  have e2 := List.dropLast_append_getLast h2
  calc k = k.dropLast ++ [k.getLast h1] := e1.symm
    _ = (k.dropLast.dropLast ++ [k.dropLast.getLast h2]) ++ [k.getLast h1] := by rw [e2]
    _ = _ := by simp

theorem decPoly_coeff_zero' {K : Type} [CommRing K] (l : List K) (y x : K) : (decPoly (l ++ [y, x])).coeff 0 = x := by
  have : l ++ [y, x] = (l ++ [y]) ++ [x] := by simp
  rw [this, decPoly_coeff_zero]

theorem at'_last' {α : Type} (l : List α) (y x a : α) (i : ℕ) (hi : i + 1 = (l ++ [y, x]).length)
    (h : Res.at' (l ++ [y, x]) i = .ok a) : a = x := by
  have e : l ++ [y, x] = (l ++ [y]) ++ [x] := by simp
  rw [e] at h hi
  exact at'_last _ _ _ _ hi h

/-- What `calcSC_ak1` computes. -/
theorem calcSC_ok (m : RMath ℝ) (hm : ExactMath m) (a b u v : ℝ) (k : List ℝ) (sc : SC ℝ) (hk : 2 ≤ k.length)
    (h : calcSC m a b k u v = .ok sc) :
    (∃ lk, sc.qk = lk ++ [sc.d, sc.c] ∧ lk.length + 2 = k.length ∧
      decPoly k = quadr u v * decPoly lk + C sc.d * (X + C u) + C sc.c) ∧
    ((sc.scal = none ∧ |sc.c| ≤ 10 * m.eps * |(decPoly k).coeff 0| ∧ |sc.d| ≤ 10 * m.eps * |(decPoly k).coeff 1|) ∨
    ∃ s w, sc.scal = some s ∧ ScalOK a b u v sc.c sc.d s w) := by
  unfold calcSC at h
  rw [Res.bind_eq_ok] at h
  obtain ⟨r, hr, h⟩ := h
  rw [Res.bind_eq_ok] at h
  obtain ⟨k1, hk1, h⟩ := h
  rw [Res.bind_eq_ok] at h
  obtain ⟨k2, hk2, h⟩ := h
  rw [Res.pure_eq, Res.ok.injEq] at h
  subst h
  obtain ⟨lk, h1, h2⟩ := quadSD_spec u v k r hr
  have hlen := quadSD_length _ _ _ _ hr
  obtain ⟨l, y, x, rfl⟩ := split_last_two k hk
  have e1 : k1 = x := at'_last' _ _ _ _ _ (by simp) hk1
  have e2 : k2 = y := at'_butlast _ _ _ _ _ (by simp) hk2
  refine ⟨⟨lk, h1, ?_, h2⟩, ?_⟩
  · rw [← hlen, h1]; simp
  · show (calcScal m a b u v r.2.1 r.2.2 k1 k2 = none ∧ _) ∨ ∃ s w, calcScal m a b u v r.2.1 r.2.2 k1 k2 = some s ∧ _
    rw [decPoly_coeff_zero', decPoly_coeff_one, e1, e2]
    exact calcScal_ok m hm a b u v r.2.1 r.2.2 x y

/-- The step with a quadratic shift. -/
theorem nextK_step (m : RMath ℝ) (hm : ExactMath m) (u v : ℝ) (p k k' : List ℝ) (r : List ℝ × ℝ × ℝ) (sc : SC ℝ)
    (hp : p.length = k.length + 1) (hk : 2 ≤ k.length) (hr : quadSD u v p = .ok r)
    (hsc : calcSC m r.2.1 r.2.2 k u v = .ok sc) (h : nextK m k.length sc r.2.1 r.2.2 r.1 = .ok k') :
    QuadraticStep m.eps u v (decPoly p) (decPoly k) (decPoly k') ∧ k'.length = k.length := by
  obtain ⟨lp, hlp, hP⟩ := quadSD_spec u v p r hr
  have hlenp := quadSD_length _ _ _ _ hr
  have hlp' : lp.length + 1 = k.length := by
    rw [hlp] at hlenp; simp at hlenp; omega
  obtain ⟨⟨lk, hlk, hlk', hK⟩, hs⟩ := calcSC_ok m hm _ _ u v k sc hk hsc
  obtain ⟨q, a, b⟩ := r
  obtain ⟨qk, c, d, s⟩ := sc
  dsimp only at *
  have hP' : decPoly p = quadr u v * decPoly lp + C b * (X + C u) + C a := hP
  have hn0 : (num 0 : ℝ) = 0 := by rw [num_eq]; simp
  have hdP : quadr u v ∣ decPoly p - (C b * (X + C u) + C a) := ⟨decPoly lp, by rw [hP']; ring⟩
  have hdK : quadr u v ∣ decPoly k - (C d * (X + C u) + C c) := ⟨decPoly lk, by rw [hK]; ring⟩
  rcases hs with ⟨rfl, h1, h2⟩ | ⟨s', w, rfl, ok⟩
  · unfold nextK at h
    dsimp only at h
    rw [Res.bind_eq_ok] at h
    obtain ⟨t, ht, h⟩ := h
    rw [Res.pure_eq, Res.ok.injEq] at h
    have e : t = lk := by
      obtain ⟨hl, he⟩ := mapM_range_get ht
      apply List.ext_getElem
      · omega
      · intro i h1 h2
        have := he i h1
        rw [hlk] at this
        exact at'_append_left (by omega) this
    subst h e
    refine ⟨⟨a, b, c, d, hdP, hdK, Or.inr (Or.inr ⟨h1, h2, ?_⟩)⟩, by simp; omega⟩
    rw [hn0, decPoly_zero_cons, decPoly_zero_cons, hK]
    ring
  · have key3 : a * s'.a1 = s'.a7 * b - s'.a3 * d := by
      apply mul_left_cancel₀ ok.ne
      linear_combination a * ok.a1 - b * ok.a7 + d * ok.a3
    have key4 : -(v * b + u * a) * s'.a1 = s'.a7 * a - s'.a3 * c := by
      apply mul_left_cancel₀ ok.ne
      linear_combination -(v * b + u * a) * ok.a1 - a * ok.a7 + c * ok.a3
    have id : quadr u v * (C s'.a3 * decPoly lk - C s'.a7 * decPoly lp) = C s'.a3 * decPoly k + C (-s'.a7) * decPoly p +
        C s'.a1 * (C a * X - C (v * b)) := by
      have e3 : (C a * C s'.a1 : ℝ[X]) = C s'.a7 * C b - C s'.a3 * C d := by
        rw [← C_mul, key3]; simp
      have e4 : (-(C v * C b + C u * C a) * C s'.a1 : ℝ[X]) = C s'.a7 * C a - C s'.a3 * C c := by
        rw [← C_mul, ← C_mul, ← C_add, ← C_neg, ← C_mul, key4]; simp
      rw [hK, hP', map_neg, map_mul]
      linear_combination (-(X + C u)) * e3 - e4
    unfold nextK at h
    dsimp only at h
    unfold nextKScaled at h
    rw [Res.bind_eq_ok] at h
    obtain ⟨q0, hq0, h⟩ := h
    by_cases hb : num 10 * m.eps * m.fabs (if s'.two then a else b) < m.fabs s'.a1
    · rw [if_pos hb, Res.bind_eq_ok] at h
      obtain ⟨q1, hq1, h⟩ := h
      rw [Res.bind_eq_ok] at h
      obtain ⟨t, ht, h⟩ := h
      rw [Res.pure_eq, Res.ok.injEq] at h
      have hlen := (mapM_range_get ht).1
      subst h
      rw [hlp] at hq0 hq1 ht
      rw [hlk] at ht
      have hc := quad_combine k.length lp lk t a b c d _ _ q0 q1 hlp' hlk' hq0 hq1 ht
      have hz : s'.a1 ≠ 0 := by
        intro e
        rw [hm.fabs, hm.fabs, e, abs_zero, num_eq] at hb
        have := hm.eps
        have : 0 ≤ ((10 : ℕ) : ℝ) * m.eps * |if s'.two then a else b| := by positivity
        linarith
      refine ⟨⟨a, b, c, d, hdP, hdK, Or.inl ⟨by rw [← ok.a1]; exact mul_ne_zero ok.ne hz, s'.a3 / s'.a1, -(s'.a7 / s'.a1), ?_⟩⟩,
        by simp [hlen]; omega⟩
      rw [hc]
      have i3 : (C s'.a3 : ℝ[X]) = C (s'.a3 / s'.a1) * C s'.a1 := by rw [← C_mul, div_mul_cancel₀ _ hz]
      have i7 : (C s'.a7 : ℝ[X]) = C (s'.a7 / s'.a1) * C s'.a1 := by rw [← C_mul, div_mul_cancel₀ _ hz]
      have hz' : (C s'.a1 : ℝ[X]) ≠ 0 := C_ne_zero.mpr hz
      apply mul_left_cancel₀ hz'
      have x1 : quadr u v * (X * decPoly lp + C b) = X * decPoly p - (C a * X - C (v * b)) := by
        rw [hP', map_mul]; unfold quadr; ring
      rw [i3, map_neg, i7] at id
      rw [map_neg]
      linear_combination id + C s'.a1 * x1
    · rw [if_neg hb, Res.bind_eq_ok] at h
      obtain ⟨t, ht, h⟩ := h
      rw [Res.pure_eq, Res.ok.injEq] at h
      have hlen := (mapM_range_get ht).1
      subst h
      rw [hlp] at hq0 ht
      rw [hlk] at ht
      have hc := quad_combine_unscaled k.length lp lk t a b c d _ _ q0 hlp' hlk' hq0 ht
      rw [hm.fabs, hm.fabs, num_eq, not_lt] at hb
      push_cast at hb
      refine ⟨⟨a, b, c, d, hdP, hdK, Or.inr (Or.inl ⟨w, s'.a1, s'.a3, -s'.a7, ok.ne, ?_, ok.a1, ok.a3, ?_⟩)⟩,
        by simp [hlen]; omega⟩
      · rcases ok.which with ⟨e1, e2⟩ | ⟨e1, e2⟩
        · right
          rw [e1, if_pos rfl] at hb
          exact ⟨e2, hb⟩
        · left
          rw [e1, if_neg (by simp)] at hb
          exact ⟨e2, hb⟩
      · rw [hc, id]

end Verif
