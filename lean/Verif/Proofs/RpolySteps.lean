import Verif.Spec.RpolySteps
import Verif.Proofs.RpolyExact
import Verif.Proofs.Rpoly
import Verif.Proofs.RpolyFound
import Verif.Proofs.Io

/-
The steps of the root finder in terms of polynomials.
-/
namespace Verif
open Verif.Spec Polynomial

section
variable {K : Type} [CommRing K]

theorem decPoly_cons (x : K) (l : List K) : decPoly (x :: l) = C x * X ^ l.length + decPoly l := by
  induction l using List.reverseRecOn with
  | nil => simp [decPoly_single, decPoly_nil]
  | append_singleton l y ih =>
    rw [← List.cons_append, decPoly_snoc, ih, decPoly_snoc, List.length_append, List.length_singleton, pow_succ]
    ring

theorem decPoly_zero_cons (l : List K) : decPoly (0 :: l) = decPoly l := by
  rw [decPoly_cons]; simp

theorem decPoly_zipWith (α β : K) : ∀ (A B : List K), A.length = B.length →
    decPoly (List.zipWith (fun x y => α * x + β * y) A B) = C α * decPoly A + C β * decPoly B := by
  intro A
  induction A with
  | nil =>
    intro B h
    have : B = [] := List.length_eq_zero_iff.mp h.symm
    subst this
    simp [decPoly_nil]
  | cons x A ih =>
    intro B h
    match B, h with
    | y :: B, h =>
      have h' : A.length = B.length := by simpa using h
      rw [List.zipWith_cons_cons, decPoly_cons, ih B h', decPoly_cons, decPoly_cons, List.length_zipWith, h', Nat.min_self,
        map_add, map_mul, map_mul]
      ring

theorem decPoly_coeff_zero (l : List K) (x : K) : (decPoly (l ++ [x])).coeff 0 = x := by
  rw [decPoly_snoc]; simp

theorem decPoly_coeff_one (l : List K) (x y : K) : (decPoly (l ++ [y, x])).coeff 1 = y := by
  have : l ++ [y, x] = (l ++ [y]) ++ [x] := by simp
  rw [this, decPoly_snoc, decPoly_snoc]
  simp [coeff_X_mul, coeff_C]

end

/-- A loop over indices: the length and the entries of the result. -/
theorem mapM_range_get {α : Type} {f : ℕ → Res α} {n : ℕ} {t : List α} (h : (List.range n).mapM f = .ok t) :
    t.length = n ∧ ∀ i (hi : i < t.length), f i = .ok t[i] := by
  rw [Res.mapM_forall₂] at h
  have hl := h.length_eq
  rw [List.length_range] at hl
  refine ⟨hl.symm, fun i hi => ?_⟩
  have := (List.forall₂_iff_get.mp h).2 i (by simpa [hl] using hi) hi
  simpa using this

theorem at'_last {α : Type} (l : List α) (x a : α) (i : ℕ) (hi : i + 1 = (l ++ [x]).length)
    (h : Res.at' (l ++ [x]) i = .ok a) : a = x := by
  rw [Res.at'_eq_ok] at h
  have : i = l.length := by simpa using hi
  subst this
  simpa using h.symm

theorem at'_butlast {α : Type} (l : List α) (y x a : α) (i : ℕ) (hi : i + 2 = (l ++ [y, x]).length)
    (h : Res.at' (l ++ [y, x]) i = .ok a) : a = y := by
  rw [Res.at'_eq_ok] at h
  have : i = l.length := by simpa using hi
  subst this
  simpa using h.symm

theorem at'_append_left {α : Type} {l l' : List α} {i : ℕ} {a : α} (hi : i < l.length)
    (h : Res.at' (l ++ l') i = .ok a) : a = l[i] := by
  rw [Res.at'_eq_ok, List.getElem?_append_left hi, List.getElem?_eq_getElem hi] at h
  simpa using h.symm

/-! ### Steps with a real shift -/

theorem horner_length (s : ℝ) (p : List ℝ) (r : List ℝ × ℝ) (h : horner s p = .ok r) : r.1.length = p.length := by
  cases p with
  | nil => cases h
  | cons p0 ps =>
    cases h
    simp [hornerLoop_length]

theorem eval_of_division (s r : ℝ) (P Q : ℝ[X]) (h : P = (X - C s) * Q + C r) : P.eval s = r := by
  rw [h]; simp

/-- The new `K` of the real iteration. -/
theorem linear_combine (n : ℕ) (t q0 : ℝ) (lk lp l : List ℝ) (x y : ℝ) (hk : lk.length + 1 = n) (hp : lp.length = n)
    (hq : Res.at' (lp ++ [y]) 0 = .ok q0)
    (h : (List.range (n - 1)).mapM (fun i => do
        let x ← Res.at' (lk ++ [x]) i
        let y ← Res.at' (lp ++ [y]) (i + 1)
        pure (t * x + y)) = .ok l) : decPoly (q0 :: l) = C t * decPoly lk + decPoly lp := by
  obtain ⟨hl, he⟩ := mapM_range_get h
  cases lp with
  | nil => simp at hp; omega
  | cons p0 lp =>
    have hp' : lp.length = n - 1 := by simp at hp; omega
    have h0 : q0 = p0 := by
      have := at'_append_left (l := p0 :: lp) (l' := [y]) (i := 0) (by simp) hq
      simpa using this
    have hl' : l = List.zipWith (fun x y => t * x + 1 * y) lk lp := by
      apply List.ext_getElem
      · rw [List.length_zipWith]; omega
      · intro i h1 h2
        have h3 := he i h1
        rw [Res.bind_eq_ok] at h3
        obtain ⟨x', e1, h3⟩ := h3
        rw [Res.bind_eq_ok] at h3
        obtain ⟨y', e2, h3⟩ := h3
        have e1' := at'_append_left (l := lk) (by omega) e1
        have e2' := at'_append_left (l := p0 :: lp) (by simp; omega) e2
        simp only [List.getElem_cons_succ] at e2'
        rw [Res.pure_eq, Res.ok.injEq] at h3
        rw [← h3, List.getElem_zipWith, e1', e2', one_mul]
    rw [h0, hl', decPoly_cons, decPoly_zipWith _ _ _ _ (by omega), decPoly_cons, List.length_zipWith, map_one]
    have : min lk.length lp.length = lp.length := by omega
    rw [this]
    ring

/-- `K` divided by `x - s`, as the code keeps it: a zero in front. -/
theorem linear_shift (n : ℕ) (lk l : List ℝ) (x : ℝ) (hk : lk.length + 1 = n)
    (h : (List.range (n - 1)).mapM (fun i => Res.at' (lk ++ [x]) i) = .ok l) : l = lk := by
  obtain ⟨hl, he⟩ := mapM_range_get h
  apply List.ext_getElem
  · omega
  · intro i h1 h2
    exact at'_append_left (by omega) (he i h1)

/-- The step of the real iteration. -/
theorem realAdvance_step (m : RMath ℝ) (hm : ExactMath m) (p : List ℝ) (st st' : RealState ℝ) (mp : ℝ)
    (r : List ℝ × ℝ) (hp : p.length = st.k.length + 1) (hr : horner st.s p = .ok r)
    (h : realAdvance m st mp r.2 r.1 = .ok st') :
    LinearStep (10 * m.eps * |(decPoly st.k).coeff 0|) st.s (decPoly p) (decPoly st.k) (decPoly st'.k) ∧
    (st'.s = st.s - (decPoly p).eval st.s / (decPoly st'.k).eval st.s ∧ (decPoly st'.k).eval st.s ≠ 0 ∨
      st'.s = st.s ∧ |(decPoly st'.k).eval st.s| ≤ 10 * m.eps * |(decPoly st'.k).coeff 0|) ∧
    st'.k.length = st.k.length := by
  obtain ⟨lp, hlp, hP⟩ := horner_spec st.s p r hr
  have hlen := horner_length _ _ _ hr
  have hlp' : lp.length = st.k.length := by
    rw [hlp] at hlen; simp at hlen; omega
  have hpv := eval_of_division _ _ _ _ hP
  unfold realAdvance at h
  rw [Res.bind_eq_ok] at h
  obtain ⟨rk, hrk, h⟩ := h
  rw [Res.bind_eq_ok] at h
  obtain ⟨kl, hkl, h⟩ := h
  rw [Res.bind_eq_ok] at h
  obtain ⟨q0, hq0, h⟩ := h
  obtain ⟨lk, hlk, hK⟩ := horner_spec st.s st.k rk hrk
  have hlenk := horner_length _ _ _ hrk
  have hlk' : lk.length + 1 = st.k.length := by
    rw [hlk] at hlenk; simpa using hlenk
  have hkv := eval_of_division _ _ _ _ hK
  have hne : st.k ≠ [] := by
    intro e; rw [e] at hlk'; simp at hlk'
  have hc0 : kl = (decPoly st.k).coeff 0 := by
    obtain ⟨l, x, e⟩ : ∃ l x, st.k = l ++ [x] := ⟨_, _, (List.dropLast_append_getLast hne).symm⟩
    rw [e] at hkl ⊢
    rw [decPoly_coeff_zero]
    exact at'_last _ _ _ _ (by simp) hkl
  obtain ⟨k', hstep, h⟩ : ∃ k', (LinearStep (10 * m.eps * |(decPoly st.k).coeff 0|) st.s (decPoly p) (decPoly st.k)
        (decPoly k') ∧ k'.length = st.k.length) ∧ (do
      let r' ← horner st.s k'
      let kl' ← Res.at' k' (st.k.length - 1)
      pure (⟨st.s + (if m.fabs kl' * num 10 * m.eps < m.fabs r'.2 then -(r.2 / r'.2) else num 0), k',
        some (if m.fabs kl' * num 10 * m.eps < m.fabs r'.2 then -(r.2 / r'.2) else num 0), some mp, st.j⟩ :
          RealState ℝ)) = Res.ok st' := by
    by_cases hb : m.fabs kl * num 10 * m.eps < m.fabs rk.2
    · rw [if_pos hb, Res.bind_eq_ok] at h
      obtain ⟨l, hl, h⟩ := h
      rw [Res.pure_eq, Res.ok_bind] at h
      refine ⟨_, ?_, h⟩
      have hlen' := (mapM_range_get hl).1
      rw [hlk, hlp] at hl
      rw [hlp] at hq0
      have hz : rk.2 ≠ 0 := by
        intro e
        rw [hm.fabs, hm.fabs, e, abs_zero] at hb
        have := hm.eps
        rw [num_eq] at hb
        have : 0 ≤ |kl| * ((10 : ℕ) : ℝ) * m.eps := by positivity
        linarith
      refine ⟨Or.inl ⟨by rw [hkv]; exact hz, ?_⟩, by rw [List.length_cons, hlen']; omega⟩
      rw [linear_combine st.k.length _ q0 lk lp l _ _ hlk' hlp' hq0 hl, hpv, hkv]
      have hP' : (X - C st.s) * decPoly lp = decPoly p - C r.2 := by rw [hP]; ring
      have hK' : (X - C st.s) * decPoly lk = decPoly st.k - C rk.2 := by rw [hK]; ring
      have e : (X - C st.s) * (C (-(r.2 / rk.2)) * decPoly lk + decPoly lp) =
          C (-(r.2 / rk.2)) * ((X - C st.s) * decPoly lk) + (X - C st.s) * decPoly lp := by ring
      rw [e, hP', hK', map_neg, neg_mul, mul_sub, ← C_mul, div_mul_cancel₀ _ hz]
      ring
    · rw [if_neg hb, Res.bind_eq_ok] at h
      obtain ⟨l, hl, h⟩ := h
      rw [Res.pure_eq, Res.ok_bind] at h
      refine ⟨_, ?_, h⟩
      rw [hlk] at hl
      have := linear_shift st.k.length lk l _ hlk' hl
      subst this
      refine ⟨Or.inr ⟨?_, ?_⟩, by rw [List.length_cons]; omega⟩
      · rw [hkv, ← hc0]
        rw [hm.fabs, hm.fabs, not_lt, num_eq] at hb
        push_cast at hb
        linarith
      · have hn0 : (num 0 : ℝ) = 0 := by rw [num_eq]; simp
        rw [hn0, decPoly_zero_cons, hkv, hK]
        ring
  rw [Res.bind_eq_ok] at h
  obtain ⟨rk', hrk', h⟩ := h
  rw [Res.bind_eq_ok] at h
  obtain ⟨kl', hkl', h⟩ := h
  rw [Res.pure_eq, Res.ok.injEq] at h
  obtain ⟨lk2, hlk2, hK2⟩ := horner_spec st.s k' rk' hrk'
  have hkv2 := eval_of_division _ _ _ _ hK2
  have hne' : k' ≠ [] := by
    intro e; rw [e] at hrk'; cases hrk'
  have hc0' : kl' = (decPoly k').coeff 0 := by
    obtain ⟨l, x, e⟩ : ∃ l x, k' = l ++ [x] := ⟨_, _, (List.dropLast_append_getLast hne').symm⟩
    have h2 := hstep.2
    rw [e] at hkl' h2 ⊢
    rw [decPoly_coeff_zero]
    refine at'_last _ _ _ _ ?_ hkl'
    rw [h2]; omega
  subst h
  refine ⟨hstep.1, ?_, hstep.2⟩
  show (st.s + _ = _ ∧ _) ∨ (st.s + _ = _ ∧ _)
  by_cases hb : m.fabs kl' * num 10 * m.eps < m.fabs rk'.2
  · left
    rw [if_pos hb]
    have hz : rk'.2 ≠ 0 := by
      intro e
      rw [hm.fabs, hm.fabs, e, abs_zero] at hb
      have := hm.eps
      rw [num_eq] at hb
      have : 0 ≤ |kl'| * ((10 : ℕ) : ℝ) * m.eps := by positivity
      linarith
    exact ⟨by rw [hpv, hkv2]; ring, by rw [hkv2]; exact hz⟩
  · right
    rw [if_neg hb]
    refine ⟨by rw [num_eq]; simp, ?_⟩
    rw [hkv2, ← hc0']
    rw [hm.fabs, hm.fabs, not_lt, num_eq] at hb
    push_cast at hb
    linarith

/-! ### Steps without shift -/

theorem startK_zero {m : RMath ℝ} (hm : ExactMath m) (x : ℝ) (h : m.isZero x = false) : x ≠ 0 := by
  intro e
  rw [(hm.isZero x).mpr e] at h
  cases h

/-- One step without shift. `zerok` tells that the last coefficient of `K` is negligible. -/
theorem noShiftStep_step (m : RMath ℝ) (hm : ExactMath m) (p k k' : List ℝ) (z z' : Bool)
    (hp : p.length = k.length + 1) (hk : 1 ≤ k.length)
    (hz : if z then |(decPoly k).coeff 0| ≤ 10 * m.eps * |(decPoly p).coeff 1| else (decPoly k).coeff 0 ≠ 0)
    (h : noShiftStep m p k z = .ok (k', z')) :
    LinearStep (10 * m.eps * |(decPoly p).coeff 1|) 0 (decPoly p) (decPoly k) (decPoly k') ∧
    (if z' then |(decPoly k').coeff 0| ≤ 10 * m.eps * |(decPoly p).coeff 1| else (decPoly k').coeff 0 ≠ 0) ∧
    k'.length = k.length := by
  obtain ⟨lk, ck, rfl⟩ : ∃ l x, k = l ++ [x] :=
    ⟨_, _, (List.dropLast_append_getLast (by intro e; simp [e] at hk : k ≠ [])).symm⟩
  have hlk : lk.length + 1 = p.length - 1 := by rw [hp]; simp
  obtain ⟨lp, b, a, rfl⟩ : ∃ l b a, p = l ++ [b, a] := by
    have h1 : p ≠ [] := by intro e; simp [e] at hp
    have h2 : p.dropLast ≠ [] := by
      intro e
      have := congrArg List.length e
      simp at this
      omega
    refine ⟨p.dropLast.dropLast, p.dropLast.getLast h2, p.getLast h1, ?_⟩
    have e1 := List.dropLast_append_getLast h1
    have e2 := List.dropLast_append_getLast h2
    calc p = p.dropLast ++ [p.getLast h1] := e1.symm
      _ = (p.dropLast.dropLast ++ [p.dropLast.getLast h2]) ++ [p.getLast h1] := by rw [e2]
      _ = _ := by simp
  have hp0 : (decPoly (lp ++ [b, a])).coeff 0 = a := by
    have : lp ++ [b, a] = (lp ++ [b]) ++ [a] := by simp
    rw [this, decPoly_coeff_zero]
  have hp1 := decPoly_coeff_one lp a b
  have hk0 := decPoly_coeff_zero lk ck
  have hP : decPoly (lp ++ [b, a]) = X * decPoly (lp ++ [b]) + C a := by
    have : lp ++ [b, a] = (lp ++ [b]) ++ [a] := by simp
    rw [this, decPoly_snoc]
  have hn : (lp ++ [b, a]).length - 1 = (lp ++ [b]).length := by simp
  unfold noShiftStep at h
  rw [Res.bind_eq_ok] at h
  obtain ⟨aa, haa, h⟩ := h
  rw [Res.bind_eq_ok] at h
  obtain ⟨bb, hbb, h⟩ := h
  rw [Res.bind_eq_ok] at h
  obtain ⟨cc, hcc, h⟩ := h
  rw [Res.bind_eq_ok] at h
  obtain ⟨l, hl, h⟩ := h
  have haa' : aa = a := by
    have e : lp ++ [b, a] = (lp ++ [b]) ++ [a] := by simp
    rw [e] at haa
    exact at'_last _ _ _ _ (by simp) haa
  have hbb' : bb = b := at'_butlast _ _ _ _ _ (by simp) hbb
  have hcc' : cc = ck := at'_last _ _ _ _ (by rw [← hlk]; simp) hcc
  subst haa' hbb' hcc'
  rw [hp1] at hz ⊢
  rw [hk0] at hz
  rw [← hlk, Nat.add_sub_cancel] at h hl
  have hkv : (decPoly (lk ++ [cc])).eval 0 = cc := by rw [← coeff_zero_eq_eval_zero, hk0]
  have hpv : (decPoly (lp ++ [bb, aa])).eval 0 = aa := by rw [← coeff_zero_eq_eval_zero, hp0]
  have hn0 : (num 0 : ℝ) = 0 := by rw [num_eq]; simp
  have hnn := hm.eps
  unfold LinearStep
  rw [map_zero, sub_zero, hkv, hpv]
  cases z with
  | true =>
    rw [if_pos rfl] at h hz
    rw [Res.bind_eq_ok] at h
    obtain ⟨kl, hkl, h⟩ := h
    rw [Res.pure_eq, Res.ok.injEq, Prod.mk.injEq] at h
    obtain ⟨rfl, rfl⟩ := h
    have : l = lk := linear_shift (lk.length + 1) lk l cc rfl (by rw [Nat.add_sub_cancel]; exact hl)
    subst this
    have hkl' : kl = (decPoly (num 0 :: l)).coeff 0 := by
      obtain ⟨l', x, e⟩ : ∃ l' x, (num 0 : ℝ) :: l = l' ++ [x] :=
        ⟨_, _, (List.dropLast_append_getLast (by simp : (num 0 : ℝ) :: l ≠ [])).symm⟩
      have e' := congrArg List.length e
      rw [e] at hkl ⊢
      rw [decPoly_coeff_zero]
      exact at'_last _ _ _ _ (by rw [← e']; simp) hkl
    refine ⟨Or.inr ⟨hz, ?_⟩, ?_, by simp⟩
    · rw [hn0, decPoly_zero_cons, decPoly_snoc]; ring
    · rw [hkl']
      cases hz2 : m.isZero ((decPoly (num 0 :: l)).coeff 0) with
      | true =>
        rw [if_pos rfl, (hm.isZero _).mp hz2, abs_zero]
        positivity
      | false => exact startK_zero hm _ hz2
  | false =>
    rw [if_neg (by simp)] at hz
    rw [if_neg (by simp)] at h
    rw [Res.bind_eq_ok] at h
    obtain ⟨q0, hq0, h⟩ := h
    rw [Res.bind_eq_ok] at h
    obtain ⟨l', hl', h⟩ := h
    rw [Res.bind_eq_ok] at h
    obtain ⟨kl, hkl, h⟩ := h
    rw [Res.pure_eq, Res.ok.injEq, Prod.mk.injEq] at h
    obtain ⟨rfl, rfl⟩ := h
    have e : lp ++ [bb, aa] = (lp ++ [bb]) ++ [aa] := by simp
    rw [e] at hq0 hl'
    have hlen := (mapM_range_get hl').1
    have hcomb := linear_combine (lk.length + 1) _ q0 lk (lp ++ [bb]) l' cc aa rfl
      (by rw [hlk, hn]) hq0 (by rw [Nat.add_sub_cancel]; exact hl')
    have hkl' : kl = (decPoly (q0 :: l')).coeff 0 := by
      obtain ⟨l2, x, e⟩ : ∃ l2 x, q0 :: l' = l2 ++ [x] :=
        ⟨_, _, (List.dropLast_append_getLast (by simp : q0 :: l' ≠ [])).symm⟩
      have e' := congrArg List.length e
      rw [e] at hkl ⊢
      rw [decPoly_coeff_zero]
      refine at'_last _ _ _ _ ?_ hkl
      rw [← e', List.length_cons, hlen]
    refine ⟨Or.inl ⟨hz, ?_⟩, ?_, by simp [hlen]⟩
    · rw [hcomb, hP, decPoly_snoc lk cc]
      have e2 : (C aa : ℝ[X]) = C (aa / cc) * C cc := by rw [← C_mul, div_mul_cancel₀ _ hz]
      have e3 : (C (-aa / cc) : ℝ[X]) = - C (aa / cc) := by rw [neg_div, map_neg]
      rw [e3]
      linear_combination -e2
    · rw [hkl', hm.fabs, hm.fabs, num_eq]
      by_cases hd : |(decPoly (q0 :: l')).coeff 0| ≤ |bb| * m.eps * ((10 : ℕ) : ℝ)
      · rw [decide_eq_true hd, if_pos rfl]
        push_cast at hd
        linarith
      · rw [decide_eq_false hd, if_neg (by simp)]
        intro e0
        apply hd
        rw [e0, abs_zero]
        positivity

/-- The first `K` is the derivative of the polynomial, divided by the degree. -/
theorem initialK_derivative (p : List ℝ) (hp : 2 ≤ p.length) :
    C ((p.length - 1 : ℕ) : ℝ) * decPoly (initialK p) = derivative (decPoly p) := by
  have hne : p ≠ [] := by rintro rfl; simp at hp
  obtain ⟨q, a, rfl⟩ : ∃ l x, p = l ++ [x] := ⟨_, _, (List.dropLast_append_getLast hne).symm⟩
  have key : ∀ (ps : List ℝ) (n j : ℕ) (hn : n ≠ 0), ps.length + j = n →
      C (n : ℝ) * decPoly (ps.mapIdx fun i c => num (n - (i + j)) * c / num n) = derivative (X * decPoly ps) := by
    intro ps
    induction ps with
    | nil => intro n j hn hj; simp [decPoly_nil]
    | cons x ps ih =>
      intro n j hn hj
      have hn' : (n : ℝ) ≠ 0 := by exact_mod_cast hn
      have e : (fun i c => num (n - (i + 1 + j)) * c / num n : ℕ → ℝ → ℝ) =
          fun i c => num (n - (i + (j + 1))) * c / num n := by
        funext i c
        rw [Nat.add_right_comm, Nat.add_assoc i j 1]
      rw [List.mapIdx_cons, decPoly_cons, List.length_mapIdx, mul_add, e, ih n (j + 1) hn (by simp at hj; omega), decPoly_cons,
        mul_add, derivative_add, num_eq, num_eq, Nat.zero_add]
      congr 1
      have e1 : n - j = ps.length + 1 := by simp at hj; omega
      have e2 : (X : ℝ[X]) * (C x * X ^ ps.length) = C x * X ^ (ps.length + 1) := by ring
      rw [e1, e2, derivative_C_mul_X_pow, Nat.add_sub_cancel, ← mul_assoc, ← C_mul]
      congr 2
      field_simp
  have hq : 1 ≤ q.length := by simpa using hp
  have hn : (q ++ [a]).length - 1 = q.length := by simp
  unfold initialK
  rw [List.dropLast_concat, hn]
  cases q with
  | nil => simp at hq
  | cons q0 qs =>
    have hne : ((q0 :: qs).length) ≠ 0 := by simp
    have h := key qs (q0 :: qs).length 1 hne (by simp)
    show C _ * decPoly (q0 :: _) = _
    rw [decPoly_snoc, derivative_add, derivative_C, add_zero, decPoly_cons, List.length_mapIdx, mul_add, h, decPoly_cons,
      mul_add, derivative_add]
    congr 1
    have e2 : (X : ℝ[X]) * (C q0 * X ^ qs.length) = C q0 * X ^ (qs.length + 1) := by ring
    rw [e2, derivative_C_mul_X_pow, Nat.add_sub_cancel, List.length_cons, ← mul_assoc, ← C_mul]
    congr 2
    ring

end Verif
