import Verif.Proofs.DoubleAccept

/-
The checks return on segments whose coefficients are NaN or 0, with the root finder of the code.
-/
namespace Verif

open Spec

variable {dot : Dot Dbl} {ic : InputConstraints Dbl} {g : Fin 3 → Dbl} {s : Segment Dbl}

/-- NaN or zero. -/
def NZ (x : Dbl) : Prop := x = .nan ∨ x = 0

theorem ofReal_zero : Dbl.ofReal 0 = .fin 0 := by
  unfold Dbl.ofReal
  rw [round64_zero, abs_zero, if_pos (zpow2_pos _)]

theorem NZ.mul_left {x : Dbl} (h : NZ x) (y : Dbl) : NZ (x * y) := by
  rcases h with rfl | rfl
  · left; rw [nan_mul]
  · cases y with
    | fin y => right; change Dbl.ofReal (0 * y) = _; rw [zero_mul, ofReal_zero]; rfl
    | inf r => left; change Dbl.infMul r 0 = _; unfold Dbl.infMul; rw [if_pos rfl]
    | nan => left; rfl

theorem NZ.mul_right {x : Dbl} (h : NZ x) (y : Dbl) : NZ (y * x) := by
  rcases h with rfl | rfl
  · left; rw [mul_nan]
  · cases y with
    | fin y => right; change Dbl.ofReal (y * 0) = _; rw [mul_zero, ofReal_zero]; rfl
    | inf r => left; change Dbl.infMul r 0 = _; unfold Dbl.infMul; rw [if_pos rfl]
    | nan => left; rfl

theorem NZ.add {x y : Dbl} (hx : NZ x) (hy : NZ y) : NZ (x + y) := by
  rcases hx with rfl | rfl
  · left; rw [nan_add]
  rcases hy with rfl | rfl
  · left; rw [add_nan]
  · right; change Dbl.ofReal (0 + 0) = _; rw [add_zero, ofReal_zero]; rfl

theorem nz_zero : NZ 0 := Or.inr rfl

/-- The root finder of the code finds no roots of such a polynomial, and does not report it. -/
theorem codeRoots_nz {m : RMath Dbl} (h1 : m.fabs = Dbl.abs) (h2 : m.dblMin = .fin ((2 : ℝ) ^ (-1022 : ℤ))) (fuel : ℕ) {c : List Dbl}
    (hc : ∀ x ∈ c, NZ x) : codeRoots m fuel c = .ok (true, []) := by
  have : findLastNonZeroCoeff m c = none := by
    unfold findLastNonZeroCoeff
    rw [List.find?_eq_none]
    intro i _
    cases hi : c[i]? with
    | none => simp
    | some x =>
      rw [Option.any_some, h1, h2]
      simp only [decide_eq_true_eq]
      rcases hc x (List.mem_of_getElem? hi) with rfl | rfl
      · exact not_le_nan _
      · change ¬ ((2 : ℝ) ^ (-1022 : ℤ) ≤ |0|)
        rw [abs_zero]
        exact not_le.mpr (zpow2_pos _)
  unfold codeRoots findRoots
  rw [this]
  rfl

theorem getCoefficients_nz {p : Poly Dbl} {d : ℕ} (hd : 1 ≤ d) (hdN : d ≤ p.N) (hd2 : d < 22) (hN : p.N ≤ 22)
    (h : ∀ j x, d ≤ j → p.coeffs[j]? = some x → NZ x) :
    ∃ c, p.getCoefficients d = .ok c ∧ c.length = p.N ∧ ∀ x ∈ c, NZ x := by
  unfold Poly.getCoefficients
  rw [Res.check_of (by omega), Res.ok_bind, if_neg (by omega), if_neg (by unfold kMaxConvolutionSize; omega), Res.pure_eq]
  refine ⟨_, rfl, ?_, ?_⟩
  · rw [List.length_append, List.length_map, List.length_range, List.length_replicate, Int.toNat_natCast]
    omega
  · intro x hx
    rcases List.mem_append.mp hx with hx | hx
    · obtain ⟨i, hi, rfl⟩ := List.mem_map.mp hx
      rw [List.mem_range, Int.toNat_natCast] at hi
      rw [Int.toNat_natCast]
      refine NZ.mul_left ?_ _
      have : d + i < p.coeffs.length := by unfold Poly.N at hi; omega
      rw [List.getD_eq_getElem?_getD, List.getElem?_eq_getElem this, Option.getD_some]
      exact h (d + i) _ (by omega) (List.getElem?_eq_getElem this)
    · rw [List.eq_of_mem_replicate hx]
      exact nz_zero

theorem getCoefficients_returns {p : Poly Dbl} {d : ℕ} (hdN : d ≤ p.N) (hd2 : d < 22) (hN : p.N ≤ 22) :
    ∃ c, p.getCoefficients d = .ok c ∧ c.length = p.N := by
  unfold Poly.getCoefficients
  rw [Res.check_of (by omega), Res.ok_bind]
  by_cases h0 : d = 0
  · rw [if_pos (by omega), Res.pure_eq]
    exact ⟨_, rfl, rfl⟩
  · rw [if_neg (by omega), if_neg (by unfold kMaxConvolutionSize; omega), Res.pure_eq]
    refine ⟨_, rfl, ?_⟩
    rw [List.length_append, List.length_map, List.length_range, List.length_replicate, Int.toNat_natCast]
    omega

theorem convolve_nz {a b : List Dbl} (hne : a.length + b.length ≠ 0) (hb : ∀ x ∈ b, NZ x) :
    ∃ c, convolve a b = .ok c ∧ c.length = a.length + b.length - 1 ∧ ∀ x ∈ c, NZ x := by
  unfold convolve
  rw [if_neg hne]
  refine ⟨_, rfl, by rw [List.length_map, List.length_range], ?_⟩
  intro x hx
  obtain ⟨i, -, rfl⟩ := List.mem_map.mp hx
  unfold convolveEntry
  dsimp only
  generalize (List.range _) = l
  have key : ∀ acc : Dbl, NZ acc → NZ (l.foldl (fun acc (s : ℕ) =>
      acc + b.reverse.getD (max 0 (-((i : ℤ) - b.length + 1)) + s).toNat 0 *
        a.getD (((i : ℤ) - b.length + 1) + max 0 (-((i : ℤ) - b.length + 1)) + s).toNat 0) acc) := by
    induction l with
    | nil => exact fun acc h => h
    | cons k l ih =>
      intro acc h
      rw [List.foldl_cons]
      refine ih _ (h.add (NZ.mul_left ?_ _))
      rw [List.getD_eq_getElem?_getD]
      cases hk : b.reverse[(max 0 (-((i : ℤ) - b.length + 1)) + k).toNat]? with
      | none => exact nz_zero
      | some y => exact hb y (List.mem_reverse.mp (List.mem_of_getElem? hk))
  exact key 0 nz_zero

theorem convolvedLoop_nz {d : ℕ} (hdN : d < s.N) (hd2 : d + 1 < 22) (hN : s.N ≤ 22) (hs : ∀ p ∈ s.polys, p.N = s.N)
    (hz : ∀ p ∈ s.polys, ∀ j x, d + 1 ≤ j → p.coeffs[j]? = some x → NZ x) (dims : List ℤ) (hdims : ∀ i ∈ dims, 0 ≤ i ∧ i < s.D) :
    ∀ acc : List Dbl, acc.length = 2 * (s.N - d) - 2 → (∀ x ∈ acc, NZ x) →
      ∃ c, convolvedLoop s d (s.N - d) (s.N - d - 1) dims acc = .ok (some c) ∧ ∀ x ∈ c, NZ x := by
  induction dims with
  | nil => exact fun acc _ h => ⟨acc, rfl, h⟩
  | cons i dims ih =>
    intro acc hl hacc
    obtain ⟨hi0, hiD⟩ := hdims i (List.mem_cons_self ..)
    have hlt : i.toNat < s.polys.length := by unfold Segment.D at hiD; omega
    have hm := List.getElem_mem hlt
    have hpN := hs _ hm
    obtain ⟨c1, e1, l1⟩ := getCoefficients_returns (p := s.polys[i.toNat]) (d := d) (by omega) (by omega) (by omega)
    obtain ⟨c2, e2, l2, z2⟩ := getCoefficients_nz (p := s.polys[i.toNat]) (d := d + 1) (by omega) (by omega) (by omega)
      (by omega) (hz _ hm)
    have z2' : ∀ x ∈ c2.take (s.N - d - 1), NZ x := fun x hx => z2 x (List.mem_of_mem_take hx)
    have t1 : (c1.take (s.N - d)).length = s.N - d := by rw [List.length_take]; omega
    have t2 : (c2.take (s.N - d - 1)).length = s.N - d - 1 := by rw [List.length_take]; omega
    obtain ⟨c3, e3, l3, z3⟩ := convolve_nz (a := c1.take (s.N - d)) (b := c2.take (s.N - d - 1)) (by omega) z2'
    push_cast at e2
    rw [convolvedLoop, if_neg (by omega), Res.at'_of_lt hlt, Res.ok_bind, e1, Res.ok_bind, headN, if_pos (by omega), Res.ok_bind,
      e2, Res.ok_bind, headN, if_pos (by omega), Res.ok_bind, e3, Res.ok_bind, if_pos (by omega)]
    refine ih (fun j hj => hdims j (List.mem_cons_of_mem _ hj)) _ ?_ ?_
    · rw [List.length_zipWith]; omega
    · intro x hx
      obtain ⟨k, hk⟩ := List.mem_iff_getElem?.mp hx
      rw [List.getElem?_zipWith] at hk
      cases ha : acc[k]? with
      | none => rw [ha] at hk; simp at hk
      | some y =>
        cases hb : c3[k]? with
        | none => rw [ha, hb] at hk; simp at hk
        | some z =>
          rw [ha, hb] at hk
          simp only [Option.some.injEq] at hk
          rw [← hk]
          exact (hacc y (List.mem_of_getElem? ha)).add (z3 z (List.mem_of_getElem? hb))

theorem evaluate_returns (p : Poly Dbl) (hN : p.N ≤ 22) (t : Dbl) (d : ℕ) : ∃ v, p.evaluate t d = .ok v := by
  unfold Poly.evaluate
  by_cases h : (d : ℤ) ≥ p.N
  · rw [if_pos h]; exact ⟨_, rfl⟩
  · rw [if_neg h, if_neg (by unfold kMaxConvolutionSize; omega)]
    exact ⟨_, rfl⟩

theorem squares_returns {d : ℕ} {t : Dbl} (hs : ∀ p ∈ s.polys, p.N ≤ 22) (dims : List ℤ) (hdims : ∀ i ∈ dims, 0 ≤ i ∧ i < s.D) :
    ∀ acc, ∃ v, s.squaresG dblLib d t dims acc = .ok v := by
  induction dims with
  | nil => exact fun acc => ⟨acc, rfl⟩
  | cons i dims ih =>
    intro acc
    obtain ⟨hi0, hiD⟩ := hdims i (List.mem_cons_self ..)
    have hlt : i.toNat < s.polys.length := by unfold Segment.D at hiD; omega
    obtain ⟨v, hv⟩ := evaluate_returns (s.polys[i.toNat]) (hs _ (List.getElem_mem hlt)) t d
    rw [Segment.squaresG, if_neg (by omega), Res.at'_of_lt hlt, Res.ok_bind, hv, Res.ok_bind]
    exact ih (fun j hj => hdims j (List.mem_cons_of_mem _ hj)) _

theorem mapM_returns {α β : Type} {f : α → Res β} (l : List α) (h : ∀ a ∈ l, ∃ b, f a = .ok b) :
    ∃ r, l.mapM f = .ok r ∧ r.length = l.length := by
  induction l with
  | nil => exact ⟨[], rfl, rfl⟩
  | cons a l ih =>
    obtain ⟨b, hb⟩ := h a (List.mem_cons_self ..)
    obtain ⟨r, hr, hl⟩ := ih fun x hx => h x (List.mem_cons_of_mem _ hx)
    refine ⟨b :: r, ?_, by rw [List.length_cons, List.length_cons, hl]⟩
    rw [List.mapM_cons, hb, Res.ok_bind, hr, Res.ok_bind]
    rfl

theorem magnitudes_return {m : RMath Dbl} (h1 : m.fabs = Dbl.abs) (h2 : m.dblMin = .fin ((2 : ℝ) ^ (-1022 : ℤ))) (fuel : ℕ) {d : ℕ}
    (hdN : d < s.N) (hd2 : d + 1 < 22) (hN : s.N ≤ 22) (hs : ∀ p ∈ s.polys, p.N = s.N)
    (hz : ∀ p ∈ s.polys, ∀ j x, d + 1 ≤ j → p.coeffs[j]? = some x → NZ x) (hD : 3 ≤ s.D) {b : Dbl} (hb : ¬ (0 : Dbl) > b) :
    ∃ es, s.magnitudeCandidatesM dblLib (codeRoots m fuel) d 0 b kPosDim = .ok (true, es) ∧ es ≠ [] := by
  have hdims : ∀ i ∈ kPosDim, 0 ≤ i ∧ i < s.D := by
    intro i hi
    unfold kPosDim at hi
    simp only [List.mem_cons, List.not_mem_nil, or_false] at hi
    omega
  obtain ⟨c, ec, zc⟩ := convolvedLoop_nz hdN hd2 hN hs hz kPosDim hdims
    (List.replicate (((s.N : ℤ) - d + ((s.N : ℤ) - d - 1) - 1)).toNat 0) (by rw [List.length_replicate]; omega)
    (fun x hx => by rw [List.eq_of_mem_replicate hx]; exact nz_zero)
  have ect : s.candidateTimesM dblLib (codeRoots m fuel) d 0 b kPosDim = .ok (true, [0, b]) := by
    unfold Segment.candidateTimesM
    have hk : kPosDim = [0, 1, 2] := rfl
    rw [hk] at ec ⊢
    dsimp only
    rw [if_neg (by omega), show ((s.N : ℤ) - d).toNat = s.N - d by omega, show ((s.N : ℤ) - d - 1).toNat = s.N - d - 1 by omega, ec,
      Res.ok_bind]
    dsimp only
    unfold Poly.computeMinMaxCandidatesM
    rw [if_neg (by omega)]
    have : (Poly.mk c).getCoefficients (-1 + 1) = .ok c := by
      unfold Poly.getCoefficients
      rw [Res.check_of (by omega), Res.ok_bind, if_pos (by norm_num)]
      rfl
    rw [this, Res.ok_bind, codeRoots_nz h1 h2 fuel zc, Res.ok_bind]
    unfold candidatesG
    rw [if_neg hb]
    rfl
  unfold Segment.magnitudeCandidatesM
  rw [ect, Res.ok_bind]
  obtain ⟨es, he, hl⟩ := mapM_returns (f := fun t => do
    let m ← s.squaresG dblLib d t kPosDim 0
    pure (Extremum.mk t (dblLib.sqrt m) 0)) [0, b] (fun t _ => by
      obtain ⟨v, hv⟩ := squares_returns (d := d) (t := t) (fun p hp => by rw [hs p hp]; exact hN) kPosDim hdims 0
      rw [hv]
      exact ⟨_, rfl⟩)
  dsimp only
  rw [he]
  refine ⟨es, rfl, ?_⟩
  rintro rfl
  simp at hl

end Verif
