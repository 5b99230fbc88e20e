import Verif.Proofs.DoubleEqual
import Verif.Proofs.DoubleRange
import Verif.Spec.DoubleEqual

/-
C136: comparing polynomials, segments, trajectories and vertices of `double`.
-/
namespace Verif

open Spec

/-! ### C136 the model -/

/-- **C136**, the comparisons are those of C03, C77 and C23 with another comparison of numbers. -/
theorem C136_same_code {K : Type} [Field K] [LinearOrder K] (p q : Poly K) (s r : Segment K) (a b : Trajectory K)
    (v w : Vertex K) (tol : K) :
    p.beqG (fun x y => decide (x = y)) q = p.beq q ∧ s.beqG (fun x y => decide (x = y)) r = s.beq r ∧
    a.beqG (fun x y => decide (x = y)) b = a.beq b ∧ v.isEqualTolG (fun x => |x|) w tol = v.isEqualTol w tol := by
  have hp : ∀ p q : Poly K, p.beqG (fun x y => decide (x = y)) q = p.beq q := by
    intro p q
    unfold Poly.beqG Poly.beq
    by_cases h : p.N = q.N
    · rw [if_pos h, if_pos h, Res.ok.injEq, Bool.eq_iff_iff,
        zip_all (eq := fun x y => decide (x = y)) (good := fun _ => True) (by simp) p.coeffs q.coeffs h]
      simp
    · rw [if_neg h, if_neg h]
  have hps : ∀ ps qs : List (Poly K), polysEqLoopG (fun x y => decide (x = y)) ps qs = polysEqLoop ps qs := by
    intro ps
    induction ps with
    | nil => intro qs; cases qs <;> rfl
    | cons p ps ih =>
      intro qs
      cases qs with
      | nil => rfl
      | cons q qs => rw [polysEqLoopG, polysEqLoop, hp]; simp only [ih]
  have hs : ∀ s r : Segment K, s.beqG (fun x y => decide (x = y)) r = s.beq r := by
    intro s r
    unfold Segment.beqG Segment.beq
    rw [hps]
    simp only [decide_eq_false_iff_not, ne_eq]
  have hss : ∀ ps qs : List (Segment K), segmentsEqLoopG (fun x y => decide (x = y)) ps qs = segmentsEqLoop ps qs := by
    intro ps
    induction ps with
    | nil => intro qs; cases qs <;> rfl
    | cons p ps ih =>
      intro qs
      cases qs with
      | nil => rfl
      | cons q qs => rw [segmentsEqLoopG, segmentsEqLoop, hs]; simp only [ih]
  refine ⟨hp p q, hs s r, ?_, ?_⟩
  · unfold Trajectory.beqG Trajectory.beq
    rw [hss]
  · have hl : ∀ l : List (ℤ × List K), isEqualTolLoopG (fun x => |x|) tol w.constraints l = isEqualTolLoop tol w.constraints l := by
      intro l
      induction l with
      | nil => rfl
      | cons e l ih =>
        obtain ⟨k, c⟩ := e
        unfold isEqualTolLoopG isEqualTolLoop
        cases mapFind k w.constraints with
        | none => rfl
        | some c' =>
          dsimp only
          unfold vecSub
          by_cases h : c.length = c'.length
          · rw [if_pos h, if_pos h, Res.ok_bind, ih]
            rfl
          · rw [if_neg h, if_neg h]
            rfl
    unfold Vertex.isEqualTolG Vertex.isEqualTol
    rw [hl]

/-- **C136**, the comparison of two numbers: equal and not NaN. -/
theorem C136_number (a b : Dbl) : a.eq b = true ↔ a = b ∧ a ≠ .nan := dblEq_iff a b

/-! ### C136 `operator==` -/

/-- **C136.** Two polynomials with the same number of coefficients compare equal exactly when the coefficients are the
same and none is NaN. -/
theorem C136_polynomial (p q : Poly Dbl) (hN : p.N = q.N) :
    ∃ b, p.beqG Dbl.eq q = .ok b ∧ (b = true ↔ p = q ∧ ∀ x ∈ p.coeffs, x ≠ .nan) := by
  refine ⟨_, if_pos hN, ?_⟩
  rw [zip_all dblEq_iff p.coeffs q.coeffs hN]
  have : p = q ↔ p.coeffs = q.coeffs := by cases p; cases q; simp
  rw [this]

/-- **C136.** Two trajectories (of the same number of coefficients) compare equal exactly when they have the same
durations and the same polynomials and no number in them is NaN. -/
theorem C136_trajectory (n : ℕ) (a b : Trajectory Dbl) (ha : UniformN n a.segments) (hb : UniformN n b.segments) :
    ∃ e, a.beqG Dbl.eq b = .ok e ∧ (e = true ↔ SameSegments a.segments b.segments ∧ NoNan a.segments) := by
  unfold Trajectory.beqG
  split_ifs with h
  · refine ⟨false, rfl, ?_⟩
    simp only [Bool.false_eq_true, false_iff]
    rintro ⟨h1, -⟩
    exact h h1.length_eq
  · push Not at h
    exact segmentsEqLoopG_ok dblEq_iff n a.segments b.segments ha hb h

theorem sameSegments_refl (segs : List (Segment Dbl)) : SameSegments segs segs :=
  List.forall₂_same.mpr fun _ _ => ⟨rfl, rfl⟩

/-- **C136.** A trajectory without NaN compares equal to itself. Missing: with NaN (`C136_reflexive_false`). -/
theorem C136_reflexive_partial (n : ℕ) (a : Trajectory Dbl) (ha : UniformN n a.segments) (h : NoNan a.segments) :
    a.beqG Dbl.eq a = .ok true := by
  obtain ⟨e, h1, h2⟩ := C136_trajectory n a a ha ha
  rw [h1, h2.mpr ⟨sameSegments_refl _, h⟩]

/-- **C136** is false with NaN: a trajectory with a coefficient or a duration that is NaN is not equal to itself, nor to
a copy read back from a file. -/
theorem C136_reflexive_false (n : ℕ) (a b : Trajectory Dbl) (ha : UniformN n a.segments) (hb : UniformN n b.segments)
    (h : ¬ NoNan a.segments) : a.beqG Dbl.eq a = .ok false ∧ a.beqG Dbl.eq b = .ok false := by
  have key : ∀ b : Trajectory Dbl, UniformN n b.segments → a.beqG Dbl.eq b = .ok false := by
    intro b hb
    obtain ⟨e, h1, h2⟩ := C136_trajectory n a b ha hb
    cases e with
    | false => exact h1
    | true => exact absurd (h2.mp rfl).2 h
  exact ⟨key a ha, key b hb⟩

/-- **C136.** The comparison is symmetric and transitive for all numbers, also with NaN. -/
theorem C136_relation (n : ℕ) (a b c : Trajectory Dbl) (ha : UniformN n a.segments) (hb : UniformN n b.segments)
    (hc : UniformN n c.segments) :
    a.beqG Dbl.eq b = b.beqG Dbl.eq a ∧
    (a.beqG Dbl.eq b = .ok true → b.beqG Dbl.eq c = .ok true → a.beqG Dbl.eq c = .ok true) := by
  have nn : ∀ {l r : List (Segment Dbl)}, SameSegments l r → NoNan l → NoNan r := by
    intro l r h
    unfold SameSegments at h
    induction h with
    | nil => exact fun h => h
    | cons h1 _ ih =>
      intro hn s hs
      rcases List.mem_cons.mp hs with rfl | hs
      · have := hn _ (List.mem_cons_self ..)
        rwa [h1.1, h1.2] at this
      · exact ih (fun s hs => hn s (List.mem_cons_of_mem _ hs)) s hs
  have sy : ∀ {l r : List (Segment Dbl)}, SameSegments l r → SameSegments r l := fun h =>
    (List.Forall₂.flip h).imp fun _ _ h => ⟨h.1.symm, h.2.symm⟩
  have tra : ∀ {l r m : List (Segment Dbl)}, SameSegments l r → SameSegments r m → SameSegments l m := by
    intro l r m h
    unfold SameSegments at *
    induction h generalizing m with
    | nil => exact fun h => h
    | cons h1 _ ih =>
      intro h2
      cases h2 with
      | cons h3 h4 => exact .cons ⟨h1.1.trans h3.1, h1.2.trans h3.2⟩ (ih h4)
  obtain ⟨e1, p1, q1⟩ := C136_trajectory n a b ha hb
  obtain ⟨e2, p2, q2⟩ := C136_trajectory n b a hb ha
  obtain ⟨e3, p3, q3⟩ := C136_trajectory n b c hb hc
  obtain ⟨e4, p4, q4⟩ := C136_trajectory n a c ha hc
  rw [p1, p2, p3, p4]
  simp only [Res.ok.injEq]
  refine ⟨?_, fun h1 h2 => ?_⟩
  · rw [Bool.eq_iff_iff, q1, q2]
    exact ⟨fun h => ⟨sy h.1, nn h.1 h.2⟩, fun h => ⟨sy h.1, nn h.1 h.2⟩⟩
  · obtain ⟨x1, x2⟩ := q1.mp h1
    exact q4.mpr ⟨tra x1 (q3.mp h2).1, x2⟩

/-- **C136.** Trajectories that compare equal have the same values at all times, NaN and infinity included. -/
theorem C136_values (n : ℕ) (a b : Trajectory Dbl) (ha : UniformN n a.segments) (hb : UniformN n b.segments)
    (hD : a.D = b.D) (h : a.beqG Dbl.eq b = .ok true) (t : Dbl) (d : ℤ) : a.evaluate t d = b.evaluate t d := by
  obtain ⟨e, p, q⟩ := C136_trajectory n a b ha hb
  rw [p, Res.ok.injEq] at h
  obtain ⟨h1, -⟩ := q.mp h
  have hf : ∀ {l r : List (Segment Dbl)}, SameSegments l r → ∀ acc i, findSegment t l acc i = findSegment t r acc i := by
    intro l r h
    unfold SameSegments at h
    induction h with
    | nil => exact fun _ _ => rfl
    | cons h2 _ ih =>
      intro acc i
      rw [findSegment, findSegment, h2.1, ih]
  have hat : ∀ (i : ℕ) (f : Dbl), (Res.at' a.segments i >>= fun s => s.evaluate (t - (f - s.time)) d) =
      (Res.at' b.segments i >>= fun s => s.evaluate (t - (f - s.time)) d) := by
    intro i f
    by_cases hi : i < a.segments.length
    · have hi' : i < b.segments.length := by rwa [← h1.length_eq]
      obtain ⟨e1, e2⟩ := h1.get hi hi'
      rw [Res.at'_of_lt hi, Res.at'_of_lt hi', Res.ok_bind, Res.ok_bind]
      unfold Segment.evaluate
      simp only [List.get_eq_getElem] at e1 e2
      rw [e1, e2]
    · have e1 : Res.at' a.segments i = .ub := by
        unfold Res.at'
        rw [List.getElem?_eq_none (by omega)]
      have e2 : Res.at' b.segments i = .ub := by
        unfold Res.at'
        rw [List.getElem?_eq_none (by rw [← h1.length_eq]; omega)]
      rw [e1, e2]
  unfold Trajectory.evaluate
  rw [hf h1, hD, h1.length_eq]
  dsimp only
  rw [hat]

/-! ### C136 `isEqualTol` -/

/-- **C136.** With a finite tolerance `isEqualTol` holds exactly when both vertices constrain the same derivatives, all
entries are finite, and the rounded differences are within the tolerance; such entries differ by at most
`tol / (1 - 2^-53)`, and entries that differ by at most `tol` are accepted. -/
theorem C136_tolerance (v w : Vertex Dbl) (hv : v.WF) (hw : w.WF) (hD : v.D = w.D) (tol : ℝ) :
    ∃ b, v.isEqualTolG Dbl.abs w (.fin tol) = .ok b ∧
      (b = true → ∀ k, (v.getConstraint k = none ∧ w.getConstraint k = none) ∨
        ∃ c c', v.getConstraint k = some c ∧ w.getConstraint k = some c' ∧
          List.Forall₂ (fun x y => ∃ x' y', x = .fin x' ∧ y = .fin y' ∧
            (IsDouble x' → IsDouble y' → (1 - 1 / 2 ^ 53) * |x' - y'| ≤ tol)) c c') ∧
      (IsDouble tol → (∀ k, (v.getConstraint k = none ∧ w.getConstraint k = none) ∨
        ∃ c c', v.getConstraint k = some c ∧ w.getConstraint k = some c' ∧
          List.Forall₂ (fun x y => ∃ x' y', x = .fin x' ∧ y = .fin y' ∧ |x' - y'| ≤ tol) c c') → b = true) := by
  obtain ⟨b, h1, h2⟩ := isEqualTolG_ok (abs := Dbl.abs) v w hv hw hD (.fin tol)
  refine ⟨b, h1, fun hb k => ?_, fun ht h => h2.mpr fun k => ?_⟩
  · rcases h2.mp hb k with h | ⟨c, c', p1, p2, p3⟩
    · exact Or.inl h
    · refine Or.inr ⟨c, c', p1, p2, p3.imp fun x y hxy => ?_⟩
      obtain ⟨x', y', rfl, rfl, h3⟩ := sub_within hxy
      refine ⟨x', y', rfl, rfl, fun hx hy => ?_⟩
      have h4 := round64_add hx hy.neg
      rw [← sub_eq_add_neg] at h4
      have h5 := round53_rounding.rel (x' - y')
      rw [← h4] at h5
      have h6 := abs_sub_abs_le_abs_sub (x' - y') (round64 (x' - y'))
      rw [abs_sub_comm (x' - y') (round64 (x' - y'))] at h6
      have h7 : |round64 (x' - y') - (x' - y')| ≤ 1 / 2 ^ 53 * |x' - y'| := h5
      linarith
  · rcases h k with h | ⟨c, c', p1, p2, p3⟩
    · exact Or.inl h
    · refine Or.inr ⟨c, c', p1, p2, p3.imp fun x y hxy => ?_⟩
      obtain ⟨x', y', rfl, rfl, h3⟩ := hxy
      obtain ⟨l, u⟩ := abs_le.mp h3
      have r1 := round64_le_double ht u
      have r2 := double_le_round64 ht.neg l
      have r3 : |round64 (x' - y')| ≤ tol := abs_le.mpr ⟨r2, r1⟩
      have h4 : Dbl.fin x' - .fin y' = .fin (round64 (x' - y')) := by
        rw [fin_sub]
        unfold Dbl.ofReal
        rw [if_pos (r3.trans_lt ((le_abs_self tol).trans_lt ht.lt))]
      rw [h4]
      exact r3

/-- **C136.** A vertex with finite entries is equal to itself for every tolerance from 0 on. Missing: entries that are
not finite (`C136_tolerance_reflexive_false`). -/
theorem C136_tolerance_reflexive_partial (v : Vertex Dbl) (hv : v.WF) (tol : Dbl) (ht : 0 ≤ tol)
    (hf : ∀ k c, v.getConstraint k = some c → ∀ x ∈ c, IsFinite x) : v.isEqualTolG Dbl.abs v tol = .ok true := by
  obtain ⟨b, h1, h2⟩ := isEqualTolG_ok (abs := Dbl.abs) v v hv hv rfl tol
  have : b = true := by
    refine h2.mpr fun k => ?_
    cases hk : v.getConstraint k with
    | none => exact Or.inl ⟨rfl, rfl⟩
    | some c =>
      refine Or.inr ⟨c, c, rfl, rfl, List.forall₂_same.mpr fun x hx => ?_⟩
      obtain ⟨y, rfl⟩ := hf k c hk x hx
      rw [sub_self_finite]
      exact ht
  rw [h1, this]

/-- **C136** is false for entries that are not finite: a vertex with an infinite entry or NaN is not equal to itself,
whatever the tolerance (infinity included). -/
theorem C136_tolerance_reflexive_false (v : Vertex Dbl) (hv : v.WF) (tol : Dbl) (k : ℤ) (c : List Dbl)
    (hk : v.getConstraint k = some c) (x : Dbl) (hx : x ∈ c) (hf : ¬ IsFinite x) :
    v.isEqualTolG Dbl.abs v tol = .ok false := by
  obtain ⟨b, h1, h2⟩ := isEqualTolG_ok (abs := Dbl.abs) v v hv hv rfl tol
  cases b with
  | false => exact h1
  | true =>
    rcases h2.mp rfl k with ⟨h, -⟩ | ⟨c1, c2, p1, p2, p3⟩
    · rw [hk] at h
      simp at h
    · rw [hk, Option.some.injEq] at p1 p2
      subst p1 p2
      have := List.forall₂_same.mp p3 x hx
      rw [sub_self_not_finite hf] at this
      exact absurd this (not_nan_le _)

/-! ### Examples -/

example : UniformN 2 [(⟨[⟨[.fin 1, .inf true]⟩], .fin 1, 2⟩ : Segment Dbl)] ∧
    NoNan [(⟨[⟨[.fin 1, .inf true]⟩], .fin 1, 2⟩ : Segment Dbl)] ∧
    ¬ NoNan [(⟨[⟨[.fin 1, .nan]⟩], .fin 1, 2⟩ : Segment Dbl)] := by
  refine ⟨?_, ?_, ?_⟩
  · simp [UniformN, Poly.N]
  · simp [NoNan]
  · simp [NoNan]

example : (⟨2, [(0, [.fin 1, .inf false])]⟩ : Vertex Dbl).WF ∧ (⟨2, [(0, [.fin 1, .fin 2])]⟩ : Vertex Dbl).WF ∧
    ¬ IsFinite (.inf false) ∧ (⟨2, [(0, [.fin 1, .inf false])]⟩ : Vertex Dbl).getConstraint 0 = some [.fin 1, .inf false] :=
  ⟨⟨by simp, by simp⟩, ⟨by simp, by simp⟩, by rintro ⟨x, hx⟩; simp at hx, rfl⟩

end Verif
