import Verif.Model.RandomPath
import Verif.Proofs.VertexGenerators
import Mathlib.Analysis.InnerProductSpace.PiL2

/-!
Proofs for C143.
-/
namespace Verif

open Spec

/-- A list as a vector of dimension `D`. -/
noncomputable def euc (D : ℕ) (p : List ℝ) : EuclideanSpace ℝ (Fin D) := WithLp.toLp 2 fun i => p.getD i 0

theorem distance_euc {D : ℕ} {a b : List ℝ} (ha : a.length = D) : distance a b = ‖euc D a - euc D b‖ := by
  rw [EuclideanSpace.norm_eq]
  unfold distance
  congr 1
  rw [ha, Finset.sum_range]
  apply Finset.sum_congr rfl
  intro i _
  simp [euc]

theorem euc_zero (D : ℕ) : euc D (List.replicate D 0) = 0 := by
  ext i
  simp [euc, List.getD_eq_getElem?_getD]

theorem vecNorm_euc {D : ℕ} {a : List ℝ} (ha : a.length = D) : vecNorm Real.sqrt a = ‖euc D a‖ := by
  have h1 := distance_euc (b := List.replicate D 0) ha
  rw [euc_zero, sub_zero, ← vecNorm_sub _ _ (by simp [ha])] at h1
  rw [← h1]
  congr 1
  refine List.ext_getElem (by simp [ha]) fun i h1 h2 => ?_
  simp

theorem euc_add {D : ℕ} {a b : List ℝ} (ha : a.length = D) (hb : b.length = D) :
    euc D (List.zipWith (· + ·) a b) = euc D a + euc D b := by
  ext i
  have h1 : (i : ℕ) < a.length := by omega
  have h2 : (i : ℕ) < b.length := by omega
  simp [euc, List.getD_eq_getElem?_getD, List.getElem?_zipWith, h1, h2]

theorem euc_scale {D : ℕ} {a : List ℝ} (c d : ℝ) :
    euc D (a.map fun x => x / c * d) = (d / c) • euc D a := by
  ext i
  simp only [euc, List.getD_eq_getElem?_getD, List.getElem?_map, PiLp.smul_apply, smul_eq_mul]
  rcases a[(i : ℕ)]? with _ | x
  · simp
  · simp
    ring

theorem drawLong_ok {draw : ℕ → List ℝ} {fuel i : ℕ} {r : List ℝ × ℕ}
    (h : drawLong Real.sqrt draw fuel i = .ok r) :
    ∃ j, i ≤ j ∧ r = (draw j, j + 1) ∧ 1 / 5 < vecNorm Real.sqrt (draw j) := by
  induction fuel generalizing i with
  | zero => cases h
  | succ fuel ih =>
    unfold drawLong at h
    split at h
    · rename_i hc
      exact ⟨i, le_rfl, (Res.ok.inj h).symm, hc⟩
    · obtain ⟨j, h1, h2⟩ := ih h
      exact ⟨j, by omega, h2⟩

theorem drawLong_hang {draw : ℕ → List ℝ} (h : ∀ i, vecNorm Real.sqrt (draw i) ≤ 1 / 5) (fuel i : ℕ) :
    drawLong Real.sqrt draw fuel i = .hang := by
  induction fuel generalizing i with
  | zero => rfl
  | succ fuel ih =>
    unfold drawLong
    rw [if_neg (not_lt.mpr (h i)), ih]

theorem drawLong_found {draw : ℕ → List ℝ} (j : ℕ) (hj : 1 / 5 < vecNorm Real.sqrt (draw j)) (d i : ℕ)
    (hi : i + d = j) : ∃ k, ∀ fuel ≥ d + 1, drawLong Real.sqrt draw fuel i = .ok (draw k, k + 1) := by
  induction d generalizing i with
  | zero =>
    refine ⟨j, fun fuel hf => ?_⟩
    obtain ⟨f, rfl⟩ := Nat.exists_eq_succ_of_ne_zero (show fuel ≠ 0 by omega)
    have : i = j := by omega
    subst this
    unfold drawLong
    rw [if_pos hj]
  | succ d ih =>
    by_cases hc : vecNorm Real.sqrt (draw i) > 1 / 5
    · refine ⟨i, fun fuel hf => ?_⟩
      obtain ⟨f, rfl⟩ := Nat.exists_eq_succ_of_ne_zero (show fuel ≠ 0 by omega)
      unfold drawLong
      rw [if_pos hc]
    · obtain ⟨k, hk⟩ := ih (i + 1) (by omega)
      refine ⟨k, fun fuel hf => ?_⟩
      obtain ⟨f, rfl⟩ := Nat.exists_eq_succ_of_ne_zero (show fuel ≠ 0 by omega)
      unfold drawLong
      rw [if_neg hc]
      exact hk f (by omega)

/-- The steps have the drawn lengths. -/
theorem pathSteps_ok {draw : ℕ → List ℝ} {dist : ℕ → ℝ} {D fuel : ℕ} (hdraw : ∀ i, (draw i).length = D)
    (hdist : ∀ j, 0 ≤ dist j) (n j i : ℕ) {steps : List (List ℝ)}
    (h : pathSteps Real.sqrt draw dist fuel n j i = .ok steps) :
    steps.length = n ∧ ∀ k s, steps[k]? = some s → s.length = D ∧ ‖euc D s‖ = dist (j + k) := by
  induction n generalizing j i steps with
  | zero =>
    cases h
    exact ⟨rfl, by simp⟩
  | succ n ih =>
    unfold pathSteps at h
    rw [Res.bind_eq_ok] at h
    obtain ⟨r, h1, h⟩ := h
    rw [Res.bind_eq_ok] at h
    obtain ⟨rest, h2, h⟩ := h
    rw [Res.pure_eq, Res.ok.injEq] at h
    subst h
    obtain ⟨q, -, rfl, hq⟩ := drawLong_ok h1
    obtain ⟨a, b⟩ := ih _ _ h2
    refine ⟨by simp [a], fun k s hs => ?_⟩
    cases k with
    | zero =>
      simp only [List.getElem?_cons_zero, Option.some.injEq] at hs
      subst hs
      refine ⟨by simp [hdraw], ?_⟩
      rw [euc_scale, norm_smul, vecNorm_euc (hdraw q), Real.norm_eq_abs, abs_div, abs_norm, abs_of_nonneg (hdist j)]
      rw [vecNorm_euc (hdraw q)] at hq
      rw [Nat.add_zero]
      field_simp
    | succ k =>
      rw [List.getElem?_cons_succ] at hs
      obtain ⟨c, d⟩ := b k s hs
      exact ⟨c, by rw [d]; congr 1; omega⟩

theorem pathSteps_returns {draw : ℕ → List ℝ} {dist : ℕ → ℝ}
    (hrec : ∀ i, ∃ j ≥ i, 1 / 5 < vecNorm Real.sqrt (draw j)) (n j i : ℕ) :
    ∃ f0, ∀ fuel ≥ f0, ∃ steps, pathSteps Real.sqrt draw dist fuel n j i = .ok steps := by
  induction n generalizing j i with
  | zero => exact ⟨0, fun _ _ => ⟨[], rfl⟩⟩
  | succ n ih =>
    obtain ⟨q, hq, hd⟩ := hrec i
    obtain ⟨k, hk⟩ := drawLong_found q hd (q - i) i (by omega)
    obtain ⟨f1, hf⟩ := ih (j + 1) (k + 1)
    refine ⟨max f1 (q - i + 1), fun fuel hfu => ?_⟩
    obtain ⟨steps, hs⟩ := hf fuel (le_trans (le_max_left _ _) hfu)
    refine ⟨(draw k).map (fun x => x / vecNorm Real.sqrt (draw k) * dist j) :: steps, ?_⟩
    unfold pathSteps
    rw [hk fuel (le_trans (le_max_right _ _) hfu), Res.ok_bind, hs, Res.ok_bind, Res.pure_eq]

/-- The positions the loop gives the vertices. -/
def pathPositions : List ℝ → List (List ℝ) → List (List ℝ)
  | _, [] => []
  | _, [s] => [s]
  | last, s :: t :: ss => List.zipWith (· + ·) s last :: pathPositions s (t :: ss)

theorem pathPositions_length : ∀ (last : List ℝ) (ss : List (List ℝ)), (pathPositions last ss).length = ss.length
  | _, [] => rfl
  | _, [_] => rfl
  | _, s :: t :: ss => by
    rw [pathPositions, List.length_cons, pathPositions_length s (t :: ss)]
    rfl

theorem pathVertices_ok {D : ℕ} {m : ℤ} : ∀ (last : List ℝ) (ss : List (List ℝ)), last.length = D →
    (∀ s ∈ ss, s.length = D) →
    ∃ vs, pathVertices D m last ss = .ok vs ∧ vs.length = ss.length ∧ (∀ v ∈ vs, v.WF) ∧
      ∀ i v p, vs[i]? = some v → (pathPositions last ss)[i]? = some p →
        (i + 1 = ss.length → RestAt D m p v) ∧ (i + 1 ≠ ss.length → Waypoint D p v)
  | _, [], _, _ => ⟨[], rfl, rfl, by simp, by simp⟩
  | last, [s], hl, hs => by
    have h1 : s.length = D := hs s (by simp)
    obtain ⟨v, e1, e2, e3⟩ := waypoint_ok (D := D) (p := List.zipWith (· + ·) s last) (by simp [h1, hl])
    obtain ⟨v', g1, g2, g3⟩ := restAt_ok (m := m) (p := s) (p' := []) e2.1 e3 e2.2.2 h1
    refine ⟨[v'], ?_, rfl, by simpa using g3, ?_⟩
    · unfold pathVertices
      rw [if_pos (by rw [h1, hl]), e1, Res.ok_bind]
      simp only
      rw [g1, Res.ok_bind, Res.pure_eq]
    · intro i w p hw hp
      cases i with
      | zero =>
        simp only [pathPositions, List.getElem?_cons_zero, Option.some.injEq] at hw hp
        subst hw hp
        exact ⟨fun _ => g2, fun h => absurd rfl h⟩
      | succ i => simp at hw
  | last, s :: t :: ss, hl, hs => by
    have h1 : s.length = D := hs s (by simp)
    obtain ⟨v, e1, e2, e3⟩ := waypoint_ok (D := D) (p := List.zipWith (· + ·) s last) (by simp [h1, hl])
    obtain ⟨vs, a1, a2, a3, a4⟩ := pathVertices_ok (m := m) s (t :: ss) h1 fun q hq => hs q (by simp_all)
    refine ⟨v :: vs, ?_, by simp [a2], ?_, ?_⟩
    · rw [pathVertices, if_pos (by rw [h1, hl]), e1, Res.ok_bind]
      simp only
      rw [a1, Res.ok_bind, Res.pure_eq]
    · intro w hw
      rcases List.mem_cons.mp hw with rfl | hw
      · exact e3
      · exact a3 w hw
    · intro i w p hw hp
      rw [pathPositions] at hp
      cases i with
      | zero =>
        simp only [List.getElem?_cons_zero, Option.some.injEq] at hw hp
        subst hw hp
        exact ⟨fun h => by simp at h, fun _ => e2⟩
      | succ i =>
        rw [List.getElem?_cons_succ] at hw hp
        obtain ⟨b1, b2⟩ := a4 i w p hw hp
        simp only [List.length_cons] at b1 b2 ⊢
        exact ⟨fun h => b1 (by omega), fun h => b2 (by omega)⟩

theorem pathPositions_get : ∀ (last : List ℝ) (ss : List (List ℝ)) (i : ℕ) (p : List ℝ),
    (pathPositions last ss)[i]? = some p →
    (i + 1 = ss.length ∧ ss[i]? = some p) ∨
      (i + 1 < ss.length ∧ ∃ s l, ss[i]? = some s ∧ (last :: ss)[i]? = some l ∧ p = List.zipWith (· + ·) s l)
  | _, [], i, p, h => by simp [pathPositions] at h
  | _, [s], i, p, h => by
    cases i with
    | zero => exact .inl ⟨rfl, h⟩
    | succ i => simp [pathPositions] at h
  | last, s :: t :: ss, i, p, h => by
    rw [pathPositions] at h
    cases i with
    | zero =>
      simp only [List.getElem?_cons_zero, Option.some.injEq] at h
      exact .inr ⟨by simp, s, last, by simp, by simp, h.symm⟩
    | succ i =>
      rw [List.getElem?_cons_succ] at h
      rcases pathPositions_get s (t :: ss) i p h with ⟨a, b⟩ | ⟨a, s', l, b, c, d⟩
      · exact .inl ⟨by simpa using a, by simpa using b⟩
      · exact .inr ⟨by simpa using a, s', l, by simpa using b, by simpa using c, d⟩

/-- In the box around the origin all vectors are at most `√D` long. -/
theorem box_norm {D : ℕ} {p : List ℝ} (h : InBox (List.replicate D (-1)) (List.replicate D 1) p) :
    ‖euc D p‖ ≤ Real.sqrt D := by
  rw [EuclideanSpace.norm_eq]
  apply Real.sqrt_le_sqrt
  calc ∑ i : Fin D, ‖(euc D p) i‖ ^ 2 ≤ ∑ _i : Fin D, (1 : ℝ) := by
        apply Finset.sum_le_sum
        intro i _
        have := h.2 i (by simp)
        simp only [List.getD_eq_getElem?_getD, List.getElem?_replicate, i.2, if_true, Option.getD_some] at this
        have h2 : (euc D p) i = p[(i : ℕ)]?.getD 0 := by simp [euc, List.getD_eq_getElem?_getD]
        rw [h2, Real.norm_eq_abs, sq_abs]
        nlinarith [this.1, this.2]
    _ = D := by simp

end Verif
