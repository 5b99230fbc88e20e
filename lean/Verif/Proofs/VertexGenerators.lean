import Verif.Props.Times

/- Lemmas about `createRandomVertices` and `createSquareVertices`. -/
set_option linter.unusedSectionVars false

namespace Verif

open Spec

theorem vecSub_ok {K : Type} [Field K] {a b : List K} (h : a.length = b.length) :
    vecSub a b = .ok (List.zipWith (· - ·) a b) := by
  unfold vecSub
  rw [if_pos h]

theorem waypoint_ok {K : Type} [Zero K] {D : ℕ} {p : List K} (hp : p.length = D) :
    ∃ v, (Vertex.new D : Vertex K).addConstraint 0 p = .ok v ∧ Waypoint D p v ∧ v.WF := by
  refine ⟨_, addConstraint_ok _ 0 p hp, ⟨rfl, ?_, fun q hq => ?_⟩, insert_WF (vertex_new_WF D) 0 p hp⟩
  · simp [Vertex.getConstraint, mapFind_insert]
  · simp [Vertex.getConstraint, mapFind_insert, hq, Vertex.new, mapFind]

theorem restAt_ok {K : Type} [Zero K] {D : ℕ} {m : ℤ} {p p' : List K} {v : Vertex K} (hD : v.D = D) (hw : v.WF)
    (hv : ∀ q, q ≠ 0 → v.getConstraint q = none) (hp : p.length = D) :
    ∃ v', v.makeStartOrEnd p m = .ok v' ∧ RestAt D m p v' ∧ v'.WF := by
  subst hD
  refine ⟨_, makeStartOrEnd_ok _ p m hp, ⟨rfl, ?_, fun q h1 h2 => ?_, fun q hq => ?_⟩,
    zeroDerivatives_WF _ _ _ _ (insert_WF hw 0 p hp)⟩
  · simp [Vertex.getConstraint, zeroDerivatives_find, mapFind_insert]
  · simp only [Vertex.getConstraint, zeroDerivatives_find]
    rw [if_pos (by omega)]
  · have hv' : mapFind q v.constraints = none := hv q (by omega)
    simp only [Vertex.getConstraint, zeroDerivatives_find, mapFind_insert]
    rw [if_neg (by omega), if_neg (by omega), hv']

/-! ### Drawing -/

theorem drawFar_ok {draw : ℕ → List ℝ} {n : ℕ} (hn : ∀ i, (draw i).length = n) {last : List ℝ}
    (hl : last.length = n) {fuel i : ℕ} {r : List ℝ × ℕ}
    (h : drawFar Real.sqrt draw last fuel i = .ok r) :
    ∃ j, i ≤ j ∧ r = (draw j, j + 1) ∧ 1 / 5 < distance last (draw j) := by
  induction fuel generalizing i with
  | zero => cases h
  | succ fuel ih =>
    unfold drawFar at h
    have e : (draw i).length = last.length := by rw [hn, hl]
    rw [vecSub_ok e, Res.ok_bind, vecNorm_sub _ _ e, distance_comm _ _ e] at h
    split at h
    case isTrue hd =>
      rw [Res.pure_eq, Res.ok.injEq] at h
      exact ⟨i, le_rfl, h.symm, hd⟩
    case isFalse hd =>
      obtain ⟨j, h1, h2, h3⟩ := ih h
      exact ⟨j, by omega, h2, h3⟩

theorem drawFar_hang {draw : ℕ → List ℝ} {n : ℕ} (hn : ∀ i, (draw i).length = n) {last : List ℝ}
    (hl : last.length = n) (h : ∀ i, distance last (draw i) ≤ 1 / 5) (fuel i : ℕ) :
    drawFar Real.sqrt draw last fuel i = .hang := by
  induction fuel generalizing i with
  | zero => rfl
  | succ fuel ih =>
    unfold drawFar
    have e : (draw i).length = last.length := by rw [hn, hl]
    rw [vecSub_ok e, Res.ok_bind, vecNorm_sub _ _ e, distance_comm _ _ e,
      if_neg (by have := h i; simpa using this)]
    exact ih _

theorem drawFar_found {draw : ℕ → List ℝ} {n : ℕ} (hn : ∀ i, (draw i).length = n) {last : List ℝ}
    (hl : last.length = n) {i j : ℕ} (hij : i ≤ j) (hj : 1 / 5 < distance last (draw j)) {fuel : ℕ}
    (hf : j - i < fuel) :
    ∃ k, i ≤ k ∧ k ≤ j ∧ drawFar Real.sqrt draw last fuel i = .ok (draw k, k + 1) ∧
      1 / 5 < distance last (draw k) ∧ (∀ f', j - i < f' → drawFar Real.sqrt draw last f' i = .ok (draw k, k + 1)) := by
  suffices H : ∃ k, i ≤ k ∧ k ≤ j ∧ 1 / 5 < distance last (draw k) ∧
      (∀ f', j - i < f' → drawFar Real.sqrt draw last f' i = .ok (draw k, k + 1)) by
    obtain ⟨k, h1, h2, h3, h4⟩ := H
    exact ⟨k, h1, h2, h4 _ hf, h3, h4⟩
  clear hf
  obtain ⟨m, rfl⟩ := Nat.exists_eq_add_of_le hij
  clear hij
  induction m generalizing i with
  | zero =>
    refine ⟨i, le_rfl, le_rfl, hj, fun f' hf' => ?_⟩
    obtain ⟨f'', rfl⟩ := Nat.exists_eq_succ_of_ne_zero (show f' ≠ 0 by omega)
    unfold drawFar
    have e : (draw i).length = last.length := by rw [hn, hl]
    rw [Nat.add_zero] at hj
    rw [vecSub_ok e, Res.ok_bind, vecNorm_sub _ _ e, distance_comm _ _ e, if_pos hj]
    rfl
  | succ m ih =>
    have e : (draw i).length = last.length := by rw [hn, hl]
    by_cases hi : 1 / 5 < distance last (draw i)
    · refine ⟨i, le_rfl, by omega, hi, fun f' hf' => ?_⟩
      obtain ⟨f'', rfl⟩ := Nat.exists_eq_succ_of_ne_zero (show f' ≠ 0 by omega)
      unfold drawFar
      rw [vecSub_ok e, Res.ok_bind, vecNorm_sub _ _ e, distance_comm _ _ e, if_pos hi]
      rfl
    · obtain ⟨k, h1, h2, h3, h4⟩ := ih (i := i + 1) (by
        rw [show i + 1 + m = i + (m + 1) by omega]; exact hj)
      refine ⟨k, by omega, by omega, h3, fun f' hf' => ?_⟩
      obtain ⟨f'', rfl⟩ := Nat.exists_eq_succ_of_ne_zero (show f' ≠ 0 by omega)
      unfold drawFar
      rw [vecSub_ok e, Res.ok_bind, vecNorm_sub _ _ e, distance_comm _ _ e, if_neg hi]
      exact h4 f'' (by omega)

theorem randomPositions_ok {draw : ℕ → List ℝ} {n : ℕ} (hn : ∀ i, (draw i).length = n) {fuel : ℕ} (m : ℕ)
    {last : List ℝ} (hl : last.length = n) {i : ℕ} {ps : List (List ℝ)}
    (h : randomPositions Real.sqrt draw fuel m last i = .ok ps) :
    ps.length = m ∧ (∀ p ∈ ps, ∃ j, p = draw j) ∧
      List.IsChain (fun a b => 1 / 5 < distance a b) (last :: ps) := by
  induction m generalizing last i ps with
  | zero =>
    unfold randomPositions at h
    cases h
    simp
  | succ m ih =>
    unfold randomPositions at h
    rw [Res.bind_eq_ok] at h
    obtain ⟨r, hr, h⟩ := h
    rw [Res.bind_eq_ok] at h
    obtain ⟨ps', hps, h⟩ := h
    rw [Res.pure_eq, Res.ok.injEq] at h
    obtain ⟨j, -, rfl, hd⟩ := drawFar_ok hn hl hr
    obtain ⟨h1, h2, h3⟩ := ih (hn j) hps
    subst h
    refine ⟨by simp [h1], ?_, List.IsChain.cons_cons hd h3⟩
    intro p hp
    rcases List.mem_cons.mp hp with rfl | hp
    · exact ⟨j, rfl⟩
    · exact h2 p hp

theorem randomPositions_returns {draw : ℕ → List ℝ} {n : ℕ} (hn : ∀ i, (draw i).length = n)
    (hrec : ∀ i k, ∃ j ≥ i, 1 / 5 < distance (draw k) (draw j)) (m k i : ℕ) :
    ∃ f0, ∀ fuel ≥ f0, ∃ ps, randomPositions Real.sqrt draw fuel m (draw k) i = .ok ps := by
  induction m generalizing k i with
  | zero => exact ⟨0, fun _ _ => ⟨[], rfl⟩⟩
  | succ m ih =>
    obtain ⟨j, hj, hd⟩ := hrec i k
    obtain ⟨k', -, -, -, -, hk⟩ := drawFar_found hn (hn k) hj hd (Nat.lt_succ_self _)
    obtain ⟨f0, hf⟩ := ih k' (k' + 1)
    refine ⟨max f0 (j - i + 1), fun fuel hfu => ?_⟩
    obtain ⟨ps, hps⟩ := hf fuel (le_trans (le_max_left _ _) hfu)
    refine ⟨draw k' :: ps, ?_⟩
    unfold randomPositions
    have h2 := le_trans (le_max_right f0 (j - i + 1)) hfu
    rw [hk fuel (by omega), Res.ok_bind]
    dsimp only
    rw [hps, Res.ok_bind, Res.pure_eq]

/-- The vertices built from a list of positions. -/
theorem positionVertices_ok {D : ℕ} {m : ℤ} (ps : List (List ℝ)) (hps : ∀ p ∈ ps, p.length = D) :
    ∃ vs, positionVertices D m ps = .ok vs ∧ vs.length = ps.length ∧ (∀ v ∈ vs, v.WF) ∧
      ∀ i v p, vs[i]? = some v → ps[i]? = some p →
        (i + 1 = ps.length → RestAt D m p v) ∧ (i + 1 ≠ ps.length → Waypoint D p v) := by
  induction ps with
  | nil => exact ⟨[], rfl, rfl, by simp, by simp⟩
  | cons p ps ih =>
    obtain ⟨v, h1, h2, h2'⟩ := waypoint_ok (hps p (by simp))
    cases ps with
    | nil =>
      obtain ⟨v', h3, h4, h5⟩ := restAt_ok (m := m) (p' := p) h2.1 h2' h2.2.2 (hps p (by simp))
      refine ⟨[v'], ?_, rfl, by simpa using h5, ?_⟩
      · unfold positionVertices
        rw [h1, Res.ok_bind, h3, Res.ok_bind, Res.pure_eq]
      · intro i w q hi hq
        cases i with
        | zero =>
          simp only [List.getElem?_cons_zero, Option.some.injEq] at hi hq
          subst hi hq
          exact ⟨fun _ => h4, fun hne => absurd rfl hne⟩
        | succ i => simp at hi
    | cons q ps =>
      obtain ⟨vs, g1, g2, g3, g4⟩ := ih fun x hx => hps x (List.mem_cons_of_mem _ hx)
      refine ⟨v :: vs, ?_, by simp [g2], ?_, ?_⟩
      · unfold positionVertices
        rw [h1, Res.ok_bind, g1, Res.ok_bind, Res.pure_eq]
      · intro w hw
        rcases List.mem_cons.mp hw with rfl | hw
        · exact h2'
        · exact g3 w hw
      · intro i w x hi hx
        cases i with
        | zero =>
          simp only [List.getElem?_cons_zero, Option.some.injEq] at hi hx
          subst hi hx
          exact ⟨fun hne => by simp at hne, fun _ => h2⟩
        | succ i =>
          simp only [List.getElem?_cons_succ] at hi hx
          obtain ⟨a1, a2⟩ := g4 i w x hi hx
          exact ⟨fun he => a1 (by simpa using he), fun he => a2 (by simpa using he)⟩

end Verif
