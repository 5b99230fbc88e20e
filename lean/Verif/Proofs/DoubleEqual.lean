import Verif.Model.DoubleEqual
import Verif.Proofs.DoubleChecks
import Verif.Proofs.VertexMore

/-
Lemmas about comparing with `double`.
-/
namespace Verif

open Spec

theorem dblEq_iff (a b : Dbl) : a.eq b = true ↔ a = b ∧ a ≠ .nan := by
  cases a <;> cases b <;> simp [Dbl.eq]

section Generic
variable {K : Type} {eq : K → K → Bool} {good : K → Prop} (he : ∀ a b, eq a b = true ↔ a = b ∧ good a)
include he

theorem zip_all (l : List K) : ∀ r : List K, l.length = r.length →
    (((l.zip r).all fun e => eq e.1 e.2) = true ↔ l = r ∧ ∀ x ∈ l, good x) := by
  induction l with
  | nil =>
    intro r h
    cases r with
    | nil => simp
    | cons _ _ => simp at h
  | cons x l ih =>
    intro r h
    cases r with
    | nil => simp at h
    | cons y r =>
      have := ih r (by simpa using h)
      rw [List.zip_cons_cons, List.all_cons, Bool.and_eq_true, this, he]
      simp only [List.cons.injEq, List.mem_cons, forall_eq_or_imp]
      tauto

theorem polysEqLoopG_ok (n : ℕ) : ∀ ps qs : List (Poly K), (∀ p ∈ ps, p.N = n) → (∀ q ∈ qs, q.N = n) →
    ps.length = qs.length →
    ∃ b, polysEqLoopG eq ps qs = .ok b ∧ (b = true ↔ ps = qs ∧ ∀ p ∈ ps, ∀ x ∈ p.coeffs, good x)
  | [], [], _, _, _ => ⟨true, rfl, by simp⟩
  | [], _ :: _, _, _, h => by simp at h
  | _ :: _, [], _, _, h => by simp at h
  | p :: ps, q :: qs, hp, hq, h => by
    obtain ⟨b, hb, hiff⟩ := polysEqLoopG_ok n ps qs (fun x hx => hp x (by simp [hx]))
      (fun x hx => hq x (by simp [hx])) (by simpa using h)
    have hN : p.N = q.N := by rw [hp p (by simp), hq q (by simp)]
    have hpq : p = q ↔ p.coeffs = q.coeffs := by cases p; cases q; simp
    have h1 := zip_all he p.coeffs q.coeffs hN
    rw [← hpq] at h1
    rw [polysEqLoopG, Poly.beqG, if_pos hN, Res.ok_bind]
    by_cases hc : ((p.coeffs.zip q.coeffs).all fun e => eq e.1 e.2) = true
    · refine ⟨b, by rw [if_pos hc, hb], ?_⟩
      rw [hiff]
      obtain ⟨h2, h3⟩ := h1.mp hc
      simp only [List.cons.injEq, List.mem_cons, forall_eq_or_imp]
      tauto
    · refine ⟨false, by rw [if_neg hc]; rfl, ?_⟩
      simp only [Bool.false_eq_true, List.cons.injEq, List.mem_cons, forall_eq_or_imp, false_iff]
      tauto

theorem segment_beqG_ok (n : ℕ) (s r : Segment K) (hs : ∀ p ∈ s.polys, p.N = n) (hr : ∀ p ∈ r.polys, p.N = n) :
    ∃ b, s.beqG eq r = .ok b ∧
      (b = true ↔ s.time = r.time ∧ s.polys = r.polys ∧ good s.time ∧ ∀ p ∈ s.polys, ∀ x ∈ p.coeffs, good x) := by
  unfold Segment.beqG
  split_ifs with h
  · refine ⟨false, rfl, ?_⟩
    simp only [Bool.false_eq_true, false_iff]
    rintro ⟨h1, h2, h3, -⟩
    rcases h with h | h
    · exact h (congrArg List.length h2)
    · have := (he s.time r.time).mpr ⟨h1, h3⟩
      rw [h] at this
      simp at this
  · push Not at h
    obtain ⟨b, hb, hiff⟩ := polysEqLoopG_ok he n s.polys r.polys hs hr h.1
    refine ⟨b, hb, ?_⟩
    have := (he s.time r.time).mp (by simpa using h.2)
    rw [hiff]
    tauto

theorem segmentsEqLoopG_ok (n : ℕ) : ∀ ss rs : List (Segment K), (∀ s ∈ ss, ∀ p ∈ s.polys, p.N = n) →
    (∀ r ∈ rs, ∀ p ∈ r.polys, p.N = n) → ss.length = rs.length →
    ∃ b, segmentsEqLoopG eq ss rs = .ok b ∧ (b = true ↔ List.Forall₂ (fun s r => s.time = r.time ∧ s.polys = r.polys) ss rs ∧
      ∀ s ∈ ss, good s.time ∧ ∀ p ∈ s.polys, ∀ x ∈ p.coeffs, good x)
  | [], [], _, _, _ => ⟨true, rfl, by simp⟩
  | [], _ :: _, _, _, h => by simp at h
  | _ :: _, [], _, _, h => by simp at h
  | s :: ss, r :: rs, hp, hq, h => by
    obtain ⟨b, hb, hiff⟩ := segmentsEqLoopG_ok n ss rs (fun x hx => hp x (by simp [hx]))
      (fun x hx => hq x (by simp [hx])) (by simpa using h)
    obtain ⟨c, hc, hiff'⟩ := segment_beqG_ok he n s r (hp s (by simp)) (hq r (by simp))
    rw [segmentsEqLoopG, hc, Res.ok_bind]
    cases c with
    | true =>
      refine ⟨b, by rw [if_pos rfl, hb], ?_⟩
      rw [hiff]
      have := hiff'.mp rfl
      simp only [List.forall₂_cons, List.mem_cons, forall_eq_or_imp]
      tauto
    | false =>
      refine ⟨false, by rw [if_neg (by simp)]; rfl, ?_⟩
      have h2 := mt hiff'.mpr (by simp)
      simp only [Bool.false_eq_true, List.forall₂_cons, List.mem_cons, forall_eq_or_imp, false_iff]
      tauto

end Generic

/-! ### `isEqualTol` -/

section Tolerance
variable {K : Type} [Sub K] {abs : K → K} [LE K] [DecidableLE K]

theorem zipWith_all (tol : K) (c : List K) : ∀ c' : List K, c.length = c'.length →
    (((List.zipWith (· - ·) c c').all fun x => decide (abs x ≤ tol)) = true ↔
      List.Forall₂ (fun x y => abs (x - y) ≤ tol) c c') := by
  induction c with
  | nil =>
    intro c' h
    cases c' with
    | nil => simp
    | cons _ _ => simp at h
  | cons x c ih =>
    intro c' h
    cases c' with
    | nil => simp at h
    | cons y c' =>
      have ih' := ih c' (by simpa using h)
      rw [List.zipWith_cons_cons, List.all_cons, Bool.and_eq_true, ih', List.forall₂_cons, decide_eq_true_eq]

theorem isEqualTolLoopG_ok (tol : K) (D : ℕ) (rhs : List (ℤ × List K))
    (hr : ∀ e ∈ rhs, e.2.length = D) (l : List (ℤ × List K)) (hl : ∀ e ∈ l, e.2.length = D) :
    ∃ b, isEqualTolLoopG abs tol rhs l = .ok b ∧
      (b = true ↔ ∀ e ∈ l, ∃ c', mapFind e.1 rhs = some c' ∧ List.Forall₂ (fun x y => abs (x - y) ≤ tol) e.2 c') := by
  induction l with
  | nil => exact ⟨true, rfl, by simp⟩
  | cons e l ih =>
    obtain ⟨k, c⟩ := e
    obtain ⟨b, hb, hb2⟩ := ih (fun e he => hl e (by simp [he]))
    unfold isEqualTolLoopG
    cases hf : mapFind k rhs with
    | none =>
      refine ⟨false, rfl, ?_⟩
      simp only [Bool.false_eq_true, false_iff]
      intro hall
      obtain ⟨c', hc', _⟩ := hall (k, c) (by simp)
      rw [hf] at hc'; simp at hc'
    | some c' =>
      have hc : c.length = D := hl (k, c) (by simp)
      have hc' : c'.length = D := hr (k, c') (mapFind_mem hf)
      have hall : ((List.zipWith (· - ·) c c').all fun x => decide (abs x ≤ tol)) = true ↔
          List.Forall₂ (fun x y => abs (x - y) ≤ tol) c c' := zipWith_all tol c c' (hc.trans hc'.symm)
      dsimp only
      rw [if_pos (hc.trans hc'.symm)]
      by_cases hz : ((List.zipWith (· - ·) c c').all fun x => decide (abs x ≤ tol)) = true
      · refine ⟨b, by rw [if_pos hz]; exact hb, ?_⟩
        rw [hb2]
        constructor
        · intro h e he
          rcases List.mem_cons.mp he with rfl | he
          · exact ⟨c', hf, hall.mp hz⟩
          · exact h e he
        · intro h e he
          exact h e (by simp [he])
      · refine ⟨false, by rw [if_neg hz], ?_⟩
        simp only [Bool.false_eq_true, false_iff]
        intro h
        obtain ⟨c'', hc'', h2⟩ := h (k, c) (by simp)
        simp only [hf, Option.some.injEq] at hc''
        subst hc''
        exact hz (hall.mpr h2)

theorem isEqualTolG_ok (v w : Vertex K) (hv : v.WF) (hw : w.WF) (hD : v.D = w.D) (tol : K) :
    ∃ b, v.isEqualTolG abs w tol = .ok b ∧
      (b = true ↔ ∀ k, (v.getConstraint k = none ∧ w.getConstraint k = none) ∨
        ∃ c c', v.getConstraint k = some c ∧ w.getConstraint k = some c' ∧
          List.Forall₂ (fun x y => abs (x - y) ≤ tol) c c') := by
  unfold Vertex.isEqualTolG
  by_cases hlen : v.constraints.length = w.constraints.length
  · rw [if_neg (by simpa using hlen)]
    obtain ⟨b, hb, hb2⟩ := isEqualTolLoopG_ok (abs := abs) tol v.D w.constraints
      (fun e he => by rw [hD]; exact hw.dims e he) v.constraints hv.dims
    refine ⟨b, hb, ?_⟩
    rw [hb2]
    constructor
    · intro h k
      have hsub : ∀ k ∈ v.constraints.map Prod.fst, k ∈ w.constraints.map Prod.fst := by
        intro k hk
        obtain ⟨e, he, rfl⟩ := List.mem_map.mp hk
        obtain ⟨c', hc', _⟩ := h e he
        exact (mapFind_isSome _ _).mp (by simp [hc'])
      have hback := keys_eq_of_subset hv.sorted hlen hsub
      cases hk : v.getConstraint k with
      | none =>
        left
        refine ⟨rfl, ?_⟩
        cases hk' : w.getConstraint k with
        | none => rfl
        | some c' =>
          have := hback k ((mapFind_isSome _ _).mp (by
            unfold Vertex.getConstraint at hk'; simp [hk']))
          have := (mapFind_isSome k _).mpr this
          unfold Vertex.getConstraint at hk
          simp [hk] at this
      | some c =>
        right
        obtain ⟨c', h1, h2⟩ := h (k, c) (mapFind_mem hk)
        exact ⟨c, c', rfl, h1, h2⟩
    · intro h e he
      have hf := mapFind_of_mem (k := e.1) (v := e.2) hv.sorted he
      rcases h e.1 with ⟨h1, _⟩ | ⟨c, c', h1, h2, h3⟩
      · unfold Vertex.getConstraint at h1; simp [hf] at h1
      · unfold Vertex.getConstraint at h1 h2
        rw [hf, Option.some.injEq] at h1
        subst h1
        exact ⟨c', h2, h3⟩
  · refine ⟨false, by rw [if_pos hlen], ?_⟩
    simp only [Bool.false_eq_true, false_iff]
    intro h
    apply hlen
    have key : ∀ (a b : Vertex K), a.WF → (∀ k, a.getConstraint k ≠ none → b.getConstraint k ≠ none) →
        a.constraints.length ≤ b.constraints.length := by
      intro a b ha hab
      have hnd : (a.constraints.map Prod.fst).Nodup := ha.sorted.imp (fun h => ne_of_lt h)
      have hsp : (a.constraints.map Prod.fst).Subperm (b.constraints.map Prod.fst) := by
        refine List.subperm_of_subset hnd fun k hk => (mapFind_isSome _ _).mp ?_
        have h1 := (mapFind_isSome k _).mpr hk
        have h2 := hab k (by unfold Vertex.getConstraint; intro h; simp [h] at h1)
        unfold Vertex.getConstraint at h2
        exact Option.isSome_iff_ne_none.mpr h2
      simpa using hsp.length_le
    refine le_antisymm (key v w hv fun k hk => ?_) (key w v hw fun k hk => ?_)
    · rcases h k with ⟨h1, -⟩ | ⟨c, c', -, h2, -⟩
      · exact absurd h1 hk
      · rw [h2]; simp
    · rcases h k with ⟨-, h1⟩ | ⟨c, c', h2, -, -⟩
      · exact absurd h1 hk
      · rw [h2]; simp

end Tolerance

/-- When a difference is within a finite tolerance both numbers are finite. -/
theorem sub_within {a b : Dbl} {t : ℝ} (h : (a - b).abs ≤ .fin t) : ∃ x y, a = .fin x ∧ b = .fin y ∧ |round64 (x - y)| ≤ t := by
  have key : ∃ z, a - b = .fin z := by
    cases h1 : a - b with
    | fin z => exact ⟨z, rfl⟩
    | inf s => rw [h1] at h; exact absurd h (by change ¬ (false = true); simp)
    | nan => rw [h1] at h; exact absurd h (not_nan_le _)
  obtain ⟨z, hz⟩ := key
  obtain ⟨x, y, rfl, hy, h2⟩ := add_eq_fin (show a + -b = .fin z from hz)
  cases b with
  | fin w =>
    have : -w = y := Dbl.fin.inj hy
    subst this
    refine ⟨x, w, rfl, rfl, ?_⟩
    rw [hz] at h
    have h3 : |z| ≤ t := h
    rw [(ofReal_eq_fin h2).1] at h3
    rwa [sub_eq_add_neg]
  | inf s => exact absurd hy (by change Dbl.inf _ ≠ _; simp)
  | nan => exact absurd hy (by change Dbl.nan ≠ _; simp)

theorem sub_self_finite (x : ℝ) : (Dbl.fin x - .fin x).abs = .fin 0 := by
  rw [fin_sub, sub_self, ofReal_half (by rw [abs_zero]; exact (zpow2_pos _).le), round64_zero]
  change Dbl.fin |0| = _
  rw [abs_zero]

theorem sub_self_not_finite {a : Dbl} (h : ¬ IsFinite a) : a - a = .nan := by
  cases a with
  | fin x => exact absurd ⟨x, rfl⟩ h
  | inf s =>
    change Dbl.inf s + .inf (!s) = _
    cases s <;> rfl
  | nan => rfl

end Verif
