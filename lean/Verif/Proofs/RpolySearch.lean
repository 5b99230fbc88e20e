import Verif.Proofs.RpolyReach
import Verif.Proofs.RpolyModulus
import Verif.Proofs.RpolyChain
import Verif.Proofs.RpolyChainOf

/-
The zeros reported are estimates of the algorithm of Jenkins and Traub.
-/
namespace Verif
open Verif.Spec Polynomial

/-- Two quadratics with the same computed zeros are the same. -/
theorem quad_inj (m : RMath ℝ) (hm : ExactMath m) (u v u' v' : ℝ) (h : quad m 1 u v = quad m 1 u' v') : u = u' ∧ v = v' := by
  have h1 := (quad_spec m hm 1 u v one_ne_zero).1
  have h2 := (quad_spec m hm 1 u' v' one_ne_zero).1
  rw [← h] at h2
  have e : ∀ x : ℂ, (u : ℂ) * x + v = u' * x + v' := by
    intro x
    have := (h1 x).trans (h2 x).symm
    linear_combination this
  have ev : v = v' := by
    have := e 0
    simp only [mul_zero, zero_add] at this
    exact_mod_cast this
  have eu : u = u' := by
    have := e 1
    rw [ev] at this
    simp only [mul_one, add_left_inj] at this
    exact_mod_cast this
  exact ⟨eu, ev⟩

theorem nearCauchy_scale (p : List ℝ) (c bnd : ℝ) (hc : c ≠ 0) (h : NearCauchy (p.map fun x => x * c) bnd) :
    NearCauchy p bnd := by
  obtain ⟨l, d, r, e, h1, h2, h3, h4⟩ := h
  rcases List.eq_nil_or_concat' p with rfl | ⟨l', d', rfl⟩
  · simp at e
  · rw [List.map_append, List.map_singleton] at e
    obtain ⟨rfl, e2⟩ := List.append_inj' e rfl
    have e3 : d' * c = d := by simpa using e2
    subst e3
    refine ⟨l', d', r, rfl, h1, ?_, h3, by simpa using h4⟩
    rw [absValue_map_mul, abs_mul] at h2
    have hcp : |c| ≠ 0 := (abs_pos.mpr hc).ne'
    refine mul_right_cancel₀ hcp ?_
    linear_combination h2

theorem Spec.NearCauchy.pos {p : List ℝ} {bnd : ℝ} (h : NearCauchy p bnd) : 0 < bnd := by
  obtain ⟨_, _, _, _, h1, _, h3, _⟩ := h
  exact h1.trans_le h3

theorem lowerBound_near (m : RMath ℝ) (hm : ExactMath m)
    (hest : ∀ a b n, 0 < a → 0 < b → 0 < n → b * m.est a b n ^ n = a) (fuel : ℕ) (p : List ℝ) (bnd : ℝ) (hp : 2 ≤ p.length)
    (h0 : ∀ a ∈ p.head?, a ≠ 0) (hc : (decPoly p).coeff 0 ≠ 0) (h : lowerBound m fuel p = .ok bnd) : NearCauchy p bnd := by
  rcases List.eq_nil_or_concat' p with rfl | ⟨l, c, rfl⟩
  · simp at hp
  · have hl : l ≠ [] := by
      rintro rfl
      simp at hp
    have hc' : c ≠ 0 := by
      rw [decPoly_snoc] at hc
      simpa using hc
    obtain ⟨r, h1, h2, h3, h4⟩ := lowerBound_radius m hm hest fuel l c bnd hl (by
      intro a ha
      refine h0 a ?_
      rw [List.head?_append_of_ne_nil _ hl]
      exact ha) hc' h
    exact ⟨l, c, r, rfl, h1, h2, h3, h4⟩

theorem decPoly_scale_coeff (p : List ℝ) (c : ℝ) (hc : c ≠ 0) (h : (decPoly p).coeff 0 ≠ 0) :
    (decPoly (p.map fun x => x * c)).coeff 0 ≠ 0 := by
  rw [decPoly_map_mul, coeff_C_mul]
  exact mul_ne_zero hc h

/-- What the search for one zero gives. -/
theorem search_found (m : RMath ℝ) (hm : ExactMath m) (hest : ∀ a b n, 0 < a → 0 < b → 0 < n → b * m.est a b n ^ n = a)
    (p : List ℝ) (c : ℝ) (hc : c ≠ 0) (f : Found ℝ) (hp : 4 ≤ p.length) (h0 : ∀ a ∈ p.head?, a ≠ 0)
    (hp0 : (decPoly p).coeff 0 ≠ 0) (h : SearchOf m (p.map fun x => x * c) f) :
    ∃ u0 v0, FixedShift p u0 v0 ∧ FoundBy m u0 v0 (p.map fun x => x * c) f := by
  obtain ⟨fuel, bnd, k, xx, yy, r, h1, h2, h3, h4⟩ := h
  have hcoeff := decPoly_scale_coeff p c hc hp0
  have hn := lowerBound_near m hm hest fuel _ bnd (by rw [List.length_map]; omega) (by
    intro a ha
    rw [List.head?_map] at ha
    obtain ⟨b, hb, rfl⟩ := Option.mem_map.mp ha
    exact mul_ne_zero (h0 b hb) hc) hcoeff h1
  obtain ⟨j, _, _, _, hf⟩ := shiftLoop_reach m hm _ (by rw [List.length_map]; omega) hcoeff bnd hn.pos.ne' k h2 20 1 xx yy r h3 f h4
  exact ⟨_, bnd, ⟨r.2.1, nearCauchy_scale p c bnd hc hn, rfl⟩, hf⟩

def searched (m : RMath ℝ) (p : List ℝ) (zs : List (ℝ × ℝ)) (o : List ℝ) : Prop := Search m.eps p (zs.map asComplex) o

theorem searched_chain (m : RMath ℝ) (hm : ExactMath m) (hest : ∀ a b n, 0 < a → 0 < b → 0 < n → b * m.est a b n ^ n = a) :
    ChainRel m (fun x => x ≠ 0) (searched m) := by
  have n0 : (num 0 : ℝ) = 0 := by rw [num_eq]; simp
  have n1 : (num 1 : ℝ) = 1 := by rw [num_eq]; simp
  constructor
  · intro c hc hc'
    rw [(hm.isZero c).mpr hc'] at hc
    exact absurd hc (by simp)
  · exact fun x y hx => mul_ne_zero hx (hm.pow2 y)
  · exact fun p => Search.done _
  · intro p zs o c hc hd
    have hc0 : c = 0 := (hm.isZero c).mp hc
    have e2 : asComplex ((num 0, num 0) : ℝ × ℝ) = 0 := by
      rw [n0]
      rfl
    unfold searched
    rw [hc0, List.map_cons, e2]
    exact Search.origin hd
  · intro a b _
    exact Search.direct (by simp) (by simp) rfl
  · intro a b c _
    exact Search.direct (by simp) (by simp) rfl
  · intro p f zs o h4 _ hhead hf hs hd
    obtain ⟨c, hc, hsc⟩ := scaleCoeffs_eq m hm p
    rw [hsc] at hf hs
    have hfound := fun hp0 => search_found m hm hest p c hc f h4 hhead hp0 hs
    rcases hf with ⟨htwo, u, v, r, e, hz, hq, hqp, _, _⟩ | ⟨htwo, r, hsi, hq, hqp, _⟩
    · rw [if_pos htwo] at hd ⊢
      rw [n1] at hz
      have hqz := (quad_spec m hm 1 u v one_ne_zero).1
      rw [← hz] at hqz
      obtain ⟨l, hl, hpoly⟩ := quadSD_spec u v _ r hq
      have hsh := quadSD_shape u v _ r hq
      rw [List.length_map] at hsh
      have hlen : l.length + 2 = p.length := by
        rw [← hsh.1, hl]
        simp
      have htk : f.qp.take (p.length - 2) = l := by
        rw [hqp, hl, ← hlen, Nat.add_sub_cancel, List.take_left]
      rw [htk] at hd
      rw [decPoly_map_mul] at hpoly
      refine Search.pair c u v r.2.2 (r.2.2 * u + r.2.1) _ _ hc hlen ?_ ?_ ?_ hd
      · rw [hpoly, quadr, map_add, map_mul]
        ring
      · intro x
        have := hqz x
        rw [Complex.ofReal_one, one_mul, one_mul] at this
        exact this
      · intro hp0
        obtain ⟨u0, v0, g1, g2⟩ := hfound hp0
        refine ⟨u0, v0, g1, ?_⟩
        rcases g2 with ⟨_, u', v', g2, g3⟩ | ⟨g2, _⟩
        · rw [n1, hz] at g3
          obtain ⟨rfl, rfl⟩ := quad_inj m hm u v u' v' g3
          unfold IsPair at g2
          rw [List.length_map, decPoly_map_mul] at g2
          exact g2
        · rw [htwo] at g2
          cases g2
    · have hf : ¬ (f.two = true) := by rw [htwo]; simp
      rw [if_neg hf] at hd ⊢
      obtain ⟨l, hl, hpoly⟩ := horner_spec f.roots.sr _ r hq
      have hsh := horner_shape f.roots.sr _ r hq
      rw [List.length_map] at hsh
      have hlen : l.length + 1 = p.length := by
        rw [← hsh.1, hl]
        simp
      have htk : f.qp.take (p.length - 1) = l := by
        rw [hqp, hl, ← hlen, Nat.add_sub_cancel, List.take_left]
      rw [htk] at hd
      rw [decPoly_map_mul] at hpoly
      have e1 : asComplex (f.roots.sr, f.roots.si) = (f.roots.sr : ℂ) := by
        rw [hsi, n0]
        apply Complex.ext <;> simp [asComplex]
      unfold searched
      rw [List.map_cons, e1]
      refine Search.real c f.roots.sr r.2 hc hlen hpoly ?_ hd
      intro hp0
      obtain ⟨u0, v0, g1, g2⟩ := hfound hp0
      refine ⟨u0, v0, g1, ?_⟩
      rcases g2 with ⟨g2, _⟩ | ⟨_, g2⟩
      · exact absurd g2 hf
      · unfold IsReal at g2
        rw [List.length_map, decPoly_map_mul] at g2
        exact g2

end Verif
