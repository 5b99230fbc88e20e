import Verif.Proofs.RpolyBounds
import Verif.Proofs.Io

/-
The zeros reported split off one after the other.
-/
set_option linter.unusedSectionVars false

namespace Verif

open Spec Polynomial

/-- A zero as a complex number. -/
def asComplex (x : ℝ × ℝ) : ℂ := ⟨x.1, x.2⟩

theorem quadSD_shape (u v : ℝ) (p : List ℝ) (r : List ℝ × ℝ × ℝ) (h : quadSD u v p = .ok r) :
    r.1.length = p.length ∧ r.1.head? = p.head? := by
  match p, h with
  | p0 :: p1 :: ps, h =>
    cases h
    simp [quadSDLoop_length]

theorem horner_shape (s : ℝ) (p : List ℝ) (r : List ℝ × ℝ) (h : horner s p = .ok r) :
    r.1.length = p.length ∧ r.1.head? = p.head? := by
  match p, h with
  | p0 :: ps, h =>
    cases h
    simp [hornerLoop_length]

theorem scaleCoeffs_eq (m : RMath ℝ) (hm : ExactMath m) (p : List ℝ) :
    ∃ c : ℝ, c ≠ 0 ∧ scaleCoeffs m p = p.map fun x => x * c := by
  unfold scaleCoeffs
  dsimp only
  split
  · exact ⟨_, hm.pow2 _, rfl⟩
  · exact ⟨1, one_ne_zero, by simp⟩

/-- One step: the zeros found are split off. -/
theorem found_step (m : RMath ℝ) (hm : ExactMath m) (p : List ℝ) (c : ℝ) (hc : c ≠ 0) (f : Found ℝ)
    (h : FoundOK m (p.map fun x => x * c) f) {zs : List ℂ} {o : List ℝ}
    (hd : Deflation m.eps (f.qp.take (p.length - if f.two then 2 else 1)) zs o) :
    Deflation m.eps p (asComplex (f.roots.sr, f.roots.si) ::
      ((if f.two then [asComplex (f.roots.lr, f.roots.li)] else []) ++ zs)) o := by
  have hcp : 0 < |c| := abs_pos.mpr hc
  rcases h with ⟨htwo, u, v, r, e, hz, hq, hqp, he, ht⟩ | ⟨htwo, r, hsi, hq, hqp, ht⟩
  · rw [if_pos htwo] at hd ⊢
    obtain ⟨hqz, hcase⟩ := quad_spec m hm 1 u v one_ne_zero
    have hz1 : (num 1 : ℝ) = 1 := by rw [num_eq]; simp
    rw [hz1] at hz
    rw [← hz] at hqz hcase
    have hv : (⟨f.roots.sr, f.roots.si⟩ : ℂ) * ⟨f.roots.lr, f.roots.li⟩ = v := by
      have := hqz 0
      push_cast at this
      linear_combination -this
    have hu : (⟨f.roots.sr, f.roots.si⟩ : ℂ) + ⟨f.roots.lr, f.roots.li⟩ = -(u : ℂ) := by
      have := hqz 1
      push_cast at this
      linear_combination this + hv
    have hb := pair_bound m hm u v f.roots _ r e hu hv hq he ht
    obtain ⟨l, hl, hpoly⟩ := quadSD_spec u v _ r hq
    have hsh := quadSD_shape u v _ r hq
    rw [List.length_map] at hsh hb
    have hlen : l.length + 2 = p.length := by
      rw [← hsh.1, hl]
      simp
    have htk : f.qp.take (p.length - 2) = l := by
      rw [hqp, hl, ← hlen, Nat.add_sub_cancel, List.take_left]
    rw [htk] at hd
    rw [decPoly_map_mul] at hpoly
    have hmap : (C c * decPoly p).map (algebraMap ℝ ℂ) =
        (X - C (⟨f.roots.sr, f.roots.si⟩ : ℂ)) * (X - C ⟨f.roots.lr, f.roots.li⟩) *
          (decPoly l).map (algebraMap ℝ ℂ) + C ((r.2.2 : ℝ) : ℂ) * X +
          C ((r.2.2 * u + r.2.1 : ℝ) : ℂ) := by
      rw [hpoly]
      have h1 : (X - C (⟨f.roots.sr, f.roots.si⟩ : ℂ)) * (X - C ⟨f.roots.lr, f.roots.li⟩) =
          X ^ 2 + C (u : ℂ) * X + C (v : ℂ) := by
        have hu' : (u : ℂ) = -((⟨f.roots.sr, f.roots.si⟩ : ℂ) + ⟨f.roots.lr, f.roots.li⟩) := by
          rw [hu, neg_neg]
        rw [hu', ← hv]
        simp only [map_neg, map_add, map_mul]
        ring
      rw [h1]
      simp only [Polynomial.map_add, Polynomial.map_mul, Polynomial.map_pow, Polynomial.map_X, Polynomial.map_C,
        Complex.coe_algebraMap, Complex.ofReal_add, Complex.ofReal_mul, map_add, map_mul]
      ring
    refine Deflation.pair c _ _ _ _ hc hlen hmap ?_ ?_ hd
    · rcases hcase with ⟨h1, h2⟩ | ⟨h1, h2, h3⟩
      · exact Or.inl ⟨h1, h2⟩
      · refine Or.inr ⟨h1, ?_⟩
        apply Complex.ext
        · simp [asComplex, h3]
        · simp [asComplex, h2]
    · have hev : ((C c * decPoly p).map (algebraMap ℝ ℂ)).eval (⟨f.roots.lr, f.roots.li⟩ : ℂ) =
          (r.2.1 : ℂ) - r.2.2 * ⟨f.roots.sr, f.roots.si⟩ := by
        rw [hmap]
        simp only [eval_add, eval_mul, eval_sub, eval_X, eval_C, sub_self, mul_zero, zero_mul, zero_add]
        push_cast
        linear_combination (r.2.2 : ℂ) * hu
      rw [← hev, Polynomial.map_mul, eval_mul, Polynomial.map_C, eval_C, norm_mul, Complex.coe_algebraMap,
        Complex.norm_real, Real.norm_eq_abs, absValue_map_mul] at hb
      have : |c| * ‖((decPoly p).map (algebraMap ℝ ℂ)).eval (⟨f.roots.lr, f.roots.li⟩ : ℂ)‖ ≤
          |c| * (290 * (p.length * (p.length + 1)) * m.eps *
            absValue p (max ‖(⟨f.roots.sr, f.roots.si⟩ : ℂ)‖ ‖(⟨f.roots.lr, f.roots.li⟩ : ℂ)‖)) := by
        refine le_trans hb (le_of_eq ?_)
        ring
      exact le_of_mul_le_mul_left this hcp
  · have hf : ¬ (f.two = true) := by rw [htwo]; simp
    rw [if_neg hf] at hd ⊢
    have hb := real_bound m hm f.roots.sr _ r hq ht
    obtain ⟨l, hl, hpoly⟩ := horner_spec f.roots.sr _ r hq
    have hsh := horner_shape f.roots.sr _ r hq
    rw [List.length_map] at hsh hb
    have hlen : l.length + 1 = p.length := by
      rw [← hsh.1, hl]
      simp
    have htk : f.qp.take (p.length - 1) = l := by
      rw [hqp, hl, ← hlen, Nat.add_sub_cancel, List.take_left]
    rw [htk] at hd
    have hev : (decPoly (p.map fun x => x * c)).eval f.roots.sr = r.2 := by
      rw [hpoly]
      simp
    rw [decPoly_map_mul] at hpoly hev
    rw [absValue_map_mul, ← hev, eval_mul, eval_C, abs_mul] at hb
    have e1 : asComplex (f.roots.sr, f.roots.si) = (f.roots.sr : ℂ) := by
      rw [hsi, num_eq]
      apply Complex.ext <;> simp [asComplex]
    rw [e1]
    refine Deflation.real c r.2 f.roots.sr hc hlen hpoly ?_ hd
    refine le_of_mul_le_mul_left (le_trans hb (le_of_eq ?_)) hcp
    ring

theorem put_take (z z' : Slots ℝ) (i : ℤ) (n : ℕ) (x : ℝ × ℝ) (hi : i = n) (h : z.put i x = .ok z') :
    n < z.length ∧ z'.length = z.length ∧ z'.take (n + 1) = z.take n ++ [some x] := by
  subst hi
  unfold Slots.put at h
  split at h
  · rename_i hh
    cases h
    have hn : n < z.length := by have := hh.2; omega
    refine ⟨hn, by simp, ?_⟩
    rw [Int.toNat_natCast]
    apply List.ext_getElem?
    intro j
    rcases Nat.lt_trichotomy j n with hj | hj | hj
    · rw [List.getElem?_take_of_lt (by omega), List.getElem?_set_ne (by omega),
        List.getElem?_append_left (by simp; omega), List.getElem?_take_of_lt hj]
    · subst hj
      rw [List.getElem?_take_of_lt (by omega), List.getElem?_set_self hn,
        List.getElem?_append_right (by simp)]
      simp [Nat.min_eq_left hn.le]
    · rw [List.getElem?_eq_none (by simp; omega), List.getElem?_eq_none (by simp; omega)]
  · cases h

/-- What the main loop achieves. -/
theorem mainLoop_chain (m : RMath ℝ) (hm : ExactMath m) (fuel degree : ℕ) : ∀ (rounds : ℕ) (p : List ℝ)
    (xx yy : ℝ) (z : Slots ℝ), 1 ≤ p.length → p.length ≤ degree + 1 → (∀ a ∈ p.head?, a ≠ 0) →
    (mainLoop m fuel degree rounds p xx yy z).Sat (fun r => ∃ (ws : List (ℝ × ℝ)) (o : List ℝ),
      r.1 + (o.length - 1) = degree ∧ 1 ≤ o.length ∧ ws.length + o.length = p.length ∧
      r.2.take r.1 = z.take (degree - (p.length - 1)) ++ ws.map some ∧
      Deflation m.eps p (ws.map asComplex) o) := by
  intro rounds
  induction rounds with
  | zero => intro p xx yy z _ _ _; exact Res.sat_hang
  | succ rounds ih =>
    intro p xx yy z h1 h2 h0
    unfold mainLoop
    split
    · rename_i h
      refine Res.sat_ok ⟨[], p, by omega, h1, by simp, ?_, Deflation.done p⟩
      have : degree - (p.length - 1) = degree := by omega
      simp [this]
    · rename_i hn1
      split
      · rename_i hn2
        refine Res.Sat.bind' fun z' hz' => Res.sat_pure ?_
        unfold finalZeros at hz'
        obtain ⟨p0, hp0, hz'⟩ := Res.bind_eq_ok.mp hz'
        obtain ⟨p1, hp1, hz'⟩ := Res.bind_eq_ok.mp hz'
        rw [Res.at'_eq_ok] at hp0 hp1
        have hp0' : p0 ≠ 0 := h0 p0 (by rw [List.head?_eq_getElem?, hp0]; rfl)
        split at hz'
        · rename_i e
          have hp : p = [p0, p1] := by
            match p, e with
            | [a, b], _ =>
              simp at hp0 hp1
              rw [hp0, hp1]
          obtain ⟨_, _, ht⟩ := put_take z z' _ (degree - 1) _ (by omega) hz'
          refine ⟨[(-(p1 / p0), num 0)], [p0], by simp, by simp, by simp [hp], ?_, ?_⟩
          · rw [e]
            rw [show degree - 1 + 1 = degree by omega] at ht
            simpa using ht
          · have : [(-(p1 / p0), (num 0 : ℝ))].map asComplex = [((-(p1 / p0) : ℝ) : ℂ)] := by
              simp only [List.map_cons, List.map_nil, num_eq]
              congr 1
              apply Complex.ext <;> simp [asComplex]
            rw [this, hp]
            exact Deflation.linear p0 p1 hp0'
        · rename_i e3
          have e : p.length = 3 := by omega
          obtain ⟨p2, hp2, hz'⟩ := Res.bind_eq_ok.mp hz'
          rw [Res.at'_eq_ok] at hp2
          obtain ⟨z1, hz1, hz'⟩ := Res.bind_eq_ok.mp hz'
          have hp : p = [p0, p1, p2] := by
            match p, e with
            | [a, b, c], _ =>
              simp at hp0 hp1 hp2
              rw [hp0, hp1, hp2]
          obtain ⟨_, _, ht1⟩ := put_take z z1 _ (degree - 2) _ (by omega) hz1
          obtain ⟨_, _, ht2⟩ := put_take z1 z' _ (degree - 2 + 1) _ (by omega) hz'
          rw [ht1, show degree - 2 + 1 + 1 = degree by omega] at ht2
          refine ⟨[((quad m p0 p1 p2).sr, (quad m p0 p1 p2).si), ((quad m p0 p1 p2).lr, (quad m p0 p1 p2).li)],
            [p0], by simp, by simp, by simp [hp], ?_, ?_⟩
          · rw [e]
            simpa using ht2
          · rw [hp]
            exact Deflation.quadratic p0 p1 p2 _ _ hp0' (quad_spec m hm p0 p1 p2 hp0').1
      · obtain ⟨c, hc, hsc⟩ := scaleCoeffs_eq m hm p
        have hl : (scaleCoeffs m p).length = p.length := scaleCoeffs_length m p
        simp only
        refine Res.Sat.bind' fun bnd _ => Res.Sat.bind' fun k _ => ?_
        refine (shiftLoop_found m bnd k _ 20 1 xx yy).bind fun r hr => ?_
        rw [hl]
        cases hf : r.1 with
        | none =>
          refine Res.sat_pure ⟨[], p, by omega, h1, by simp, by simp, Deflation.done p⟩
        | some f =>
          have hfo := hr f hf
          rw [hsc] at hfo
          simp only
          refine Res.Sat.bind' fun z' hz' => ?_
          have hqshape : f.qp.length = p.length ∧ f.qp.head? = (p.map fun x => x * c).head? := by
            rcases hfo with ⟨_, u, v, r, e, _, hq, hqp, _⟩ | ⟨_, r, _, hq, hqp, _⟩
            · have := quadSD_shape u v _ r hq
              rw [List.length_map] at this
              rw [hqp]
              exact this
            · have := horner_shape _ _ r hq
              rw [List.length_map] at this
              rw [hqp]
              exact this
          have h21 : (if f.two = true then 2 else 1) ≤ 2 ∧ 1 ≤ (if f.two = true then 2 else 1) := by
            split <;> omega
          have hlen : (f.qp.take (p.length - if f.two = true then 2 else 1)).length =
              p.length - if f.two = true then 2 else 1 := by
            rw [List.length_take]
            omega
          have := ih (f.qp.take (p.length - if f.two = true then 2 else 1)) r.2.1 r.2.2 z' (by omega) (by omega) (by
            intro a ha
            rw [List.head?_take, if_neg (by omega), hqshape.2, List.head?_map] at ha
            obtain ⟨b, hb, hab⟩ := Option.mem_map.mp ha
            rw [← hab]
            exact mul_ne_zero (h0 b hb) hc)
          intro x hx
          obtain ⟨ws, o, g1, g2, g3, g4, g5⟩ := this x hx
          rw [hlen] at g3 g4
          refine ⟨(f.roots.sr, f.roots.si) :: ((if f.two then [(f.roots.lr, f.roots.li)] else []) ++ ws), o, g1, g2,
            ?_, ?_, ?_⟩
          · have hw : (if f.two = true then [(f.roots.lr, f.roots.li)] else []).length + 1 =
                if f.two = true then 2 else 1 := by
              split <;> rfl
            rw [List.length_cons, List.length_append]
            omega
          · rw [g4]
            unfold storeFound at hz'
            obtain ⟨z1, hz1, hz'⟩ := Res.bind_eq_ok.mp hz'
            obtain ⟨_, _, ht1⟩ := put_take z z1 _ (degree - (p.length - 1)) _ (by omega) hz1
            split at hz'
            · rename_i htwo
              obtain ⟨_, _, ht2⟩ := put_take z1 z' _ (degree - (p.length - 1) + 1) _ (by omega) hz'
              rw [if_pos htwo, if_pos htwo, show degree - (p.length - 2 - 1) =
                degree - (p.length - 1) + 1 + 1 by omega, ht2, ht1]
              simp
            · rename_i htwo
              cases hz'
              rw [if_neg htwo, if_neg htwo, show degree - (p.length - 1 - 1) =
                degree - (p.length - 1) + 1 by omega, ht1]
              simp
          · have := found_step m hm p c hc f hfo g5
            have e1 : ((f.roots.sr, f.roots.si) :: ((if f.two then [(f.roots.lr, f.roots.li)] else []) ++ ws)).map
                asComplex = asComplex (f.roots.sr, f.roots.si) ::
                  ((if f.two then [asComplex (f.roots.lr, f.roots.li)] else []) ++ ws.map asComplex) := by
              split <;> simp
            rw [e1]
            exact this

theorem removeZeros_chain (m : RMath ℝ) (hm : ExactMath m) (op : List ℝ) (degree : ℕ) :
    ∀ (n j : ℕ) (z : Slots ℝ), n < op.length → j + n = degree →
    (removeZeros m op n j z).Sat (fun r => ∃ n' k, r.1 = op.take (n' + 1) ∧ n' + k = n ∧
      r.2.take (j + k) = z.take j ++ List.replicate k (some (0, 0)) ∧
      ∀ zs o, Deflation m.eps r.1 zs o →
        Deflation m.eps (op.take (n + 1)) (List.replicate k 0 ++ zs) o) := by
  intro n
  induction n with
  | zero =>
    intro j z hn hj
    unfold removeZeros
    refine Res.Sat.bind' fun c hc => ?_
    split
    · exact Res.sat_ub
    · exact Res.sat_pure ⟨0, 0, rfl, rfl, by simp, fun zs o h => by simpa using h⟩
  | succ n ih =>
    intro j z hn hj
    unfold removeZeros
    refine Res.Sat.bind' fun c hc => ?_
    split
    · rename_i hz
      simp only
      refine Res.Sat.bind' fun z' hz' => ?_
      intro r hr
      obtain ⟨n', k, g1, g2, g3, g4⟩ := ih (j + 1) z' (by omega) (by omega) r hr
      obtain ⟨_, _, ht⟩ := put_take z z' _ j _ rfl hz'
      refine ⟨n', k + 1, g1, by omega, ?_, ?_⟩
      · rw [show j + (k + 1) = j + 1 + k by omega, g3, ht, List.replicate_succ]
        simp [num_eq]
      · intro zs o h
        have h1 := Deflation.origin (g4 zs o h)
        have hc0 : c = 0 := (hm.isZero c).mp hz
        rw [Res.at'_eq_ok, hc0] at hc
        have h2 : op.take (n + 1 + 1) = op.take (n + 1) ++ [0] := by
          rw [List.take_add_one, hc]
          rfl
        rw [h2, List.replicate_succ]
        exact h1
    · exact Res.sat_pure ⟨n + 1, 0, rfl, rfl, by simp, fun zs o h => by simpa using h⟩

/-- What the root finder achieves. -/
theorem rpoly_chain (m : RMath ℝ) (hm : ExactMath m) (fuel : ℕ) (op : List ℝ) (degree : ℕ) (z : Slots ℝ)
    (hop : op.length = degree + 1) :
    (rpoly m fuel op degree z).Sat (fun r => 0 < r.1 → ∃ (ws : List (ℝ × ℝ)) (o : List ℝ),
      1 ≤ o.length ∧ ws.length + o.length = op.length ∧ r.2.take r.1.toNat = ws.map some ∧
      r.1.toNat = ws.length ∧ Deflation m.eps op (ws.map asComplex) o) := by
  unfold rpoly
  split
  · exact Res.sat_ok (by intro h; simp at h)
  · refine Res.Sat.bind' fun c hc => ?_
    split
    · exact Res.sat_pure (by intro h; simp at h)
    · rename_i hnz
      refine (removeZeros_chain m hm op degree degree 0 z (by omega) (by omega)).bind fun r hr => ?_
      obtain ⟨n', k, g1, g2, g3, g4⟩ := hr
      have hlen : r.1.length = n' + 1 := by
        rw [g1, List.length_take]
        omega
      have hc0 : ∀ a ∈ r.1.head?, a ≠ 0 := by
        intro a ha
        rw [g1, List.head?_take, if_neg (by omega), List.head?_eq_getElem?] at ha
        rw [Res.at'_eq_ok] at hc
        rw [hc] at ha
        have : c = a := by simpa using ha
        rw [← this]
        intro h
        exact hnz ((hm.isZero c).mpr h)
      refine (mainLoop_chain m hm fuel degree (degree + 1) r.1 _ _ r.2 (by omega) (by omega) hc0).bind
        fun x hx => ?_
      obtain ⟨ws, o, e1, e2, e3, e4, e5⟩ := hx
      refine Res.sat_pure fun _ => ?_
      have hk : degree - (r.1.length - 1) = k := by omega
      rw [hk] at e4
      rw [Nat.zero_add] at g3
      rw [g3] at e4
      have htake : op.take (degree + 1) = op := by rw [← hop, List.take_length]
      refine ⟨List.replicate k (0, 0) ++ ws, o, e2, ?_, ?_, ?_, ?_⟩
      · rw [List.length_append, List.length_replicate]
        omega
      · simpa using e4
      · rw [List.length_append, List.length_replicate]
        simp
        omega
      · have := g4 _ _ e5
        rw [htake] at this
        have h00 : asComplex (0, 0) = 0 := by
          apply Complex.ext <;> simp [asComplex]
        simpa [h00] using this

theorem findRoots_chain (m : RMath ℝ) (hm : ExactMath m) (fuel : ℕ) (coeffs : List ℝ) (l : ℕ)
    (hl : findLastNonZeroCoeff m coeffs = some (l + 1)) (hlen : l + 1 < coeffs.length) (b : Bool)
    (zs : List (ℝ × ℝ)) (h : findRoots m fuel coeffs = .ok (b, some zs)) :
    b = true ∧ ∃ o : List ℝ, 1 ≤ o.length ∧ zs.length + o.length = l + 2 ∧
      Deflation m.eps (coeffs.take (l + 2)).reverse (zs.map asComplex) o := by
  have h22 : l + 2 = l + 1 + 1 := rfl
  rw [h22]
  unfold findRoots at h
  rw [hl] at h
  simp only at h
  split at h
  · cases h
  · obtain ⟨r, hr, h⟩ := Res.bind_eq_ok.mp h
    have hop : (coeffs.take (l + 1 + 1)).reverse.length = l + 2 := by
      rw [List.length_reverse, List.length_take]
      omega
    have hch := rpoly_chain m hm fuel _ _ (List.replicate 100 none) (by omega) r hr
    split at h
    · rename_i hpos
      obtain ⟨ws, o, e1, e2, e3, e4, e5⟩ := hch hpos
      obtain ⟨zs', hzs, h⟩ := Res.bind_eq_ok.mp h
      cases h
      have : zs = ws := by
        have h1 := Res.mapM_forall₂.mp hzs
        apply List.ext_getElem?
        intro i
        have hlen1 := h1.length_eq
        rw [List.length_range, e4] at hlen1
        by_cases hi : i < ws.length
        · have h2 := h1.get (i := i) (by simpa [e4] using hi) (by omega)
          simp only [List.get_eq_getElem, List.getElem_range] at h2
          obtain ⟨x, hx, h2⟩ := Res.bind_eq_ok.mp h2
          rw [Res.at'_eq_ok] at hx
          have h3 := congrArg (fun t => t[i]?) e3
          simp only [List.getElem?_take_of_lt (show i < r.1.toNat by omega), hx, List.getElem?_map,
            List.getElem?_eq_getElem hi, Option.map_some, Option.some.injEq] at h3
          rw [h3] at h2
          rw [List.getElem?_eq_getElem hi, List.getElem?_eq_getElem (by omega)]
          simpa [Res.get] using h2.symm
        · rw [List.getElem?_eq_none (by omega), List.getElem?_eq_none (by omega)]
      subst this
      exact ⟨rfl, o, e1, by omega, e5⟩
    · cases h

end Verif
