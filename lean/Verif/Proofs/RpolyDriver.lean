import Verif.Proofs.RpolyTermination

/-
The root finder returns whenever the search for the lower bound of the moduli does, whatever the numbers are.
-/
set_option linter.unusedSectionVars false

namespace Verif

open Spec

section
variable {K : Type}
variable [Add K] [Sub K] [Mul K] [Div K] [Neg K] [NatCast K] [LE K] [LT K] [DecidableLE K] [DecidableLT K]

theorem quadSD_head (u v : K) (p : List K) (r : List K × K × K) (h : quadSD u v p = .ok r) :
    r.1.head? = p.head? := by
  match p, h with
  | p0 :: p1 :: ps, h =>
    cases h
    simp

theorem horner_head (s : K) (p : List K) (r : List K × K) (h : horner s p = .ok r) :
    r.1.head? = p.head? := by
  match p, h with
  | p0 :: ps, h =>
    cases h
    simp

theorem removeZeros_take (m : RMath K) (op : List K) : ∀ (n j : ℕ) (z : Slots K),
    (removeZeros m op n j z).Sat (fun r => ∃ n', r.1 = op.take (n' + 1)) := by
  intro n
  induction n with
  | zero =>
    intro j z
    unfold removeZeros
    refine Res.Sat.bind' fun c hc => ?_
    split
    · exact Res.sat_ub
    · exact Res.sat_pure ⟨_, rfl⟩
  | succ n ih =>
    intro j z
    unfold removeZeros
    refine Res.Sat.bind' fun c hc => ?_
    split
    · exact Res.Sat.bind' fun z' _ => ih _ _
    · exact Res.sat_pure ⟨_, rfl⟩

/-- Whether the search for the lower bound returns for all polynomials of degree at most 100 whose leading coefficient satisfies
`NZ`, and whether scaling keeps `NZ`. -/
structure BoundFound (m : RMath K) (NZ : K → Prop) : Prop where
  scale : ∀ x y, NZ x → NZ (x * m.pow2 y)
  bound : ∀ p : List K, 4 ≤ p.length → p.length ≤ 101 → (∀ a ∈ p.head?, NZ a) →
    Settles (fun fuel => lowerBound m fuel p) (fun _ => True)

theorem scaleCoeffs_head (m : RMath K) {NZ : K → Prop} (hb : BoundFound m NZ) (p : List K) (h0 : ∀ a ∈ p.head?, NZ a) :
    ∀ a ∈ (scaleCoeffs m p).head?, NZ a := by
  unfold scaleCoeffs
  dsimp only
  split
  · intro a ha
    rw [List.head?_map] at ha
    obtain ⟨b, hb', hab⟩ := Option.mem_map.mp ha
    rw [← hab]
    exact hb.scale _ _ (h0 b hb')
  · exact h0

theorem mainLoop_settles_of (m : RMath K) {NZ : K → Prop} (hb : BoundFound m NZ) (degree : ℕ) (hd : degree ≤ 100) :
    ∀ (rounds : ℕ) (p : List K) (xx yy : K) (z : Slots K), 1 ≤ p.length → p.length ≤ degree + 1 →
    p.length ≤ rounds → (∀ a ∈ p.head?, NZ a) → Filled (degree - (p.length - 1)) z →
    Settles (fun fuel => mainLoop m fuel degree rounds p xx yy z) (fun r => r.1 ≤ degree ∧ Filled r.1 r.2) := by
  intro rounds
  induction rounds with
  | zero => intro p xx yy z h1 _ h3; omega
  | succ rounds ih =>
    intro p xx yy z h1 h2 h3 h0 hz
    unfold mainLoop
    split
    · rename_i h
      rw [show p.length - 1 = 0 by omega] at hz
      exact (Res.rets_ok ⟨Nat.le_refl _, by simpa using hz⟩).settles
    · rename_i hn1
      split
      · exact ((finalZeros_rets m degree p z (by omega) (by omega) hd h2 hz).bind fun z' hz' =>
          Res.rets_pure ⟨Nat.le_refl _, hz'⟩).settles
      · have hl := scaleCoeffs_length m p
        have hsh := scaleCoeffs_head m hb p h0
        simp only
        refine (hb.bound _ (by omega) (by omega) hsh).bind fun bnd _ => ?_
        refine (startK_rets m _ (by omega)).settles.bind fun k hk => ?_
        have hshift : (shiftLoop m bnd k (scaleCoeffs m p) 20 1 xx yy).Rets
            (fun r => (∀ f, r.1 = some f → f.qp.length = (scaleCoeffs m p).length) ∧
              SomeOK m (scaleCoeffs m p) r.1) := by
          obtain ⟨r, e1, e2⟩ := shiftLoop_rets m bnd k _ (by omega) hk 20 1 xx yy
          exact ⟨r, e1, e2, shiftLoop_found m bnd k _ 20 1 xx yy r e1⟩
        refine hshift.settles.bind fun r hr => ?_
        rw [hl]
        cases hf : r.1 with
        | none =>
          exact (Res.rets_pure ⟨by omega, by simpa using hz⟩).settles
        | some f =>
          simp only
          refine (storeFound_rets degree (p.length - 1) f z (by omega) hd (by omega) hz).settles.bind
            fun z' hz' => ?_
          have hq := hr.1 f hf
          have hfo := hr.2 f hf
          have hhead : f.qp.head? = (scaleCoeffs m p).head? := by
            rcases hfo with ⟨_, u, v, r, e, _, hq, hqp, _⟩ | ⟨_, r, _, hq, hqp, _⟩
            · rw [hqp]
              exact quadSD_head u v _ r hq
            · rw [hqp]
              exact horner_head _ _ r hq
          have hlen : (f.qp.take (p.length - if f.two = true then 2 else 1)).length =
              p.length - if f.two = true then 2 else 1 := by
            rw [List.length_take]
            omega
          have h21 : (if f.two = true then 2 else 1) ≤ 2 ∧ 1 ≤ (if f.two = true then 2 else 1) := by
            split <;> omega
          refine ih _ _ _ z' (by omega) (by omega) (by omega) ?_ ?_
          · intro a ha
            rw [List.head?_take, if_neg (by omega), hhead] at ha
            exact hsh a ha
          · rw [hlen]
            rw [show p.length - (if f.two = true then 2 else 1) - 1 =
              p.length - 1 - (if f.two = true then 2 else 1) by omega]
            exact hz'

theorem rpoly_settles_of (m : RMath K) {NZ : K → Prop} (hb : BoundFound m NZ) (hNZ : ∀ x, m.isZero x = false → NZ x)
    (op : List K) (degree : ℕ) (h : op.length = degree + 1)
    (z : Slots K) (hz : z.length = 100) :
    Settles (fun fuel => rpoly m fuel op degree z) (fun r => r.1 ≤ degree ∧ Filled r.1.toNat r.2) := by
  unfold rpoly
  split
  · exact (Res.rets_ok ⟨by simp, ⟨hz, by simp⟩⟩).settles
  · rename_i hd
    refine (Res.rets_at' (by omega)).settles.bind fun c hc => ?_
    split
    · exact (Res.rets_pure ⟨by simp, ⟨hz, by simp⟩⟩).settles
    · rename_i h0
      have hrem : (removeZeros m op degree 0 z).Rets (fun r => (1 ≤ r.1.length ∧ r.1.length ≤ degree + 1 ∧
          Filled (degree - (r.1.length - 1)) r.2) ∧ ∃ n', r.1 = op.take (n' + 1)) := by
        obtain ⟨r, e1, e2⟩ := removeZeros_rets m op degree (by omega) ⟨c, hc, by simpa using h0⟩ degree 0 z
          (by omega) (by omega) ⟨hz, by simp⟩
        exact ⟨r, e1, e2, removeZeros_take m op degree 0 z r e1⟩
      refine hrem.settles.bind fun r hr => ?_
      obtain ⟨⟨h1, h2, h3⟩, n', hn'⟩ := hr
      refine (mainLoop_settles_of m hb degree (by omega) (degree + 1) r.1 _ _ r.2 h1 h2 h2 ?_ h3).bind
        fun x hx => ?_
      · intro a ha
        rw [hn', List.head?_take, if_neg (by omega), List.head?_eq_getElem?, hc] at ha
        cases ha
        exact hNZ c (by simpa using h0)
      · exact (Res.rets_pure ⟨by simpa using hx.1, by simpa using hx.2⟩).settles

theorem findRoots_settles_of (m : RMath K) {NZ : K → Prop} (hb : BoundFound m NZ) (hNZ : ∀ x, m.isZero x = false → NZ x)
    (coeffs : List K) (h : coeffs.length ≤ 101) : ∃ F r, ∀ fuel, F ≤ fuel → findRoots m fuel coeffs = .ok r := by
  unfold findRoots
  cases hl : findLastNonZeroCoeff m coeffs with
  | none => exact ⟨0, _, fun _ _ => rfl⟩
  | some l =>
    cases l with
    | zero => exact ⟨0, _, fun _ _ => rfl⟩
    | succ l =>
      have hlt : l + 1 < coeffs.length := by
        have := List.mem_of_find?_eq_some hl
        simpa using this
      have hop : (coeffs.take (l + 1 + 1)).reverse.length = l + 2 := by
        rw [List.length_reverse, List.length_take]
        omega
      have hnot : ¬ 101 < (coeffs.take (l + 1 + 1)).reverse.length := by omega
      simp only [if_neg hnot]
      obtain ⟨F, r, ⟨_, h2⟩, hF⟩ := rpoly_settles_of m hb hNZ (coeffs.take (l + 1 + 1)).reverse
        ((coeffs.take (l + 1 + 1)).reverse.length - 1) (by omega) (List.replicate 100 none) (by simp)
      by_cases hpos : 0 < r.1
      · obtain ⟨zs, hzs, _⟩ := Res.rets_mapM (f := fun i => do
            let x ← Res.at' r.2 i
            Res.get x) (List.range r.1.toNat) (by
          intro i hi
          obtain ⟨x, hx⟩ := h2.2 i (by simpa using hi)
          exact ⟨x, by rw [Res.at'_eq_ok.mpr hx, Res.ok_bind]; rfl, trivial⟩)
        refine ⟨F, (true, some zs), fun fuel hf => ?_⟩
        have := hF fuel hf
        simp only at this
        rw [this, Res.ok_bind, if_pos hpos, hzs]
        rfl
      · refine ⟨F, (false, none), fun fuel hf => ?_⟩
        have := hF fuel hf
        simp only at this
        rw [this, Res.ok_bind, if_neg hpos]
        rfl

end
end Verif
