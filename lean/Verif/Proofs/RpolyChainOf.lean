import Verif.Proofs.RpolyDriver
import Verif.Proofs.RpolyFound
import Verif.Proofs.Io

/-
The zeros reported form a chain of steps, for scalars of which only the operations are used.
-/
set_option linter.unusedSectionVars false

namespace Verif

open Spec

variable {K : Type}
variable [Add K] [Sub K] [Mul K] [Div K] [Neg K] [NatCast K] [LE K] [LT K] [DecidableLE K] [DecidableLT K]

/-- The calls by which a zero was found. -/
def SearchOf (m : RMath K) (p : List K) (f : Found K) : Prop :=
  ∃ (fuel : ℕ) (bnd : K) (k : List K) (xx yy : K) (r : Option (Found K) × K × K), lowerBound m fuel p = .ok bnd ∧
    startK m p = .ok k ∧ shiftLoop m bnd k p 20 1 xx yy = .ok r ∧ r.1 = some f

/-- A relation between a polynomial, the zeros split off, and what is left, that every step of the root finder keeps. `NZ`
holds of leading coefficients. -/
structure ChainRel (m : RMath K) (NZ : K → Prop) (D : List K → List (K × K) → List K → Prop) : Prop where
  nz : ∀ c, m.isZero c = false → NZ c
  scale : ∀ x y, NZ x → NZ (x * m.pow2 y)
  done : ∀ p, D p [] p
  origin : ∀ p zs o c, m.isZero c = true → D p zs o → D (p ++ [c]) ((num 0, num 0) :: zs) o
  linear : ∀ a b, NZ a → D [a, b] [(-(b / a), num 0)] [a]
  quadratic : ∀ a b c, NZ a → D [a, b, c] [((quad m a b c).sr, (quad m a b c).si), ((quad m a b c).lr, (quad m a b c).li)] [a]
  found : ∀ p f zs o, 4 ≤ p.length → p.length ≤ 101 → (∀ a ∈ p.head?, NZ a) → FoundOK m (scaleCoeffs m p) f →
    SearchOf m (scaleCoeffs m p) f →
    D (f.qp.take (p.length - if f.two then 2 else 1)) zs o →
    D p ((f.roots.sr, f.roots.si) :: ((if f.two then [(f.roots.lr, f.roots.li)] else []) ++ zs)) o

theorem put_take_of (z z' : Slots K) (i : ℤ) (n : ℕ) (x : K × K) (hi : i = n) (h : z.put i x = .ok z') :
    n < z.length ∧ z'.length = z.length ∧ z'.take (n + 1) = z.take n ++ [some x] := by
  subst hi
  unfold Slots.put at h
  split at h
  · rename_i hh
    cases h
    have hn : n < z.length := by have := hh.2; omega
    refine ⟨hn, by simp, ?_⟩
    rw [Int.toNat_natCast]
    apply List.ext_getElem?
    intro j
    rcases Nat.lt_trichotomy j n with hj | hj | hj
    · rw [List.getElem?_take_of_lt (by omega), List.getElem?_set_ne (by omega),
        List.getElem?_append_left (by simp; omega), List.getElem?_take_of_lt hj]
    · subst hj
      rw [List.getElem?_take_of_lt (by omega), List.getElem?_set_self hn,
        List.getElem?_append_right (by simp)]
      simp [Nat.min_eq_left hn.le]
    · rw [List.getElem?_eq_none (by simp; omega), List.getElem?_eq_none (by simp; omega)]
  · cases h

theorem quadSD_length_of (u v : K) (p : List K) (r : List K × K × K) (h : quadSD u v p = .ok r) :
    r.1.length = p.length := by
  match p, h with
  | p0 :: p1 :: ps, h =>
    cases h
    simp [quadSDLoop_length]

theorem horner_length_of (s : K) (p : List K) (r : List K × K) (h : horner s p = .ok r) : r.1.length = p.length := by
  match p, h with
  | p0 :: ps, h =>
    cases h
    simp [hornerLoop_length]

theorem scaleCoeffs_head_of {m : RMath K} {NZ : K → Prop} (hs : ∀ x y, NZ x → NZ (x * m.pow2 y)) (p : List K)
    (h0 : ∀ a ∈ p.head?, NZ a) : ∀ a ∈ (scaleCoeffs m p).head?, NZ a := by
  unfold scaleCoeffs
  dsimp only
  split
  · intro a ha
    rw [List.head?_map] at ha
    obtain ⟨b, hb', hab⟩ := Option.mem_map.mp ha
    rw [← hab]
    exact hs _ _ (h0 b hb')
  · exact h0

/-- What the main loop achieves. -/
theorem mainLoop_chain_of {m : RMath K} {NZ : K → Prop} {D : List K → List (K × K) → List K → Prop}
    (hD : ChainRel m NZ D) (fuel degree : ℕ) (hd : degree ≤ 100) : ∀ (rounds : ℕ) (p : List K)
    (xx yy : K) (z : Slots K), 1 ≤ p.length → p.length ≤ degree + 1 → (∀ a ∈ p.head?, NZ a) →
    (mainLoop m fuel degree rounds p xx yy z).Sat (fun r => ∃ (ws : List (K × K)) (o : List K),
      r.1 + (o.length - 1) = degree ∧ 1 ≤ o.length ∧ ws.length + o.length = p.length ∧
      r.2.take r.1 = z.take (degree - (p.length - 1)) ++ ws.map some ∧
      D p ws o) := by
  intro rounds
  induction rounds with
  | zero => intro p xx yy z _ _ _; exact Res.sat_hang
  | succ rounds ih =>
    intro p xx yy z h1 h2 h0
    unfold mainLoop
    split
    · rename_i h
      refine Res.sat_ok ⟨[], p, by omega, h1, by simp, ?_, hD.done p⟩
      have : degree - (p.length - 1) = degree := by omega
      simp [this]
    · rename_i hn1
      split
      · rename_i hn2
        refine Res.Sat.bind' fun z' hz' => Res.sat_pure ?_
        unfold finalZeros at hz'
        obtain ⟨p0, hp0, hz'⟩ := Res.bind_eq_ok.mp hz'
        obtain ⟨p1, hp1, hz'⟩ := Res.bind_eq_ok.mp hz'
        rw [Res.at'_eq_ok] at hp0 hp1
        have hp0' : NZ p0 := h0 p0 (by rw [List.head?_eq_getElem?, hp0]; rfl)
        split at hz'
        · rename_i e
          have hp : p = [p0, p1] := by
            match p, e with
            | [a, b], _ =>
              simp at hp0 hp1
              rw [hp0, hp1]
          obtain ⟨_, _, ht⟩ := put_take_of z z' _ (degree - 1) _ (by omega) hz'
          refine ⟨[(-(p1 / p0), num 0)], [p0], by simp, by simp, by simp [hp], ?_, ?_⟩
          · rw [e]
            rw [show degree - 1 + 1 = degree by omega] at ht
            simpa using ht
          · rw [hp]
            exact hD.linear p0 p1 hp0'
        · rename_i e3
          have e : p.length = 3 := by omega
          obtain ⟨p2, hp2, hz'⟩ := Res.bind_eq_ok.mp hz'
          rw [Res.at'_eq_ok] at hp2
          obtain ⟨z1, hz1, hz'⟩ := Res.bind_eq_ok.mp hz'
          have hp : p = [p0, p1, p2] := by
            match p, e with
            | [a, b, c], _ =>
              simp at hp0 hp1 hp2
              rw [hp0, hp1, hp2]
          obtain ⟨_, _, ht1⟩ := put_take_of z z1 _ (degree - 2) _ (by omega) hz1
          obtain ⟨_, _, ht2⟩ := put_take_of z1 z' _ (degree - 2 + 1) _ (by omega) hz'
          rw [ht1, show degree - 2 + 1 + 1 = degree by omega] at ht2
          refine ⟨[((quad m p0 p1 p2).sr, (quad m p0 p1 p2).si), ((quad m p0 p1 p2).lr, (quad m p0 p1 p2).li)],
            [p0], by simp, by simp, by simp [hp], ?_, ?_⟩
          · rw [e]
            simpa using ht2
          · rw [hp]
            exact hD.quadratic p0 p1 p2 hp0'
      · have hl : (scaleCoeffs m p).length = p.length := scaleCoeffs_length m p
        simp only
        refine Res.Sat.bind' fun bnd hbnd => Res.Sat.bind' fun k hk => ?_
        refine Res.Sat.bind' fun r hrun => ?_
        have hr := shiftLoop_found m bnd k _ 20 1 xx yy r hrun
        rw [hl]
        cases hf : r.1 with
        | none =>
          refine Res.sat_pure ⟨[], p, by omega, h1, by simp, by simp, hD.done p⟩
        | some f =>
          have hfo := hr f hf
          simp only
          refine Res.Sat.bind' fun z' hz' => ?_
          have hqshape : f.qp.length = p.length ∧ f.qp.head? = (scaleCoeffs m p).head? := by
            rcases hfo with ⟨_, u, v, r, e, _, hq, hqp, _⟩ | ⟨_, r, _, hq, hqp, _⟩
            · rw [hqp, ← hl]
              exact ⟨quadSD_length_of u v _ r hq, quadSD_head u v _ r hq⟩
            · rw [hqp, ← hl]
              exact ⟨horner_length_of _ _ r hq, horner_head _ _ r hq⟩
          have h21 : (if f.two = true then 2 else 1) ≤ 2 ∧ 1 ≤ (if f.two = true then 2 else 1) := by
            split <;> omega
          have hlen : (f.qp.take (p.length - if f.two = true then 2 else 1)).length =
              p.length - if f.two = true then 2 else 1 := by
            rw [List.length_take]
            omega
          have := ih (f.qp.take (p.length - if f.two = true then 2 else 1)) r.2.1 r.2.2 z' (by omega) (by omega) (by
            intro a ha
            rw [List.head?_take, if_neg (by omega), hqshape.2] at ha
            exact scaleCoeffs_head_of hD.scale p h0 a ha)
          intro x hx
          obtain ⟨ws, o, g1, g2, g3, g4, g5⟩ := this x hx
          rw [hlen] at g3 g4
          refine ⟨(f.roots.sr, f.roots.si) :: ((if f.two then [(f.roots.lr, f.roots.li)] else []) ++ ws), o, g1, g2,
            ?_, ?_, ?_⟩
          · have hw : (if f.two = true then [(f.roots.lr, f.roots.li)] else []).length + 1 =
                if f.two = true then 2 else 1 := by
              split <;> rfl
            rw [List.length_cons, List.length_append]
            omega
          · rw [g4]
            unfold storeFound at hz'
            obtain ⟨z1, hz1, hz'⟩ := Res.bind_eq_ok.mp hz'
            obtain ⟨_, _, ht1⟩ := put_take_of z z1 _ (degree - (p.length - 1)) _ (by omega) hz1
            split at hz'
            · rename_i htwo
              obtain ⟨_, _, ht2⟩ := put_take_of z1 z' _ (degree - (p.length - 1) + 1) _ (by omega) hz'
              rw [if_pos htwo, if_pos htwo, show degree - (p.length - 2 - 1) =
                degree - (p.length - 1) + 1 + 1 by omega, ht2, ht1]
              simp
            · rename_i htwo
              cases hz'
              rw [if_neg htwo, if_neg htwo, show degree - (p.length - 1 - 1) =
                degree - (p.length - 1) + 1 by omega, ht1]
              simp
          · exact hD.found p f ws o (by omega) (by omega) h0 hfo ⟨fuel, bnd, k, xx, yy, r, hbnd, hk, hrun, hf⟩ g5

theorem removeZeros_chain_of {m : RMath K} {NZ : K → Prop} {D : List K → List (K × K) → List K → Prop}
    (hD : ChainRel m NZ D) (op : List K) (degree : ℕ) :
    ∀ (n j : ℕ) (z : Slots K), n < op.length → j + n = degree →
    (removeZeros m op n j z).Sat (fun r => ∃ n' k, r.1 = op.take (n' + 1) ∧ n' + k = n ∧
      r.2.take (j + k) = z.take j ++ List.replicate k (some (num 0, num 0)) ∧
      ∀ zs o, D r.1 zs o →
        D (op.take (n + 1)) (List.replicate k (num 0, num 0) ++ zs) o) := by
  intro n
  induction n with
  | zero =>
    intro j z hn hj
    unfold removeZeros
    refine Res.Sat.bind' fun c hc => ?_
    split
    · exact Res.sat_ub
    · exact Res.sat_pure ⟨0, 0, rfl, rfl, by simp, fun zs o h => by simpa using h⟩
  | succ n ih =>
    intro j z hn hj
    unfold removeZeros
    refine Res.Sat.bind' fun c hc => ?_
    split
    · rename_i hz
      simp only
      refine Res.Sat.bind' fun z' hz' => ?_
      intro r hr
      obtain ⟨n', k, g1, g2, g3, g4⟩ := ih (j + 1) z' (by omega) (by omega) r hr
      obtain ⟨_, _, ht⟩ := put_take_of z z' _ j _ rfl hz'
      refine ⟨n', k + 1, g1, by omega, ?_, ?_⟩
      · rw [show j + (k + 1) = j + 1 + k by omega, g3, ht, List.replicate_succ]
        simp
      · intro zs o h
        have h1 := hD.origin _ _ _ c hz (g4 zs o h)
        rw [Res.at'_eq_ok] at hc
        have h2 : op.take (n + 1 + 1) = op.take (n + 1) ++ [c] := by
          rw [List.take_add_one, hc]
          rfl
        rw [h2, List.replicate_succ]
        exact h1
    · exact Res.sat_pure ⟨n + 1, 0, rfl, rfl, by simp, fun zs o h => by simpa using h⟩

/-- What the root finder achieves. -/
theorem rpoly_chain_of {m : RMath K} {NZ : K → Prop} {D : List K → List (K × K) → List K → Prop}
    (hD : ChainRel m NZ D) (fuel : ℕ) (op : List K) (degree : ℕ) (z : Slots K)
    (hop : op.length = degree + 1) (hd : degree ≤ 100) :
    (rpoly m fuel op degree z).Sat (fun r => 0 < r.1 → ∃ (ws : List (K × K)) (o : List K),
      1 ≤ o.length ∧ ws.length + o.length = op.length ∧ r.2.take r.1.toNat = ws.map some ∧
      r.1.toNat = ws.length ∧ D op ws o) := by
  unfold rpoly
  split
  · exact Res.sat_ok (by intro h; simp at h)
  · refine Res.Sat.bind' fun c hc => ?_
    split
    · exact Res.sat_pure (by intro h; simp at h)
    · rename_i hnz
      refine (removeZeros_chain_of hD op degree degree 0 z (by omega) (by omega)).bind fun r hr => ?_
      obtain ⟨n', k, g1, g2, g3, g4⟩ := hr
      have hlen : r.1.length = n' + 1 := by
        rw [g1, List.length_take]
        omega
      have hc0 : ∀ a ∈ r.1.head?, NZ a := by
        intro a ha
        rw [g1, List.head?_take, if_neg (by omega), List.head?_eq_getElem?] at ha
        rw [Res.at'_eq_ok] at hc
        rw [hc] at ha
        have : c = a := by simpa using ha
        rw [← this]
        exact hD.nz c (by simpa using hnz)
      refine (mainLoop_chain_of hD fuel degree hd (degree + 1) r.1 _ _ r.2 (by omega) (by omega) hc0).bind
        fun x hx => ?_
      obtain ⟨ws, o, e1, e2, e3, e4, e5⟩ := hx
      refine Res.sat_pure fun _ => ?_
      have hk : degree - (r.1.length - 1) = k := by omega
      rw [hk] at e4
      rw [Nat.zero_add] at g3
      rw [g3] at e4
      have htake : op.take (degree + 1) = op := by rw [← hop, List.take_length]
      refine ⟨List.replicate k (num 0, num 0) ++ ws, o, e2, ?_, ?_, ?_, ?_⟩
      · rw [List.length_append, List.length_replicate]
        omega
      · simpa using e4
      · rw [List.length_append, List.length_replicate]
        simp
        omega
      · have := g4 _ _ e5
        rw [htake] at this
        exact this

theorem findRoots_chain_of {m : RMath K} {NZ : K → Prop} {D : List K → List (K × K) → List K → Prop}
    (hD : ChainRel m NZ D) (fuel : ℕ) (coeffs : List K) (l : ℕ)
    (hl : findLastNonZeroCoeff m coeffs = some (l + 1)) (hlen : l + 1 < coeffs.length) (b : Bool)
    (zs : List (K × K)) (h : findRoots m fuel coeffs = .ok (b, some zs)) :
    b = true ∧ ∃ o : List K, 1 ≤ o.length ∧ zs.length + o.length = l + 2 ∧
      D (coeffs.take (l + 2)).reverse zs o := by
  have h22 : l + 2 = l + 1 + 1 := rfl
  rw [h22]
  unfold findRoots at h
  rw [hl] at h
  simp only at h
  split at h
  · cases h
  · obtain ⟨r, hr, h⟩ := Res.bind_eq_ok.mp h
    have hop : (coeffs.take (l + 1 + 1)).reverse.length = l + 2 := by
      rw [List.length_reverse, List.length_take]
      omega
    have hch := rpoly_chain_of hD fuel _ _ (List.replicate 100 none) (by omega) (by omega) r hr
    split at h
    · rename_i hpos
      obtain ⟨ws, o, e1, e2, e3, e4, e5⟩ := hch hpos
      obtain ⟨zs', hzs, h⟩ := Res.bind_eq_ok.mp h
      cases h
      have : zs = ws := by
        have h1 := Res.mapM_forall₂.mp hzs
        apply List.ext_getElem?
        intro i
        have hlen1 := h1.length_eq
        rw [List.length_range, e4] at hlen1
        by_cases hi : i < ws.length
        · have h2 := h1.get (i := i) (by simpa [e4] using hi) (by omega)
          simp only [List.get_eq_getElem, List.getElem_range] at h2
          obtain ⟨x, hx, h2⟩ := Res.bind_eq_ok.mp h2
          rw [Res.at'_eq_ok] at hx
          have h3 := congrArg (fun t => t[i]?) e3
          simp only [List.getElem?_take_of_lt (show i < r.1.toNat by omega), hx, List.getElem?_map,
            List.getElem?_eq_getElem hi, Option.map_some, Option.some.injEq] at h3
          rw [h3] at h2
          rw [List.getElem?_eq_getElem hi, List.getElem?_eq_getElem (by omega)]
          simpa [Res.get] using h2.symm
        · rw [List.getElem?_eq_none (by omega), List.getElem?_eq_none (by omega)]
      subst this
      exact ⟨rfl, o, e1, by omega, e5⟩
    · cases h

end Verif
