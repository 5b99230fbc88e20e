import Verif.Proofs.RpolyChain

/- Zeros at the origin are split off before anything else. -/
set_option linter.unusedSectionVars false

namespace Verif

open Spec Polynomial

/-- The slots `y` are the slots `z` moved by `j`, after `j` zeros. -/
structure SlotsMoved (j : ℕ) (z y : Slots ℝ) : Prop where
  len : z.length = 100
  len' : y.length = 100
  zeros : ∀ i < j, y[i]? = some (some (0, 0))
  rest : ∀ i, i + j < 100 → y[i + j]? = z[i]?

theorem put_moved {j : ℕ} {z y z1 : Slots ℝ} (h : SlotsMoved j z y) (i : ℤ) (hi : i + j < 100) (x : ℝ × ℝ)
    (e : z.put i x = .ok z1) : ∃ y1, y.put (i + j) x = .ok y1 ∧ SlotsMoved j z1 y1 := by
  unfold Slots.put at e ⊢
  split_ifs at e with hb
  obtain rfl : z.set i.toNat (some x) = z1 := by simpa using e
  have hn : (i + j).toNat = i.toNat + j := by omega
  rw [if_pos (by rw [h.len']; omega), hn]
  refine ⟨_, rfl, by simpa using h.len, by simpa using h.len', ?_, ?_⟩
  · intro t ht
    rw [List.getElem?_set_ne (by omega)]
    exact h.zeros t ht
  · intro t ht
    by_cases hti : i.toNat = t
    · subst hti
      have h1 : i.toNat < z.length := by omega
      have h2 : i.toNat + j < y.length := by rw [h.len']; exact ht
      rw [List.getElem?_set_self h1, List.getElem?_set_self h2]
    · rw [List.getElem?_set_ne (by omega), List.getElem?_set_ne (by omega)]
      exact h.rest t ht

theorem finalZeros_moved (m : RMath ℝ) {j d : ℕ} (hd : d + j ≤ 100) (p : List ℝ) {z y z1 : Slots ℝ}
    (h : SlotsMoved j z y) (e : finalZeros m d p z = .ok z1) :
    ∃ y1, finalZeros m (d + j) p y = .ok y1 ∧ SlotsMoved j z1 y1 := by
  unfold finalZeros at e ⊢
  obtain ⟨p0, e0, e⟩ := Res.bind_eq_ok.mp e
  obtain ⟨p1, e1, e⟩ := Res.bind_eq_ok.mp e
  rw [e0, Res.ok_bind, e1, Res.ok_bind]
  by_cases h2 : p.length = 2
  · rw [if_pos h2] at e ⊢
    obtain ⟨y1, g1, g2⟩ := put_moved h ((d : ℤ) - 1) (by omega) _ e
    refine ⟨y1, ?_, g2⟩
    rw [← g1]
    congr 1
    push_cast
    ring
  · rw [if_neg h2] at e ⊢
    obtain ⟨p2, e2, e⟩ := Res.bind_eq_ok.mp e
    rw [e2, Res.ok_bind]
    dsimp only at e ⊢
    obtain ⟨z2, e3, e⟩ := Res.bind_eq_ok.mp e
    obtain ⟨y2, g1, g2⟩ := put_moved h ((d : ℤ) - 2) (by omega) _ e3
    obtain ⟨y1, g3, g4⟩ := put_moved g2 ((d : ℤ) - 1) (by omega) _ e
    refine ⟨y1, ?_, g4⟩
    rw [show ((d + j : ℕ) : ℤ) - 2 = (d : ℤ) - 2 + j by push_cast; ring, g1, Res.ok_bind,
      show ((d + j : ℕ) : ℤ) - 1 = (d : ℤ) - 1 + j by push_cast; ring, g3]

theorem storeFound_moved {j d : ℕ} (hd : d + j ≤ 100) (n : ℕ) (hn : 2 ≤ n) (f : Found ℝ) {z y z1 : Slots ℝ}
    (h : SlotsMoved j z y) (e : storeFound d n f z = .ok z1) :
    ∃ y1, storeFound (d + j) n f y = .ok y1 ∧ SlotsMoved j z1 y1 := by
  unfold storeFound at e ⊢
  obtain ⟨z2, e3, e⟩ := Res.bind_eq_ok.mp e
  obtain ⟨y2, g1, g2⟩ := put_moved h ((d : ℤ) - n) (by omega) _ e3
  rw [show ((d + j : ℕ) : ℤ) - n = (d : ℤ) - n + j by push_cast; ring, g1, Res.ok_bind]
  by_cases hf : f.two = true
  · rw [if_pos hf] at e ⊢
    obtain ⟨y1, g3, g4⟩ := put_moved g2 ((d : ℤ) - n + 1) (by omega) _ e
    refine ⟨y1, ?_, g4⟩
    rw [show (d : ℤ) - n + j + 1 = (d : ℤ) - n + 1 + j by ring, g3]
  · rw [if_neg hf] at e ⊢
    have : z2 = z1 := by simpa [Res.pure_eq] using e
    exact ⟨y2, rfl, this ▸ g2⟩

theorem mainLoop_moved (m : RMath ℝ) (fuel : ℕ) {j d : ℕ} (hd : d + j ≤ 100) : ∀ (r1 r2 : ℕ) (p : List ℝ)
    (xx yy : ℝ) (z y z1 : Slots ℝ) (e1 : ℕ), p.length ≤ r2 → 1 ≤ r2 → p.length ≤ d + 1 → SlotsMoved j z y →
    mainLoop m fuel d r1 p xx yy z = .ok (e1, z1) →
    ∃ y1, mainLoop m fuel (d + j) r2 p xx yy y = .ok (e1 + j, y1) ∧ SlotsMoved j z1 y1 ∧ e1 ≤ d := by
  intro r1
  induction r1 with
  | zero => intro r2 p xx yy z y z1 e1 _ _ _ _ e; simp [mainLoop] at e
  | succ r1 ih =>
    intro r2 p xx yy z y z1 e1 hp hr hpd h e
    obtain ⟨r2, rfl⟩ : ∃ r, r2 = r + 1 := ⟨r2 - 1, by omega⟩
    unfold mainLoop at e ⊢
    by_cases c1 : p.length - 1 < 1
    · rw [if_pos c1] at e ⊢
      simp only [Res.ok.injEq, Prod.mk.injEq] at e
      obtain ⟨rfl, rfl⟩ := e
      exact ⟨y, rfl, h, le_rfl⟩
    rw [if_neg c1] at e ⊢
    by_cases c2 : p.length - 1 ≤ 2
    · rw [if_pos c2] at e ⊢
      obtain ⟨z2, e2, e⟩ := Res.bind_eq_ok.mp e
      simp only [Res.pure_eq, Res.ok.injEq, Prod.mk.injEq] at e
      obtain ⟨rfl, rfl⟩ := e
      obtain ⟨y1, g1, g2⟩ := finalZeros_moved m hd p h e2
      exact ⟨y1, by rw [g1]; rfl, g2, le_rfl⟩
    rw [if_neg c2] at e ⊢
    dsimp only at e ⊢
    have hl : (scaleCoeffs m p).length = p.length := scaleCoeffs_length m p
    obtain ⟨bnd, eb, e⟩ := Res.bind_eq_ok.mp e
    obtain ⟨k, ek, e⟩ := Res.bind_eq_ok.mp e
    obtain ⟨r, er, e⟩ := Res.bind_eq_ok.mp e
    rw [eb, Res.ok_bind, ek, Res.ok_bind, er, Res.ok_bind]
    cases hr1 : r.1 with
    | none =>
      rw [hr1] at e
      simp only [Res.pure_eq, Res.ok.injEq, Prod.mk.injEq] at e
      obtain ⟨rfl, rfl⟩ := e
      refine ⟨y, ?_, h, by omega⟩
      simp only [Res.pure_eq, Res.ok.injEq, Prod.mk.injEq, and_true]
      omega
    | some f =>
      rw [hr1] at e
      dsimp only at e ⊢
      obtain ⟨z2, e2, e⟩ := Res.bind_eq_ok.mp e
      obtain ⟨y2, g1, g2⟩ := storeFound_moved hd ((scaleCoeffs m p).length - 1) (by omega) f h e2
      rw [g1, Res.ok_bind]
      refine ih r2 _ _ _ z2 y2 z1 e1 ?_ (by omega) ?_ g2 e
      · rw [List.length_take]
        split_ifs <;> omega
      · rw [List.length_take]
        split_ifs <;> omega

theorem removeZeros_stop (m : RMath ℝ) (hm : ExactMath m) (op : List ℝ) (n i : ℕ) (z : Slots ℝ) (c : ℝ)
    (hc : op[n]? = some c) (h0 : c ≠ 0) : removeZeros m op n i z = .ok (op.take (n + 1), z) := by
  unfold removeZeros
  rw [Res.at'_eq_ok.mpr hc, Res.ok_bind, if_neg]
  · rfl
  · intro h
    exact h0 ((hm.isZero c).mp h)

theorem removeZeros_run (m : RMath ℝ) (hm : ExactMath m) (op : List ℝ) (d : ℕ) (c : ℝ) (hc : op[d]? = some c)
    (h0 : c ≠ 0) : ∀ (k i : ℕ) (z : Slots ℝ), (∀ t, d < t → t ≤ d + k → op[t]? = some 0) → z.length = 100 →
    i + k ≤ 100 → (∀ t < i, z[t]? = some (some (0, 0))) →
    ∃ y, removeZeros m op (d + k) i z = .ok (op.take (d + 1), y) ∧ y.length = 100 ∧
      (∀ t < i + k, y[t]? = some (some (0, 0))) ∧ ∀ t, i + k ≤ t → y[t]? = z[t]? := by
  intro k
  induction k with
  | zero =>
    intro i z _ hz _ hi
    exact ⟨z, removeZeros_stop m hm op d i z c hc h0, hz, hi, fun _ _ => rfl⟩
  | succ k ih =>
    intro i z hop hz hik hi
    have hd := hop (d + (k + 1)) (by omega) le_rfl
    rw [show d + (k + 1) = d + k + 1 by omega] at hd ⊢
    unfold removeZeros
    rw [Res.at'_eq_ok.mpr hd, Res.ok_bind, if_pos ((hm.isZero 0).mpr rfl)]
    dsimp only
    unfold Slots.put
    rw [if_pos (by omega), Res.ok_bind, Int.toNat_natCast]
    obtain ⟨y, g1, g2, g3, g4⟩ := ih (i + 1) (z.set i (some (num 0, num 0)))
      (fun t h1 h2 => hop t h1 (by omega)) (by simpa using hz) (by omega) (by
        intro t ht
        by_cases hti : i = t
        · subst hti
          rw [List.getElem?_set_self (by omega), num_eq]
          simp
        · rw [List.getElem?_set_ne hti]
          exact hi t (by omega))
    refine ⟨y, g1, g2, fun t ht => g3 t (by omega), fun t ht => ?_⟩
    rw [g4 t (by omega), List.getElem?_set_ne (by omega)]

/-- Reading the first `n` slots. -/
def readSlots (z : Slots ℝ) (n : ℕ) : Res (List (ℝ × ℝ)) :=
  (List.range n).mapM fun i => do
    let x ← Res.at' z i
    Res.get x

theorem readSlots_iff (z : Slots ℝ) (n : ℕ) (zs : List (ℝ × ℝ)) :
    readSlots z n = .ok zs ↔ zs.length = n ∧ ∀ i < n, z[i]? = (zs[i]?).map some := by
  have key : ∀ (i : ℕ) (w : ℝ × ℝ), (do let x ← Res.at' z i; Res.get x) = .ok w ↔ z[i]? = some (some w) := by
    intro i w
    rw [Res.bind_eq_ok]
    constructor
    · rintro ⟨x, h1, h2⟩
      rw [Res.at'_eq_ok] at h1
      rw [h1]
      cases x with
      | none => simp [Res.get] at h2
      | some x => simpa [Res.get] using h2
    · intro h
      exact ⟨some w, Res.at'_eq_ok.mpr h, rfl⟩
  unfold readSlots
  rw [Res.mapM_forall₂]
  constructor
  · intro h
    have hl := h.length_eq
    rw [List.length_range] at hl
    refine ⟨hl.symm, fun i hi => ?_⟩
    have h2 := h.get (i := i) (by simpa using hi) (by omega)
    simp only [List.get_eq_getElem, List.getElem_range] at h2
    rw [(key i _).mp h2, List.getElem?_eq_getElem (by omega)]
    rfl
  · rintro ⟨hl, h⟩
    rw [List.forall₂_iff_get]
    refine ⟨by simpa using hl.symm, fun i h1 h2 => ?_⟩
    simp only [List.get_eq_getElem, List.getElem_range]
    rw [List.length_range] at h1
    rw [key, h i h1, List.getElem?_eq_getElem h2]
    rfl

/-- With `j` zero coefficients in front, the root finder finds `j` zeros at the origin and, moved by `j`, what it finds
without them. -/
theorem rpoly_origin (m : RMath ℝ) (hm : ExactMath m) (fuel : ℕ) (op : List ℝ) (d j : ℕ) (hop : op.length = d + 1)
    (hd : d + j ≤ 100) (hlast : ∃ c, op[d]? = some c ∧ c ≠ 0) (hfirst : ∃ a, op[0]? = some a ∧ a ≠ 0) (e : ℤ) (z1 : Slots ℝ)
    (he : rpoly m fuel op d (List.replicate 100 none) = .ok (e, z1)) :
    ∃ y1, rpoly m fuel (op ++ List.replicate j 0) (d + j) (List.replicate 100 none) = .ok (e + j, y1) ∧
      0 ≤ e ∧ e ≤ d ∧ SlotsMoved j z1 y1 := by
  obtain ⟨c, hc, hc0⟩ := hlast
  obtain ⟨a, ha, ha0⟩ := hfirst
  have hna : ¬ m.isZero a = true := fun h => ha0 ((hm.isZero a).mp h)
  unfold rpoly at he ⊢
  rw [if_neg (by omega), Res.at'_eq_ok.mpr ha, Res.ok_bind, if_neg hna,
    removeZeros_stop m hm op d 0 _ c hc hc0, Res.ok_bind] at he
  obtain ⟨x, hx, he⟩ := Res.bind_eq_ok.mp he
  simp only [Res.pure_eq, Res.ok.injEq, Prod.mk.injEq] at he
  obtain ⟨rfl, rfl⟩ := he
  have ha' : (op ++ List.replicate j 0)[0]? = some a := by
    rw [List.getElem?_append_left (by omega)]; exact ha
  have hc' : (op ++ List.replicate j 0)[d]? = some c := by
    rw [List.getElem?_append_left (by omega)]; exact hc
  obtain ⟨y, g1, g2, g3, g4⟩ := removeZeros_run m hm (op ++ List.replicate j 0) d c hc' hc0 j 0
    (List.replicate 100 none) (by
      intro t h1 h2
      rw [List.getElem?_append_right (by omega), List.getElem?_replicate_of_lt (by omega)])
    (by simp) (by omega) (by simp)
  have hmv : SlotsMoved j (List.replicate 100 none) y := by
    refine ⟨by simp, g2, fun i hi => g3 i (by omega), fun i hi => ?_⟩
    rw [g4 _ (by omega), List.getElem?_replicate_of_lt hi, List.getElem?_replicate_of_lt (by omega)]
  have htake : (op ++ List.replicate j (0 : ℝ)).take (d + 1) = op := by
    rw [← hop]; simp
  have htake' : op.take (d + 1) = op := by rw [← hop]; simp
  rw [htake'] at hx
  obtain ⟨y1, k1, k2, k3⟩ := mainLoop_moved m fuel hd (d + 1) (d + j + 1) op _ _ _ y x.2 x.1 (by omega) (by omega)
    (by omega) hmv hx
  refine ⟨y1, ?_, by omega, by omega, k2⟩
  rw [if_neg (by omega), Res.at'_eq_ok.mpr ha', Res.ok_bind, if_neg hna, g1, Res.ok_bind, htake, k1]
  simp [Res.pure_eq]

end Verif
