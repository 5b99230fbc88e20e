import Verif.Props.Rpoly
import Verif.Proofs.RpolyOrigin

/-
Property C63: zeros at the origin. Multiplying a polynomial by the `j`-th power of `x` (`j` zero coefficients in
front, the coefficients are in increasing order) adds exactly `j` zeros at the origin to the ones reported.
-/
set_option linter.unusedSectionVars false

namespace Verif

open Spec Polynomial

theorem findRoots_eq (m : RMath ℝ) (hm : ExactMath m) (fuel : ℕ) (cs tail : List ℝ) (a : ℝ)
    (ha : m.dblMin ≤ |a|) (ht : ∀ t ∈ tail, |t| < m.dblMin) (h0 : 0 < cs.length) (hn : cs.length ≤ 100) :
    findRoots m fuel (cs ++ [a] ++ tail) =
      (rpoly m fuel (cs ++ [a]).reverse cs.length (List.replicate 100 none) >>= fun r =>
        if 0 < r.1 then readSlots r.2 r.1.toNat >>= fun zs => pure (true, some zs) else pure (false, none)) := by
  have hl := findLast_eq m hm cs tail a ha ht
  have htake : (cs ++ [a] ++ tail).take (cs.length + 1) = cs ++ [a] := by
    have : cs.length + 1 = (cs ++ [a]).length := by simp
    rw [this, List.take_left']
    rfl
  have hlen : (cs ++ [a]).reverse.length = cs.length + 1 := by simp
  obtain ⟨k, hk⟩ : ∃ k, cs.length = k + 1 := ⟨cs.length - 1, by omega⟩
  unfold findRoots
  rw [hl, hk]
  show (if 101 < ((cs ++ [a] ++ tail).take (k + 1 + 1)).reverse.length then _ else _) = _
  rw [← hk, htake, hlen, if_neg (by omega)]
  rfl

theorem origin_core (m : RMath ℝ) (hm : ExactMath m) (fuel j : ℕ) (cs tail : List ℝ) (a : ℝ)
    (ha : m.dblMin ≤ |a|) (ht : ∀ t ∈ tail, |t| < m.dblMin) (hfirst : (cs ++ [a])[0]? ≠ some 0)
    (hn : j + cs.length ≤ 100) (hj : 0 < j) (e : ℤ) (z1 : Slots ℝ)
    (he : rpoly m fuel (cs ++ [a]).reverse cs.length (List.replicate 100 none) = .ok (e, z1)) (zs : List (ℝ × ℝ))
    (hz : readSlots z1 e.toNat = .ok zs) :
    findRoots m fuel (List.replicate j 0 ++ cs ++ [a] ++ tail) =
      .ok (true, some (List.replicate j (0, 0) ++ zs)) := by
  have hA : a ≠ 0 := by
    rintro rfl
    rw [abs_zero] at ha
    exact absurd hm.dblMin (not_lt.mpr ha)
  have hop : (cs ++ [a]).reverse.length = cs.length + 1 := by simp
  have hlast : ∃ c, ((cs ++ [a]).reverse)[cs.length]? = some c ∧ c ≠ 0 := by
    have h1 : ((cs ++ [a]).reverse)[cs.length]? = (cs ++ [a])[0]? := by
      rw [List.getElem?_reverse (by simp)]
      simp
    have h2 : 0 < (cs ++ [a]).length := by simp
    rw [h1, List.getElem?_eq_getElem h2]
    rw [List.getElem?_eq_getElem h2] at hfirst
    exact ⟨_, rfl, fun h => hfirst (by rw [h])⟩
  have hf : ∃ c, ((cs ++ [a]).reverse)[0]? = some c ∧ c ≠ 0 := ⟨a, by simp, hA⟩
  obtain ⟨y1, k1, k2, k4, k3⟩ := rpoly_origin m hm fuel _ cs.length j hop (by omega) hlast hf e z1 he
  have hrev : (List.replicate j (0 : ℝ) ++ cs ++ [a]).reverse = (cs ++ [a]).reverse ++ List.replicate j 0 := by
    simp
  have hlen : (List.replicate j (0 : ℝ) ++ cs).length = cs.length + j := by simp; omega
  rw [findRoots_eq m hm fuel (List.replicate j 0 ++ cs) tail a ha ht (by omega) (by omega), hrev, hlen, k1,
    Res.ok_bind, if_pos (by omega)]
  have hr : readSlots y1 (e + j).toNat = .ok (List.replicate j (0, 0) ++ zs) := by
    rw [readSlots_iff] at hz ⊢
    obtain ⟨hz1, hz2⟩ := hz
    refine ⟨by simp; omega, fun i hi => ?_⟩
    by_cases hij : i < j
    · rw [k3.zeros i hij, List.getElem?_append_left (by simpa using hij), List.getElem?_replicate_of_lt hij]
      rfl
    · obtain ⟨t, rfl⟩ : ∃ t, i = t + j := ⟨i - j, by omega⟩
      have ht1 : t < e.toNat := by omega
      have hb : t + j < 100 := by omega
      rw [k3.rest t hb, hz2 t ht1, List.getElem?_append_right (by simp), List.length_replicate, Nat.add_sub_cancel]
  rw [hr]
  rfl

theorem rpoly_constant (m : RMath ℝ) (hm : ExactMath m) (fuel : ℕ) (a : ℝ) (hA : a ≠ 0) (z : Slots ℝ) :
    rpoly m fuel [a] 0 z = .ok (0, z) := by
  have hz : ¬ m.isZero a = true := fun h => hA ((hm.isZero a).mp h)
  unfold rpoly
  rw [if_neg (by omega), Res.at'_eq_ok.mpr (show [a][0]? = some a from rfl), Res.ok_bind, if_neg hz,
    removeZeros_stop m hm [a] 0 0 z a rfl hA, Res.ok_bind]
  unfold mainLoop
  rw [if_pos (by simp)]
  rfl

/-- **C63.** Zeros at the origin are exact. When the coefficient of order zero is not zero and `zs` are the zeros
reported, `j` coefficients put in front of the polynomial, all zero, add `j` zeros that are exactly zero and change
nothing else. -/
theorem C63_origin (m : RMath ℝ) (hm : ExactMath m) (fuel j : ℕ) (cs tail : List ℝ) (a : ℝ)
    (ha : m.dblMin ≤ |a|) (ht : ∀ t ∈ tail, |t| < m.dblMin) (hfirst : (cs ++ [a])[0]? ≠ some 0)
    (hn : j + cs.length ≤ 100) (zs : List (ℝ × ℝ))
    (h : findRoots m fuel (cs ++ [a] ++ tail) = .ok (true, some zs)) :
    findRoots m fuel (List.replicate j 0 ++ cs ++ [a] ++ tail) =
      .ok (true, some (List.replicate j (0, 0) ++ zs)) := by
  have hA : a ≠ 0 := by
    rintro rfl
    rw [abs_zero] at ha
    exact absurd hm.dblMin (not_lt.mpr ha)
  rcases Nat.eq_zero_or_pos j with rfl | hj
  · simpa using h
  rcases Nat.eq_zero_or_pos cs.length with h0 | h0
  · obtain rfl := List.length_eq_zero_iff.mp h0
    have hd := C63_degree_zero m hm fuel a tail ht
    rw [List.nil_append, List.singleton_append, hd] at h
    obtain rfl : [] = zs := by simpa using h
    exact origin_core m hm fuel j [] tail a ha ht hfirst hn hj 0 _
      (by simpa using rpoly_constant m hm fuel a hA _) [] rfl
  · rw [findRoots_eq m hm fuel cs tail a ha ht h0 (by omega), Res.bind_eq_ok] at h
    obtain ⟨⟨e, z1⟩, he, h⟩ := h
    dsimp only at h
    by_cases hpos : 0 < e
    · rw [if_pos hpos, Res.bind_eq_ok] at h
      obtain ⟨zs', hz, h⟩ := h
      obtain rfl : zs' = zs := by simpa [Res.pure_eq] using h
      exact origin_core m hm fuel j cs tail a ha ht hfirst hn hj e z1 he zs' hz
    · rw [if_neg hpos] at h
      simp [Res.pure_eq] at h

/-- **C63.** When no zero of a polynomial is found (`false` is returned), multiplying the polynomial by a power of
`x` turns the answer into `true`: the zeros at the origin are reported, and none of the others. -/
theorem C63_origin_only (m : RMath ℝ) (hm : ExactMath m) (fuel j : ℕ) (cs tail : List ℝ) (a : ℝ)
    (ha : m.dblMin ≤ |a|) (ht : ∀ t ∈ tail, |t| < m.dblMin) (hfirst : (cs ++ [a])[0]? ≠ some 0)
    (hn : j + cs.length ≤ 100) (hj : 0 < j) (rs : Option (List (ℝ × ℝ)))
    (h : findRoots m fuel (cs ++ [a] ++ tail) = .ok (false, rs)) :
    findRoots m fuel (List.replicate j 0 ++ cs ++ [a] ++ tail) = .ok (true, some (List.replicate j (0, 0))) := by
  rcases Nat.eq_zero_or_pos cs.length with h0 | h0
  · obtain rfl := List.length_eq_zero_iff.mp h0
    have hd := C63_degree_zero m hm fuel a tail ht
    rw [List.nil_append, List.singleton_append, hd] at h
    simp at h
  · rw [findRoots_eq m hm fuel cs tail a ha ht h0 (by omega), Res.bind_eq_ok] at h
    obtain ⟨⟨e, z1⟩, he, h⟩ := h
    dsimp only at h
    by_cases hpos : 0 < e
    · rw [if_pos hpos, Res.bind_eq_ok] at h
      obtain ⟨zs', hz, h⟩ := h
      simp [Res.pure_eq] at h
    · have h1 := origin_core m hm fuel j cs tail a ha ht hfirst hn hj e z1 he []
        (by rw [show e.toNat = 0 by omega]; rfl)
      simpa using h1

/-- **C63.** A power of `x` times a linear polynomial: all zeros, each of them exact. -/
theorem C63_origin_linear (m : RMath ℝ) (hm : ExactMath m) (fuel j : ℕ) (c0 c1 : ℝ) (tail : List ℝ)
    (ha : m.dblMin ≤ |c1|) (ht : ∀ t ∈ tail, |t| < m.dblMin) (h0 : c0 ≠ 0) (hj : j ≤ 99) :
    findRoots m fuel (List.replicate j 0 ++ [c0, c1] ++ tail) =
      .ok (true, some (List.replicate j (0, 0) ++ [(-(c0 / c1), 0)])) := by
  have h := C63_origin m hm fuel j [c0] tail c1 ha ht (by simpa using h0) (by simp; omega) _
    (C63_degree_one m hm fuel c0 c1 tail ha ht)
  rw [← h]
  simp

/-- **C63.** A power of `x` times a quadratic polynomial: all zeros, each of them exact. -/
theorem C63_origin_quadratic (m : RMath ℝ) (hm : ExactMath m) (fuel j : ℕ) (c0 c1 c2 : ℝ) (tail : List ℝ)
    (ha : m.dblMin ≤ |c2|) (ht : ∀ t ∈ tail, |t| < m.dblMin) (h0 : c0 ≠ 0) (hj : j ≤ 98) :
    ∃ z w : ℝ × ℝ, findRoots m fuel (List.replicate j 0 ++ [c0, c1, c2] ++ tail) =
        .ok (true, some (List.replicate j (0, 0) ++ [z, w])) ∧
      ∀ x : ℂ, x ^ j * (c2 * x ^ 2 + c1 * x + c0) = x ^ j * (c2 * (x - ⟨z.1, z.2⟩) * (x - ⟨w.1, w.2⟩)) := by
  obtain ⟨z, w, e, hf⟩ := C63_degree_two m hm fuel c0 c1 c2 tail ha ht
  refine ⟨z, w, ?_, fun x => by rw [hf x]⟩
  have h := C63_origin m hm fuel j [c0, c1] tail c2 ha ht (by simpa using h0) (by simp; omega) _ e
  rw [← h]
  simp

-- The hypotheses are met; on rational numbers the same function computes the zeros.
example : ∃ m : RMath ℝ, ExactMath m ∧ ∀ fuel, findRoots m fuel ([6, 2] : List ℝ) = .ok (true, some [(-3, 0)]) ∧
    findRoots m fuel ([0, 0, 6, 2] : List ℝ) = .ok (true, some [(0, 0), (0, 0), (-3, 0)]) := by
  have ha : realMath.dblMin ≤ |(2 : ℝ)| := by
    have : realMath.dblMin = 1 / 2 ^ 1022 := rfl
    rw [this, abs_of_pos (by norm_num)]
    have h1 : (1 : ℝ) ≤ 2 ^ 1022 := one_le_pow₀ (by norm_num)
    generalize (2 : ℝ) ^ 1022 = y at h1
    rw [div_le_iff₀ (by linarith)]
    linarith
  refine ⟨realMath, realMath_exact, fun fuel => ⟨?_, ?_⟩⟩
  · have h := C63_degree_one realMath realMath_exact fuel 6 2 [] ha (by simp)
    rw [List.append_nil] at h
    rw [h]
    norm_num
  · have h := C63_origin_linear realMath realMath_exact fuel 2 6 2 [] ha (by simp) (by norm_num) (by norm_num)
    rw [List.append_nil] at h
    rw [show ([0, 0, 6, 2] : List ℝ) = List.replicate 2 0 ++ [6, 2] from rfl, h]
    norm_num
    rfl

end Verif
