import Verif.Proofs.DoubleEval
import Verif.Proofs.Double
import Verif.Spec.Double
import Verif.Proofs.PolynomialArith

/-!
Proofs for C144: sums of products and powers of doubles.
-/
namespace Verif

open Spec

/-- One more product in a sum. -/
theorem accumulate_fin {a b c : Dbl} {v : ℝ} (h : a + b * c = .fin v) :
    ∃ x y z t, a = .fin x ∧ b = .fin y ∧ c = .fin z ∧ Dbl.ofReal (y * z) = .fin t ∧ Dbl.ofReal (x + t) = .fin v := by
  obtain ⟨x, t, rfl, h1, h2⟩ := add_eq_fin h
  obtain ⟨y, z, rfl, rfl, h3⟩ := mul_eq_fin h1
  exact ⟨x, y, z, t, rfl, rfl, rfl, h3, h2⟩

/-- The sum starts with a finite number, and all factors are finite, if the sum is. -/
theorem dot_finite {ι : Type} (f g : ι → Dbl) : ∀ (l : List ι) (a : Dbl) (v : ℝ),
    l.foldl (fun acc s => acc + f s * g s) a = .fin v →
    (∃ x, a = .fin x) ∧ ∀ s ∈ l, IsFinite (f s) ∧ IsFinite (g s)
  | [], a, v, h => ⟨⟨v, h⟩, by simp⟩
  | s :: l, a, v, h => by
    rw [List.foldl_cons] at h
    obtain ⟨⟨x, hx⟩, h2⟩ := dot_finite f g l _ v h
    obtain ⟨x', y, z, t, ha, hb, hc, -, -⟩ := accumulate_fin hx
    refine ⟨⟨x', ha⟩, fun r hr => ?_⟩
    rcases List.mem_cons.mp hr with rfl | hr
    · exact ⟨⟨y, hb⟩, ⟨z, hc⟩⟩
    · exact h2 r hr

theorem accumulate_error {a x y t v : ℝ} (h1 : Dbl.ofReal (x * y) = .fin t) (h2 : Dbl.ofReal (a + t) = .fin v) :
    |v - (a + x * y)| ≤ u64 * |a| + ((1 + u64) ^ 2 - 1) * |x * y| + (2 + u64) * tiny64 := by
  obtain ⟨d1, e1, rfl, k1, k2⟩ := ofReal_factor h1
  obtain ⟨d2, e2, rfl, k3, k4⟩ := ofReal_factor h2
  have hu := u64_pos
  have ht := tiny64_pos
  have E : (a + (x * y * (1 + d1) + e1)) * (1 + d2) + e2 - (a + x * y) =
      d2 * a + (d1 + d2 + d1 * d2) * (x * y) + ((1 + d2) * e1 + e2) := by ring
  rw [E]
  have b1 : |d2 * a| ≤ u64 * |a| := by
    rw [abs_mul]
    exact mul_le_mul_of_nonneg_right k3 (abs_nonneg _)
  have b2 : |(d1 + d2 + d1 * d2) * (x * y)| ≤ ((1 + u64) ^ 2 - 1) * |x * y| := by
    rw [abs_mul]
    refine mul_le_mul_of_nonneg_right ?_ (abs_nonneg _)
    have : |d1 * d2| ≤ u64 * u64 := by
      rw [abs_mul]
      exact mul_le_mul k1 k3 (abs_nonneg _) hu.le
    calc |d1 + d2 + d1 * d2| ≤ |d1 + d2| + |d1 * d2| := abs_add_le _ _
      _ ≤ |d1| + |d2| + |d1 * d2| := by linarith [abs_add_le d1 d2]
      _ ≤ _ := by linarith [show ((1 + u64) ^ 2 - 1 : ℝ) = u64 + u64 + u64 * u64 by ring]
  have b3 : |(1 + d2) * e1 + e2| ≤ (2 + u64) * tiny64 := by
    have c1 : |1 + d2| ≤ 1 + u64 := (abs_add_le _ _).trans (by rw [abs_one]; linarith)
    have c2 : |(1 + d2) * e1| ≤ (1 + u64) * tiny64 := by
      rw [abs_mul]
      exact mul_le_mul c1 k2 (abs_nonneg _) (by linarith)
    linarith [abs_add_le ((1 + d2) * e1) e2]
  linarith [abs_add_le (d2 * a + (d1 + d2 + d1 * d2) * (x * y)) ((1 + d2) * e1 + e2),
    abs_add_le (d2 * a) ((d1 + d2 + d1 * d2) * (x * y))]

/-- The error of a sum of products. -/
theorem dot_error {ι : Type} (f g : ι → ℝ) : ∀ (l : List ι) (a v : ℝ),
    l.foldl (fun acc s => acc + .fin (f s) * .fin (g s)) (Dbl.fin a) = .fin v →
    |v - (a + (l.map fun s => f s * g s).sum)| ≤ ((1 + u64) ^ l.length - 1) * |a| +
      ((1 + u64) ^ (l.length + 1) - 1) * (l.map fun s => |f s * g s|).sum +
      2 * l.length * (1 + u64) ^ (l.length + 1) * tiny64
  | [], a, v, h => by
    rw [List.foldl_nil, Dbl.fin.injEq] at h
    subst h
    simp
  | s :: l, a, v, h => by
    rw [List.foldl_cons] at h
    obtain ⟨⟨w, hw⟩, -⟩ := dot_finite _ _ l _ v h
    rw [hw] at h
    have ih := dot_error f g l w v h
    obtain ⟨x', y', z', t, ha, hb, hc, h1, h2⟩ := accumulate_fin hw
    cases ha; cases hb; cases hc
    have hs := accumulate_error h1 h2
    have hu := u64_pos
    have ht := tiny64_pos
    simp only [List.map_cons, List.sum_cons, List.length_cons]
    set S := (l.map fun s => f s * g s).sum
    set A := (l.map fun s => |f s * g s|).sum with hA
    have hA0 : 0 ≤ A := List.sum_nonneg fun x hx => by
      obtain ⟨s, -, rfl⟩ := List.mem_map.mp hx
      exact abs_nonneg _
    set G := (1 + u64) ^ l.length with hG
    have hG1 : 1 ≤ G := one_le_pow₀ (by linarith)
    rw [pow_succ, ← hG] at ih
    rw [show l.length + 1 + 1 = l.length + 2 by ring, pow_succ, pow_add, ← hG]
    set P := f s * g s
    have hwa : |w| ≤ (1 + u64) * |a| + (1 + u64) ^ 2 * |P| + (2 + u64) * tiny64 := by
      have e : w = (w - (a + P)) + (a + P) := by ring
      rw [e]
      linarith [abs_add_le (w - (a + P)) (a + P), abs_add_le a P]
    have tri : |v - (a + (P + S))| ≤ |v - (w + S)| + |w - (a + P)| := by
      have e : v - (a + (P + S)) = (v - (w + S)) + (w - (a + P)) := by ring
      rw [e]
      exact abs_add_le _ _
    have hm : (G - 1) * |w| ≤ (G - 1) * ((1 + u64) * |a| + (1 + u64) ^ 2 * |P| + (2 + u64) * tiny64) :=
      mul_le_mul_of_nonneg_left hwa (by linarith)
    have hAu : (G * (1 + u64) - 1) * A ≤ (G * (1 + u64) ^ 2 - 1) * A := by
      refine mul_le_mul_of_nonneg_right ?_ hA0
      have : 0 ≤ G * u64 * (1 + u64) := by positivity
      nlinarith
    have hn : (0 : ℝ) ≤ l.length := Nat.cast_nonneg _
    have htt : 2 * (l.length : ℝ) * (G * (1 + u64)) * tiny64 + G * ((2 + u64) * tiny64) ≤
        2 * ((l.length : ℝ) + 1) * (G * (1 + u64) ^ 2) * tiny64 := by
      have e : 2 * ((l.length : ℝ) + 1) * (G * (1 + u64) ^ 2) * tiny64 -
          (2 * (l.length : ℝ) * (G * (1 + u64)) * tiny64 + G * ((2 + u64) * tiny64)) =
          G * tiny64 * (2 * l.length * ((1 + u64) * u64) + (3 * u64 + 2 * u64 ^ 2)) := by ring
      have : 0 ≤ G * tiny64 * (2 * l.length * ((1 + u64) * u64) + (3 * u64 + 2 * u64 ^ 2)) := by positivity
      linarith
    push_cast
    calc |v - (a + (P + S))| ≤ _ := tri
      _ ≤ ((G - 1) * |w| + (G * (1 + u64) - 1) * A + 2 * l.length * (G * (1 + u64)) * tiny64) +
          (u64 * |a| + ((1 + u64) ^ 2 - 1) * |P| + (2 + u64) * tiny64) := add_le_add ih hs
      _ ≤ ((G - 1) * ((1 + u64) * |a| + (1 + u64) ^ 2 * |P| + (2 + u64) * tiny64) +
          (G * (1 + u64) ^ 2 - 1) * A + 2 * l.length * (G * (1 + u64)) * tiny64) +
          (u64 * |a| + ((1 + u64) ^ 2 - 1) * |P| + (2 + u64) * tiny64) := by linarith
      _ = (G * (1 + u64) - 1) * |a| + (G * (1 + u64) ^ 2 - 1) * (|P| + A) +
          (2 * l.length * (G * (1 + u64)) * tiny64 + G * ((2 + u64) * tiny64)) := by ring
      _ ≤ _ := by linarith

/-- No overflow in a sum of products. -/
theorem dot_range {ι : Type} (f g : ι → ℝ) : ∀ (l : List ι) (a : ℝ),
    (1 + u64) ^ (2 * l.length) * (|a| + (l.map fun s => |f s * g s|).sum + 2 * l.length * tiny64) ≤
      (2 : ℝ) ^ (1023 : ℤ) →
    ∃ v, l.foldl (fun acc s => acc + .fin (f s) * .fin (g s)) (Dbl.fin a) = .fin v
  | [], a, _ => ⟨a, rfl⟩
  | s :: l, a, h => by
    have hu := u64_pos
    have ht := tiny64_pos
    simp only [List.map_cons, List.sum_cons, List.length_cons] at h
    set A := (l.map fun s => |f s * g s|).sum with hA
    have hA0 : 0 ≤ A := List.sum_nonneg fun x hx => by
      obtain ⟨s, -, rfl⟩ := List.mem_map.mp hx
      exact abs_nonneg _
    set P := f s * g s
    have hn : (0 : ℝ) ≤ l.length := Nat.cast_nonneg _
    rw [show 2 * (l.length + 1) = 2 * l.length + 2 by ring, pow_add] at h
    set G := (1 + u64) ^ (2 * l.length) with hG
    have hG1 : 1 ≤ G := one_le_pow₀ (by linarith)
    push_cast at h
    have big : (1 + u64) ^ 2 * (|a| + |P| + 2 * tiny64) ≤ (2 : ℝ) ^ (1023 : ℤ) := by
      refine le_trans ?_ h
      have h1 : |a| + |P| + 2 * tiny64 ≤ |a| + (|P| + A) + 2 * (l.length + 1) * tiny64 := by nlinarith
      calc (1 + u64) ^ 2 * (|a| + |P| + 2 * tiny64) ≤
            (1 + u64) ^ 2 * (|a| + (|P| + A) + 2 * (l.length + 1) * tiny64) :=
            mul_le_mul_of_nonneg_left h1 (by positivity)
        _ ≤ G * (1 + u64) ^ 2 * (|a| + (|P| + A) + 2 * (l.length + 1) * tiny64) := by
          refine mul_le_mul_of_nonneg_right ?_ (by positivity)
          have : 0 ≤ (1 + u64) ^ 2 := by positivity
          nlinarith
    have pa : 0 ≤ u64 * |a| := by positivity
    have pP : 0 ≤ u64 * |P| := by positivity
    have pt : 0 ≤ u64 * tiny64 := by positivity
    have pa2 : 0 ≤ u64 ^ 2 * |a| := by positivity
    have pP2 : 0 ≤ u64 ^ 2 * |P| := by positivity
    have pt2 : 0 ≤ u64 ^ 2 * tiny64 := by positivity
    have na := abs_nonneg a
    have nP := abs_nonneg P
    have ex : (1 + u64) ^ 2 * (|a| + |P| + 2 * tiny64) = |a| + |P| + 2 * tiny64 + 2 * (u64 * |a|) + 2 * (u64 * |P|) +
        4 * (u64 * tiny64) + u64 ^ 2 * |a| + u64 ^ 2 * |P| + 2 * (u64 ^ 2 * tiny64) := by ring
    have s0 : |P| ≤ (2 : ℝ) ^ (1023 : ℤ) := by
      refine le_trans ?_ big
      rw [ex]
      linarith
    have h1 := ofReal_half s0
    obtain ⟨d1, e1, q1, k1, k2⟩ := ofReal_factor h1
    set t := round64 P
    have htb : |t| ≤ (1 + u64) * |P| + tiny64 := by
      rw [q1]
      have c1 : |1 + d1| ≤ 1 + u64 := (abs_add_le _ _).trans (by rw [abs_one]; linarith)
      have : |P * (1 + d1)| ≤ |P| * (1 + u64) := by
        rw [abs_mul]
        exact mul_le_mul_of_nonneg_left c1 (abs_nonneg _)
      linarith [abs_add_le (P * (1 + d1)) e1]
    have s1 : |a + t| ≤ (2 : ℝ) ^ (1023 : ℤ) := by
      refine le_trans ?_ big
      rw [ex]
      have := abs_add_le a t
      linarith
    have h2 := ofReal_half s1
    obtain ⟨d2, e2, q2, k3, k4⟩ := ofReal_factor h2
    set w := round64 (a + t)
    have hw : |w| ≤ (1 + u64) ^ 2 * (|a| + |P| + 2 * tiny64) := by
      rw [q2]
      have c1 : |1 + d2| ≤ 1 + u64 := (abs_add_le _ _).trans (by rw [abs_one]; linarith)
      have : |(a + t) * (1 + d2)| ≤ (|a| + |t|) * (1 + u64) := by
        rw [abs_mul]
        exact mul_le_mul (abs_add_le _ _) c1 (abs_nonneg _) (by positivity)
      have h5 := abs_add_le ((a + t) * (1 + d2)) e2
      have h6 : (|a| + |t|) * (1 + u64) ≤ (|a| + ((1 + u64) * |P| + tiny64)) * (1 + u64) :=
        mul_le_mul_of_nonneg_right (by linarith) (by linarith)
      rw [ex]
      linarith
    obtain ⟨v, hv⟩ := dot_range f g l w (by
      refine le_trans ?_ h
      rw [mul_assoc G]
      refine mul_le_mul_of_nonneg_left ?_ (by linarith)
      have e : (1 + u64) ^ 2 * (|a| + (|P| + A) + 2 * (l.length + 1) * tiny64) =
        (1 + u64) ^ 2 * (|a| + |P| + 2 * tiny64) + (1 + u64) ^ 2 * (A + 2 * l.length * tiny64) := by ring
      have : A + 2 * l.length * tiny64 ≤ (1 + u64) ^ 2 * (A + 2 * l.length * tiny64) :=
        le_mul_of_one_le_left (by positivity) (one_le_pow₀ (by linarith))
      linarith)
    refine ⟨v, ?_⟩
    rw [List.foldl_cons, fin_mul]
    show List.foldl _ (Dbl.fin a + Dbl.ofReal P) l = _
    rw [h1, fin_add, h2]
    exact hv

/-- `n` relative errors, for `n` not too large. -/
theorem factor_bound (n : ℕ) (hn : n ≤ 2 ^ 52) : (1 + u64) ^ n ≤ 1 + 2 * n * u64 := by
  induction n with
  | zero => simp
  | succ n ih =>
    have ih := ih (by omega)
    have hu := u64_pos
    have h1 : (n : ℝ) * u64 ≤ 1 / 2 := by
      have : (n : ℝ) ≤ 2 ^ 52 := by exact_mod_cast (by omega : n ≤ 2 ^ 52)
      calc (n : ℝ) * u64 ≤ 2 ^ 52 * u64 := mul_le_mul_of_nonneg_right this hu.le
        _ = 1 / 2 := by unfold u64; norm_num
    rw [pow_succ]
    push_cast
    calc (1 + u64) ^ n * (1 + u64) ≤ (1 + 2 * n * u64) * (1 + u64) := mul_le_mul_of_nonneg_right ih (by linarith)
      _ ≤ _ := by nlinarith

/-- The powers in `scalePolynomialInTime`. -/
theorem scale_finite (b : Dbl) : ∀ (l : List Dbl) (s : Dbl) (i : ℕ) (v : ℝ), (scaleLoop b s l)[i]? = some (.fin v) →
    (∃ x, l[i]? = some (.fin x)) ∧ IsFinite s ∧ (0 < i → IsFinite b)
  | [], _, _, _, h => by simp [scaleLoop] at h
  | c :: l, s, 0, v, h => by
    rw [scaleLoop, List.getElem?_cons_zero, Option.some.injEq] at h
    obtain ⟨x, y, rfl, rfl, -⟩ := mul_eq_fin h
    exact ⟨⟨x, rfl⟩, ⟨y, rfl⟩, fun h => absurd h (by omega)⟩
  | c :: l, s, i + 1, v, h => by
    rw [scaleLoop, List.getElem?_cons_succ] at h
    obtain ⟨⟨x, hx⟩, ⟨y, hy⟩, -⟩ := scale_finite b l _ i v h
    obtain ⟨s', b', hs, hb, -⟩ := mul_eq_fin hy
    exact ⟨⟨x, by simpa using hx⟩, ⟨s', hs⟩, fun _ => ⟨b', hb⟩⟩

theorem scale_error (b : ℝ) : ∀ (l : List Dbl) (k : ℕ) (s : ℝ) (i : ℕ) (v x : ℝ),
    |s - b ^ k| ≤ ((1 + u64) ^ k - 1) * |b| ^ k + (1 + u64) ^ k * tiny64 * ∑ j ∈ Finset.range k, |b| ^ j →
    (scaleLoop (.fin b) (.fin s) l)[i]? = some (.fin v) → l[i]? = some (.fin x) →
    |v - x * b ^ (k + i)| ≤ ((1 + u64) ^ (k + i + 1) - 1) * |x * b ^ (k + i)| +
      tiny64 * (1 + (1 + u64) ^ (k + i + 1) * |x| * ∑ j ∈ Finset.range (k + i), |b| ^ j)
  | [], _, _, _, _, _, _, h, _ => by simp [scaleLoop] at h
  | c :: l, k, s, 0, v, x, hs, h, hx => by
    rw [scaleLoop, List.getElem?_cons_zero, Option.some.injEq] at h
    rw [List.getElem?_cons_zero, Option.some.injEq] at hx
    subst hx
    rw [fin_mul] at h
    obtain ⟨d, e, rfl, k1, k2⟩ := ofReal_factor h
    have hu := u64_pos
    have ht := tiny64_pos
    rw [Nat.add_zero, pow_succ]
    set G := (1 + u64) ^ k with hG
    set S := ∑ j ∈ Finset.range k, |b| ^ j
    set B := b ^ k with hB
    rw [← abs_pow, ← hB] at hs
    have E : x * s * (1 + d) + e - x * B = x * (s - B) * (1 + d) + x * B * d + e := by ring
    rw [E]
    have c1 : |1 + d| ≤ 1 + u64 := (abs_add_le _ _).trans (by rw [abs_one]; linarith)
    have b1 : |x * (s - B) * (1 + d)| ≤ |x| * ((G - 1) * |B| + G * tiny64 * S) * (1 + u64) := by
      rw [abs_mul, abs_mul]
      exact mul_le_mul (mul_le_mul_of_nonneg_left hs (abs_nonneg _)) c1 (abs_nonneg _)
        (mul_nonneg (abs_nonneg _) ((abs_nonneg _).trans hs))
    have b2 : |x * B * d| ≤ |x * B| * u64 := by
      rw [abs_mul (x * B)]
      exact mul_le_mul_of_nonneg_left k1 (abs_nonneg _)
    rw [abs_mul x B] at b2 ⊢
    have := abs_add_le (x * (s - B) * (1 + d) + x * B * d) e
    have := abs_add_le (x * (s - B) * (1 + d)) (x * B * d)
    calc _ ≤ |x| * ((G - 1) * |B| + G * tiny64 * S) * (1 + u64) + |x| * |B| * u64 + tiny64 := by linarith
      _ = _ := by ring
  | c :: l, k, s, i + 1, v, x, hs, h, hx => by
    rw [scaleLoop, List.getElem?_cons_succ] at h
    rw [List.getElem?_cons_succ] at hx
    obtain ⟨-, ⟨s', hs'⟩, -⟩ := scale_finite _ l _ i v h
    rw [hs'] at h
    rw [fin_mul] at hs'
    rw [show k + (i + 1) = k + 1 + i by ring]
    refine scale_error b l (k + 1) s' i v x ?_ h hx
    obtain ⟨d, e, rfl, k1, k2⟩ := ofReal_factor hs'
    have hu := u64_pos
    have ht := tiny64_pos
    have hS : ∑ j ∈ Finset.range (k + 1), |b| ^ j = |b| * (∑ j ∈ Finset.range k, |b| ^ j) + 1 := by
      rw [Finset.sum_range_succ', Finset.mul_sum, pow_zero]
      congr 1
      exact Finset.sum_congr rfl fun j _ => by ring
    have hS0 : 0 ≤ ∑ j ∈ Finset.range k, |b| ^ j := Finset.sum_nonneg fun j _ => by positivity
    rw [hS, pow_succ (1 + u64), pow_succ |b|, pow_succ b]
    set G := (1 + u64) ^ k with hG
    have hG1 : 1 ≤ G := one_le_pow₀ (by linarith)
    set S := ∑ j ∈ Finset.range k, |b| ^ j
    set B := b ^ k with hB
    rw [← abs_pow, ← hB] at hs ⊢
    have E : s * b * (1 + d) + e - B * b = (s - B) * b * (1 + d) + B * b * d + e := by ring
    rw [E]
    have c1 : |1 + d| ≤ 1 + u64 := (abs_add_le _ _).trans (by rw [abs_one]; linarith)
    have b1 : |(s - B) * b * (1 + d)| ≤ ((G - 1) * |B| + G * tiny64 * S) * |b| * (1 + u64) := by
      rw [abs_mul, abs_mul]
      exact mul_le_mul (mul_le_mul_of_nonneg_right hs (abs_nonneg _)) c1 (abs_nonneg _)
        (mul_nonneg ((abs_nonneg _).trans hs) (abs_nonneg _))
    have b2 : |B * b * d| ≤ |B| * |b| * u64 := by
      rw [abs_mul (B * b), abs_mul B b]
      exact mul_le_mul_of_nonneg_left k1 (by positivity)
    have := abs_add_le ((s - B) * b * (1 + d) + B * b * d) e
    have := abs_add_le ((s - B) * b * (1 + d)) (B * b * d)
    have hx1 : tiny64 ≤ G * (1 + u64) * tiny64 := le_mul_of_one_le_left ht.le (by nlinarith)
    calc _ ≤ ((G - 1) * |B| + G * tiny64 * S) * |b| * (1 + u64) + |B| * |b| * u64 + tiny64 := by linarith
      _ ≤ ((G - 1) * |B| + G * tiny64 * S) * |b| * (1 + u64) + |B| * |b| * u64 + G * (1 + u64) * tiny64 := by linarith
      _ = _ := by ring

/-- The powers stay in range. -/
theorem scale_range (b B : ℝ) (hb : |b| ≤ B) (hB : 1 ≤ B) : ∀ (l : List Dbl) (k : ℕ) (s : ℝ) (i : ℕ) (x : ℝ),
    |s| ≤ (1 + u64) ^ (2 * k) * B ^ k → k + i ≤ 2 ^ 50 → (∀ j ≤ i, 2 * B ^ (k + j) ≤ (2 : ℝ) ^ (1023 : ℤ)) →
    l[i]? = some (.fin x) → |x| * (2 * B ^ (k + i)) ≤ (2 : ℝ) ^ (1023 : ℤ) →
    ∃ v, (scaleLoop (.fin b) (.fin s) l)[i]? = some (.fin v) := by
  have hu := u64_pos
  have ht := tiny64_pos
  have two : ∀ k : ℕ, k ≤ 2 ^ 50 → (1 + u64) ^ (2 * k) ≤ 2 := by
    intro k hk
    refine (factor_bound (2 * k) (by omega)).trans ?_
    have hcast : (k : ℝ) ≤ 2 ^ 50 := by exact_mod_cast hk
    have : (k : ℝ) * u64 ≤ 2 ^ 50 * u64 := mul_le_mul_of_nonneg_right hcast hu.le
    have e : (2 : ℝ) ^ 50 * u64 = 1 / 8 := by unfold u64; norm_num
    push_cast
    linarith
  have htu : tiny64 ≤ u64 := by
    unfold tiny64 u64
    rw [show (1 : ℝ) / 2 ^ 53 = (2 : ℝ) ^ (-53 : ℤ) by norm_num]
    exact zpow_le_zpow_right₀ (by norm_num) (by norm_num)
  intro l
  induction l with
  | nil => intro k s i x _ _ _ h _; simp at h
  | cons c l ih =>
    intro k s i x hs hk hj hx hr
    have hBk : 0 ≤ B ^ k := by positivity
    cases i with
    | zero =>
      rw [List.getElem?_cons_zero, Option.some.injEq] at hx
      subst hx
      rw [scaleLoop, List.getElem?_cons_zero, fin_mul]
      refine ⟨_, congrArg some (ofReal_half ?_)⟩
      rw [abs_mul]
      refine le_trans (mul_le_mul_of_nonneg_left (hs.trans ?_) (abs_nonneg _)) hr
      exact mul_le_mul_of_nonneg_right (two k (by omega)) hBk
    | succ i =>
      rw [List.getElem?_cons_succ] at hx
      rw [scaleLoop, List.getElem?_cons_succ, fin_mul]
      have hp1 : (1 : ℝ) ≤ (1 + u64) ^ (2 * k) := one_le_pow₀ (by linarith)
      have h0 : |s * b| ≤ (1 + u64) ^ (2 * k) * B ^ (k + 1) := by
        rw [abs_mul, pow_succ, ← mul_assoc]
        exact mul_le_mul hs hb (abs_nonneg _) (by positivity)
      have h1 : |s * b| ≤ (2 : ℝ) ^ (1023 : ℤ) := by
        refine h0.trans (le_trans (mul_le_mul_of_nonneg_right (two k (by omega)) (by positivity)) ?_)
        exact hj 1 (by omega)
      rw [ofReal_half h1]
      refine ih (k + 1) _ i x ?_ (by omega) (fun j hji => ?_) hx ?_
      · obtain ⟨d, e, h2, h3, h4⟩ := round64_factor (s * b)
        rw [h2]
        have hBk1 : (1 : ℝ) ≤ B ^ (k + 1) := one_le_pow₀ hB
        set P := (1 + u64) ^ (2 * k) * B ^ (k + 1) with hP
        have hP1 : 1 ≤ P := by
          calc (1 : ℝ) = 1 * 1 := (one_mul 1).symm
            _ ≤ P := mul_le_mul hp1 hBk1 (by norm_num) (by linarith)
        have h5 : |1 + d| ≤ 1 + u64 := by
          refine (abs_add_le _ _).trans ?_
          rw [abs_one]
          linarith
        have h6 : |s * b * (1 + d)| ≤ P * (1 + u64) := by
          rw [abs_mul]
          exact mul_le_mul h0 h5 (abs_nonneg _) (by linarith)
        have h7 : (1 + u64) ^ (2 * (k + 1)) * B ^ (k + 1) = P * (1 + u64) + P * (1 + u64) * u64 := by
          rw [hP]; ring
        have h8 : u64 ≤ P * (1 + u64) * u64 := by
          have : 1 ≤ P * (1 + u64) := by nlinarith
          nlinarith
        rw [h7]
        exact (abs_add_le _ _).trans (by linarith)
      · have := hj (j + 1) (by omega)
        rwa [show k + 1 + j = k + (j + 1) by omega]
      · rwa [show k + 1 + i = k + (i + 1) by omega]

/-- The entries of the table have few significant bits. -/
theorem descFactorial_bits : ∀ j < 22, ∀ d < 23, ∃ e < 20,
    j.descFactorial d % 2 ^ e = 0 ∧ j.descFactorial d / 2 ^ e < 2 ^ 53 := by
  decide +kernel

theorem descFactorial_isDouble {j d : ℕ} (hj : j < 22) (hd : d < 23) : IsDouble (j.descFactorial d : ℝ) := by
  obtain ⟨e, he, h1, h2⟩ := descFactorial_bits j hj d hd
  have h3 : j.descFactorial d = j.descFactorial d / 2 ^ e * 2 ^ e := (Nat.div_mul_cancel (Nat.dvd_of_mod_eq_zero h1)).symm
  refine ⟨((j.descFactorial d / 2 ^ e : ℕ) : ℤ), e, ?_, by omega, by omega, ?_⟩
  · rw [abs_of_nonneg (by positivity)]
    exact_mod_cast h2
  · rw [Int.cast_natCast, zpow_natCast]
    exact_mod_cast h3

/-- The table of coefficients is exact. -/
theorem baseCoeff_exact_double (j : ℕ) (hj : j < 22) : ∀ d < 23,
    (baseCoeff d j : Dbl) = .fin (j.descFactorial d : ℝ)
  | 0, _ => by
    unfold baseCoeff
    rw [show kMaxConvolutionSize = 22 from rfl]
    simp only [baseRow, List.getD_eq_getElem?_getD, List.getElem?_replicate, if_pos hj, Option.getD_some,
      Nat.descFactorial_zero, Nat.cast_one]
    rfl
  | d + 1, hd => by
    have ih := baseCoeff_exact_double j hj d (by omega)
    unfold baseCoeff at ih ⊢
    rw [show kMaxConvolutionSize = 22 from rfl] at ih ⊢
    rw [baseRow_succ_getD _ _ _ hj, ih, Nat.descFactorial_succ]
    split_ifs with h
    · have e1 : (((j - d : ℕ)) : Dbl) = .fin ((j - d : ℕ) : ℝ) := by
        have h1 := descFactorial_isDouble (j := j - d) (d := 1) (by omega) (by omega)
        rw [Nat.descFactorial_one] at h1
        change Dbl.ofReal _ = _
        unfold Dbl.ofReal
        rw [h1.round64, if_pos h1.lt]
      rw [e1, fin_mul, ← Nat.cast_mul]
      have h2 := descFactorial_isDouble hj hd
      rw [Nat.descFactorial_succ] at h2
      unfold Dbl.ofReal
      rw [h2.round64, if_pos h2.lt]
    · rw [show j - d = 0 by omega, zero_mul, Nat.cast_zero]
      rfl

theorem hornerDown_split {K : Type} [Add K] [Mul K] (f : ℕ → K) (t : K) (d n : ℕ) : ∀ (m : ℕ) (acc : K),
    hornerDown f t d (n + m) acc = hornerDown f t d n (hornerDown f t (d + n) m acc)
  | 0, _ => rfl
  | m + 1, acc => by
    rw [← Nat.add_assoc, hornerDown, hornerDown_split f t d n m, hornerDown, Nat.add_assoc]

theorem ofReal_zero : Dbl.ofReal 0 = .fin 0 := by
  unfold Dbl.ofReal
  rw [round64_zero, abs_zero, if_pos (zpow2_pos _)]

theorem hornerDown_zeros (f : ℕ → Dbl) (t : ℝ) (d : ℕ) : ∀ m : ℕ, (∀ i < m, f (d + i) = .fin 0) →
    hornerDown f (.fin t) d m (.fin 0) = .fin 0
  | 0, _ => rfl
  | m + 1, h => by
    rw [hornerDown, h m (by omega), fin_mul, zero_mul, ofReal_zero, fin_add, add_zero, ofReal_zero]
    exact hornerDown_zeros f t d m fun i hi => h i (by omega)

/-- Adding zero to the result of a multiplication. -/
theorem zero_add_mul (a b : Dbl) : Dbl.fin 0 + a * b = a * b := by
  rcases h : a * b with x | s | _
  · obtain ⟨y, z, rfl, rfl, hx⟩ := mul_eq_fin h
    have hd := (ofReal_nearest hx).1
    rw [fin_add, zero_add]
    unfold Dbl.ofReal
    rw [hd.round64, if_pos hd.lt]
  · rfl
  · rfl

theorem ofReal_double {x : ℝ} (h : IsDouble x) : Dbl.ofReal x = .fin x := by
  unfold Dbl.ofReal
  rw [h.round64, if_pos h.lt]

theorem scale_exact (b : ℝ) : ∀ (c : List ℝ) (k : ℕ), (∀ j ≤ k + c.length, IsDouble (b ^ j)) →
    (∀ (i : ℕ) x, c[i]? = some x → IsDouble (x * b ^ (k + i))) →
    scaleLoop (.fin b) (.fin (b ^ k)) (c.map Dbl.fin) = (c.mapIdx fun i x => Dbl.fin (x * b ^ (k + i)))
  | [], _, _, _ => rfl
  | x :: c, k, h1, h2 => by
    rw [List.map_cons, scaleLoop, fin_mul, fin_mul, ← pow_succ, ofReal_double (h1 (k + 1) (by simp)),
      ofReal_double (by simpa using h2 0 x rfl), scale_exact b c (k + 1)
        (fun j hj => h1 j (by rw [List.length_cons]; omega))
        (fun i y hy => by rw [show k + 1 + i = k + (i + 1) by omega]; exact h2 (i + 1) y (by simpa using hy)),
      List.mapIdx_cons]
    congr 1
    congr 1
    funext i y
    rw [show k + 1 + i = k + (i + 1) by omega]

end Verif
