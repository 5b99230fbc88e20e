import Verif.Proofs.LinOpt
import Verif.Proofs.RoundedLimits
import Verif.Spec.RoundedMapping

/- Helper lemmas: the mapping matrix, its inverse and the coefficients of a segment with rounding. -/
namespace Verif

open Spec

set_option linter.unusedSectionVars false

variable {rnd : ℝ → ℝ} {u : ℝ}

/-- `x` is `y`, of size at most `a`, up to `m` roundings of the terms that make up `a`. -/
def Near (u : ℝ) (m : ℕ) (x y a : ℝ) : Prop := |y| ≤ a ∧ |x - y| ≤ ((1 + u) ^ m - 1) * a

theorem Near.nonneg {m : ℕ} {x y a : ℝ} (h : Near u m x y a) : 0 ≤ a := (abs_nonneg _).trans h.1

theorem Near.mono (hu : 0 ≤ u) {m n : ℕ} (hmn : m ≤ n) {x y a : ℝ} (h : Near u m x y a) : Near u n x y a :=
  ⟨h.1, h.2.trans (mul_le_mul_of_nonneg_right
    (sub_le_sub_right (pow_le_pow_right₀ (by linarith) hmn) 1) h.nonneg)⟩

theorem Near.self (x : ℝ) : Near u 0 x x |x| := ⟨le_rfl, by simp⟩

theorem Near.abs_le {m : ℕ} {x y a : ℝ} (h : Near u m x y a) : |x| ≤ (1 + u) ^ m * a := by
  have : |x| ≤ |x - y| + |y| := by simpa using abs_add_le (x - y) y
  have := h.1
  have := h.2
  linarith

theorem near_of_factor {m : ℕ} {x θ : ℝ} (h : |θ| ≤ (1 + u) ^ m - 1) : Near u m (x * (1 + θ)) x |x| :=
  ⟨le_rfl, close_of_factor h⟩

theorem Near.mul (_hu : 0 ≤ u) {m n : ℕ} {x X a y Y b : ℝ} (h1 : Near u m x X a) (h2 : Near u n y Y b) :
    Near u (m + n) (x * y) (X * Y) (a * b) := by
  refine ⟨by rw [abs_mul]; exact mul_le_mul h1.1 h2.1 (abs_nonneg _) h1.nonneg, ?_⟩
  have e : x * y - X * Y = (x - X) * y + X * (y - Y) := by ring
  rw [e]
  refine (abs_add_le _ _).trans ?_
  rw [abs_mul, abs_mul, pow_add]
  have p1 := mul_le_mul h1.2 h2.abs_le (abs_nonneg _) ((abs_nonneg _).trans h1.2)
  have p2 := mul_le_mul h1.1 h2.2 (abs_nonneg _) h1.nonneg
  nlinarith

theorem near_sum {n : ℕ} (_hu : 0 ≤ u) {m : ℕ} {x y a : Fin n → ℝ} (h : ∀ i, Near u m (x i) (y i) (a i)) :
    Near u m (∑ i, x i) (∑ i, y i) (∑ i, a i) := by
  refine ⟨(Finset.abs_sum_le_sum_abs _ _).trans (Finset.sum_le_sum fun i _ => (h i).1), ?_⟩
  rw [← Finset.sum_sub_distrib, Finset.mul_sum]
  exact (Finset.abs_sum_le_sum_abs _ _).trans (Finset.sum_le_sum fun i _ => (h i).2)

theorem near_dot (hu : 0 ≤ u) {dot : Dot (Fl rnd)} (hd : DotOk u dot) {n p q : ℕ} {a b : Fin n → Fl rnd}
    {A B α β : Fin n → ℝ} (h1 : ∀ i, Near u p (a i).val (A i) (α i)) (h2 : ∀ i, Near u q (b i).val (B i) (β i)) :
    Near u (p + q + n) (dot n a b).val (∑ i, A i * B i) (∑ i, α i * β i) := by
  have hs := near_sum hu fun i => (h1 i).mul hu (h2 i)
  refine ⟨hs.1, ?_⟩
  have hx : ∑ i, |(a i).val| * |(b i).val| ≤ (1 + u) ^ (p + q) * ∑ i, α i * β i := by
    rw [Finset.mul_sum]
    refine Finset.sum_le_sum fun i _ => ?_
    rw [← abs_mul]
    exact ((h1 i).mul hu (h2 i)).abs_le
  have h3 := hd n a b
  have hn : 0 ≤ (1 + u) ^ n - 1 := by have := one_le_pow₀ (n := n) (by linarith : (1 : ℝ) ≤ 1 + u); linarith
  have h4 := mul_le_mul_of_nonneg_left hx hn
  have e : |(dot n a b).val - ∑ i, A i * B i| ≤ |(dot n a b).val - ∑ i, (a i).val * (b i).val| +
      |∑ i, (a i).val * (b i).val - ∑ i, A i * B i| := by
    simpa using abs_add_le ((dot n a b).val - ∑ i, (a i).val * (b i).val)
      (∑ i, (a i).val * (b i).val - ∑ i, A i * B i)
  have h5 := hs.2
  rw [pow_add _ (p + q) n]
  nlinarith

/-- Adding from left to right is a scalar product. -/
theorem seqDot_ok (h : Rounding rnd u) : DotOk u (seqDot : Dot (Fl rnd)) := by
  have hu := rounding_nonneg h
  intro n a b
  cases n with
  | zero =>
    simp only [seqDot, Finset.univ_eq_empty, Finset.sum_empty, mul_zero, sub_zero]
    exact (abs_zero (α := ℝ)).le
  | succ n =>
    have h1 := foldl_rounded h (fun i : Fin n => a i.succ) (fun i => b i.succ) (List.finRange n) (a 0 * b 0)
    rw [List.length_finRange] at h1
    have hs : ∀ f : Fin n → ℝ, ((List.finRange n).map f).sum = ∑ i, f i := fun f => by
      rw [← List.ofFn_eq_map, List.sum_ofFn]
    rw [hs, hs] at h1
    change |(List.foldl _ (a 0 * b 0) (List.finRange n)).val - _| ≤ _
    rw [Fin.sum_univ_succ, Fin.sum_univ_succ]
    obtain ⟨δ, e, b1⟩ := rnd_factor h ((a 0).val * (b 0).val)
    have hv : (a 0 * b 0).val = (a 0).val * (b 0).val * (1 + δ) := e
    have hq := near_of_factor (u := u) (x := (a 0).val * (b 0).val) b1
    rw [hv] at h1
    set r := (List.foldl (fun s (i : Fin n) => s + a i.succ * b i.succ) (a 0 * b 0) (List.finRange n)).val
    set c := (a 0).val * (b 0).val
    rw [← abs_mul]
    set S := ∑ i : Fin n, (a i.succ).val * (b i.succ).val
    set S' := ∑ i : Fin n, |(a i.succ).val| * |(b i.succ).val|
    have e1 : |r - (c + S)| ≤ |r - (c * (1 + δ) + S)| + |c * (1 + δ) - c| := by
      have := abs_add_le (r - (c * (1 + δ) + S)) (c * (1 + δ) - c)
      rwa [show r - (c * (1 + δ) + S) + (c * (1 + δ) - c) = r - (c + S) by ring] at this
    have h2 := hq.abs_le
    have h3 := hq.2
    rw [pow_one] at h2 h3
    have p1 := one_le_pow₀ (n := n) (by linarith : (1 : ℝ) ≤ 1 + u)
    have h4 := mul_le_mul_of_nonneg_left h2 (by linarith : 0 ≤ (1 + u) ^ n - 1)
    rw [pow_succ] at h1 ⊢
    change |r - (c + S)| ≤ ((1 + u) ^ n * (1 + u) - 1) * (|c| + S')
    nlinarith

/-- The table is exact as long as its entries are integers that can be stored. -/
theorem baseRow_exact (hnat : ∀ n : ℕ, n < 2 ^ 53 → rnd n = n) (size d j : ℕ) (hj : j < size) (hdj : d ≤ j)
    (hs : j.factorial < 2 ^ 53) :
    ((baseRow size d : List (Fl rnd)).getD j 0).val = (j.descFactorial d : ℝ) := by
  have hle : ∀ d, j.descFactorial d ≤ j.factorial := by
    intro d
    by_cases hd : d ≤ j
    · exact Nat.le_of_dvd (Nat.factorial_pos _) ⟨(j - d).factorial, by
        rw [mul_comm, Nat.factorial_mul_descFactorial hd]⟩
    · rw [Nat.descFactorial_of_lt (by omega)]; exact Nat.zero_le _
  induction d with
  | zero =>
    rw [baseRow, List.getD_eq_getElem?_getD, List.getElem?_replicate, if_pos hj]
    simp only [Nat.descFactorial_zero, Nat.cast_one, Option.getD_some]
    rfl
  | succ d ih =>
    have ih := ih (by omega)
    rw [baseRow, List.getD_eq_getElem?_getD, List.getElem?_map, List.getElem?_range hj, Option.map_some,
      Option.getD_some, if_pos (by omega), Nat.descFactorial_succ]
    change rnd (rnd ((j - d : ℕ) : ℝ) * ((baseRow size d : List (Fl rnd)).getD j 0).val) = _
    rw [ih, hnat (j - d) (lt_of_le_of_lt ((Nat.sub_le _ _).trans (Nat.self_le_factorial j)) hs), ← Nat.cast_mul,
      hnat _ (lt_of_le_of_lt ?_ hs)]
    rw [← Nat.descFactorial_succ]
    exact hle _

/-- The loop that writes a row. -/
theorem baseCoeffsLoop_rounded (h : Rounding rnd u) (d : ℕ) (t : Fl rnd) (n : ℕ) :
    ∀ (j : ℕ) (tp : Fl rnd) (i : ℕ), i < n → j + n ≤ kMaxConvolutionSize → ∃ θ, |θ| ≤ (1 + u) ^ (2 * d + i + 1) - 1 ∧
      ((baseCoeffsLoop d t n j tp).getD i 0).val =
        ((j + i).descFactorial d : ℝ) * (tp.val * t.val ^ i) * (1 + θ) := by
  have hu := rounding_nonneg h
  induction n with
  | zero => intro j tp i hi; omega
  | succ n ih =>
    intro j tp i hi hj
    rw [baseCoeffsLoop]
    cases i with
    | zero =>
      obtain ⟨θ, h1, h2⟩ := baseRow_rounded h kMaxConvolutionSize d j (by omega)
      obtain ⟨δ, e1, b1⟩ := rnd_factor h ((baseCoeff d j : Fl rnd).val * tp.val)
      obtain ⟨a, ea, ba⟩ := factor_mul hu h1 b1
      refine ⟨a, ba, ?_⟩
      change rnd ((baseCoeff d j : Fl rnd).val * tp.val) = _
      rw [e1, baseCoeff, h2, ← ea, add_zero, pow_zero]
      ring
    | succ i =>
      obtain ⟨θ, h1, h2⟩ := ih (j + 1) (tp * t) i (by omega) (by omega)
      obtain ⟨δ, e1, b1⟩ := rnd_factor h (tp.val * t.val)
      obtain ⟨a, ea, ba⟩ := factor_mul hu h1 b1
      refine ⟨a, factor_mono hu (by omega) ba, ?_⟩
      rw [List.getD_cons_succ, h2, show (tp * t).val = tp.val * t.val * (1 + δ) from e1, ← ea,
        show j + 1 + i = j + (i + 1) by omega, pow_succ]
      ring

theorem flLib_abs (t : Fl rnd) : ((flLib rnd).abs t).val = |t.val| := rfl

theorem baseCoeffsWithTimeG_zero (n k : ℕ) (hk : k < n) (hn : n ≤ kMaxConvolutionSize)
    (t : Fl rnd) (ht : t.val = 0) : baseCoeffsWithTimeG (flLib rnd) n (k : ℕ) t =
      .ok (List.replicate k 0 ++ [baseCoeff k k] ++ List.replicate (n - 1 - k) 0) := by
  unfold baseCoeffsWithTimeG
  rw [Res.check_of (by exact_mod_cast hk), Res.ok_bind, Res.check_of (by positivity), Res.ok_bind,
    if_neg (by have : (k : ℤ) < n := by exact_mod_cast hk
               have : (n : ℤ) ≤ kMaxConvolutionSize := by exact_mod_cast hn
               omega)]
  dsimp only
  rw [if_pos (show (flLib rnd).abs t < (flLib rnd).eps from ?_), Int.toNat_natCast]
  · rfl
  · change |t.val| < (flLib rnd).eps.val
    rw [ht, abs_zero]
    change (0 : ℝ) < _
    simp [flLib, dblEpsilon]

theorem baseCoeffsWithTimeG_pos (n k : ℕ) (hk : k < n) (hn : n ≤ kMaxConvolutionSize)
    (t : Fl rnd) (ht : 1 / 2 ^ 52 ≤ t.val) : baseCoeffsWithTimeG (flLib rnd) n (k : ℕ) t =
      .ok (List.replicate k 0 ++ [baseCoeff k k] ++ baseCoeffsLoop k t (n - 1 - k) (k + 1) t) := by
  unfold baseCoeffsWithTimeG
  rw [Res.check_of (by exact_mod_cast hk), Res.ok_bind, Res.check_of (by positivity), Res.ok_bind,
    if_neg (by have : (k : ℤ) < n := by exact_mod_cast hk
               have : (n : ℤ) ≤ kMaxConvolutionSize := by exact_mod_cast hn
               omega)]
  dsimp only
  rw [if_neg (show ¬ (flLib rnd).abs t < (flLib rnd).eps from ?_), if_neg (by omega), Int.toNat_natCast]
  · rfl
  · change ¬ |t.val| < (flLib rnd).eps.val
    refine not_lt.mpr ?_
    refine le_trans ?_ (ht.trans (le_abs_self _))
    simp [flLib, dblEpsilon]

/-- The rows of the two halves. -/
theorem mapping_rounded (h : Rounding rnd u) (hnat : ∀ n : ℕ, n < 2 ^ 53 → rnd n = n) (m : ℕ) (hm : m ≤ 11) (T : Fl rnd)
    (hT : 1 / 2 ^ 52 ≤ T.val) : ∃ M : SqMat m (Fl rnd), setupMappingMatrixG (flLib rnd) m T = .ok M ∧
      (∀ j : Fin m, (M (Fin.castAdd m j) (Fin.castAdd m j)).val = ((j : ℕ).factorial : ℝ)) ∧
      ∀ (k : Fin m) (c : Fin (m + m)), Near u (3 * m) (M (Fin.natAdd m k) c).val (monoDeriv T.val k c)
        (monoDeriv T.val k c) := by
  have hu := rounding_nonneg h
  have hT0 : 0 < T.val := lt_of_lt_of_le (by positivity) hT
  have hkm : m + m ≤ kMaxConvolutionSize := by unfold kMaxConvolutionSize; omega
  have e1 := Res.mapM_ok (g := fun i => (List.replicate i 0 ++ [baseCoeff i i] ++ List.replicate (m + m - 1 - i) 0 : List (Fl rnd)))
    (f := fun i : ℕ => baseCoeffsWithTimeG (flLib rnd) (m + m) (i : ℕ) (0 : Fl rnd)) (l := List.range m)
    (fun i hi => baseCoeffsWithTimeG_zero (m + m) i (by have := List.mem_range.mp hi; omega) hkm 0 rfl)
  have e2 := Res.mapM_ok (g := fun i => (List.replicate i 0 ++ [baseCoeff i i] ++ baseCoeffsLoop i T (m + m - 1 - i) (i + 1) T : List (Fl rnd)))
    (f := fun i : ℕ => baseCoeffsWithTimeG (flLib rnd) (m + m) (i : ℕ) T) (l := List.range m)
    (fun i hi => baseCoeffsWithTimeG_pos (m + m) i (by have := List.mem_range.mp hi; omega) hkm T hT)
  refine ⟨_, by unfold setupMappingMatrixG; rw [e1, Res.ok_bind, e2, Res.ok_bind]; rfl, ?_, ?_⟩
  · intro j
    have hj := j.isLt
    simp only [Fin.val_castAdd]
    rw [List.getD_eq_getElem?_getD (a := []), List.getElem?_append_left (by simp), List.getElem?_map, List.getElem?_range hj,
      Option.map_some, Option.getD_some, List.append_assoc, List.getD_eq_getElem?_getD,
      List.getElem?_append_right (by simp)]
    simp only [List.length_replicate, Nat.sub_self, List.singleton_append, List.getElem?_cons_zero, Option.getD_some]
    rw [baseCoeff, baseRow_exact hnat _ _ _ (by unfold kMaxConvolutionSize; omega) le_rfl, Nat.descFactorial_self]
    exact lt_of_le_of_lt (Nat.factorial_le (by omega : (j : ℕ) ≤ 10)) (by decide)
  · intro k c
    have hk := k.isLt
    have hc := c.isLt
    simp only [Fin.val_natAdd]
    rw [List.getD_eq_getElem?_getD (a := []), List.getElem?_append_right (by simp), List.length_map, List.length_range,
      Nat.add_sub_cancel_left, List.getElem?_map, List.getElem?_range hk, Option.map_some, Option.getD_some]
    have hn : 0 ≤ monoDeriv T.val k c := by unfold monoDeriv; positivity
    suffices hs : ∃ θ, |θ| ≤ (1 + u) ^ (3 * m) - 1 ∧ ((List.replicate (k : ℕ) 0 ++ [baseCoeff (k : ℕ) k] ++
        baseCoeffsLoop (k : ℕ) T (m + m - 1 - k) (k + 1) T : List (Fl rnd)).getD (c : ℕ) 0).val =
          monoDeriv T.val k c * (1 + θ) by
      obtain ⟨θ, h1, h2⟩ := hs
      rw [h2]
      have := near_of_factor (u := u) (x := monoDeriv T.val k c) h1
      rwa [abs_of_nonneg hn] at this
    rw [List.append_assoc, List.getD_eq_getElem?_getD]
    rcases lt_trichotomy (c : ℕ) k with hlt | heq | hgt
    · refine ⟨0, factor_zero hu _, ?_⟩
      rw [List.getElem?_append_left (by simpa using hlt), List.getElem?_replicate, if_pos hlt, Option.getD_some,
        monoDeriv, Nat.descFactorial_of_lt hlt]
      simp only [Nat.cast_zero, zero_mul]
      rfl
    · obtain ⟨θ, h1, h2⟩ := baseRow_rounded h kMaxConvolutionSize k k (by omega)
      refine ⟨θ, factor_mono hu (by omega) h1, ?_⟩
      rw [List.getElem?_append_right (by simp [heq]), List.length_replicate, heq, Nat.sub_self, List.singleton_append,
        List.getElem?_cons_zero, Option.getD_some, baseCoeff, h2, monoDeriv, Nat.sub_self, pow_zero, mul_one]
    · obtain ⟨θ, h1, h2⟩ := baseCoeffsLoop_rounded h k T (m + m - 1 - k) (k + 1) T (c - k - 1) (by omega) (by omega)
      refine ⟨θ, factor_mono hu (by omega) h1, ?_⟩
      rw [List.getElem?_append_right (by simp; omega), List.length_replicate, List.singleton_append,
        show (c : ℕ) - k = (c - k - 1) + 1 by omega, List.getElem?_cons_succ, ← List.getD_eq_getElem?_getD, h2,
        monoDeriv, show (k : ℕ) + 1 + (c - k - 1) = c by omega, ← pow_succ',
        show (c : ℕ) - k - 1 + 1 = c - k by omega]

/-- The coefficients of the lower half: derivatives at the beginning, divided by factorials. -/
theorem lower_coeff (h : Rounding rnd u) {dot : Dot (Fl rnd)} (hd : DotOk u dot) {m : ℕ}
    (inv : Matrix (Fin m) (Fin m) (Fl rnd) → Matrix (Fin m) (Fin m) (Fl rnd)) (M : SqMat m (Fl rnd))
    (hM : ∀ j : Fin m, (M (Fin.castAdd m j) (Fin.castAdd m j)).val = ((j : ℕ).factorial : ℝ))
    (d : Fin (m + m) → Fl rnd) (j : Fin m) :
    Near u (2 * m + 1) (dot (m + m) (invertMappingMatrixG dot inv M (Fin.castAdd m j)) d).val
      ((d (Fin.castAdd m j)).val / (j : ℕ).factorial) (|(d (Fin.castAdd m j)).val| / (j : ℕ).factorial) := by
  have hu := rounding_nonneg h
  obtain ⟨δ, e, b⟩ := rnd_factor h (1 / ((j : ℕ).factorial : ℝ))
  have hpos : (0 : ℝ) < (j : ℕ).factorial := by exact_mod_cast Nat.factorial_pos _
  have hrow : ∀ c : Fin (m + m), Near u 1 (invertMappingMatrixG dot inv M (Fin.castAdd m j) c).val
      (if c = Fin.castAdd m j then 1 / ((j : ℕ).factorial : ℝ) else 0)
      (if c = Fin.castAdd m j then 1 / ((j : ℕ).factorial : ℝ) else 0) := by
    intro c
    unfold invertMappingMatrixG
    dsimp only
    rw [Fin.addCases_left]
    refine Fin.addCases (fun c => ?_) (fun c => ?_) c
    · rw [Fin.addCases_left]
      by_cases hc : j = c
      · subst hc
        rw [if_pos rfl, if_pos rfl]
        have hv : (1 / M (Fin.castAdd m j) (Fin.castAdd m j)).val = 1 / ((j : ℕ).factorial : ℝ) * (1 + δ) := by
          rw [← e, ← hM j]
          rfl
        rw [hv]
        have := near_of_factor (u := u) (x := 1 / ((j : ℕ).factorial : ℝ)) b
        rwa [abs_of_pos (by positivity)] at this
      · rw [if_neg hc, if_neg (fun hh => hc (Fin.castAdd_injective m m hh).symm)]
        have := (Near.self (u := u) 0).mono hu (Nat.zero_le 1)
        rwa [abs_zero] at this
    · rw [Fin.addCases_right, if_neg (by
        intro hh
        have := congrArg Fin.val hh
        simp only [Fin.val_natAdd, Fin.val_castAdd] at this
        omega)]
      have := (Near.self (u := u) 0).mono hu (Nat.zero_le 1)
      rwa [abs_zero] at this
  have := near_dot hu hd hrow fun c => Near.self (u := u) (d c).val
  refine (Near.mono hu (by omega : 1 + 0 + (m + m) ≤ 2 * m + 1) ?_)
  simp only [ite_mul, zero_mul, Finset.sum_ite_eq', Finset.mem_univ, if_true] at this
  rwa [one_div_mul_eq_div, one_div_mul_eq_div] at this

/-- The coefficients of the upper half. `X` is what the library returned as the inverse. -/
theorem upper_coeff (h : Rounding rnd u) {dot : Dot (Fl rnd)} (hd : DotOk u dot) {m : ℕ}
    (inv : Matrix (Fin m) (Fin m) (Fl rnd) → Matrix (Fin m) (Fin m) (Fl rnd)) (M : SqMat m (Fl rnd)) {T : ℝ}
    (hM : ∀ j : Fin m, (M (Fin.castAdd m j) (Fin.castAdd m j)).val = ((j : ℕ).factorial : ℝ))
    (hC : ∀ (k : Fin m) (c : Fin (m + m)), Near u (3 * m) (M (Fin.natAdd m k) c).val (monoDeriv T k c)
        (monoDeriv T k c))
    (d : Fin (m + m) → Fl rnd) (X : Matrix (Fin m) (Fin m) (Fl rnd))
    (hX : X = inv fun i j => M (Fin.natAdd m i) (Fin.natAdd m j)) (i : Fin m) :
    Near u (7 * m + 1) (dot (m + m) (invertMappingMatrixG dot inv M (Fin.natAdd m i)) d).val
      (∑ l, (X i l).val * ((d (Fin.natAdd m l)).val -
        ∑ j : Fin m, monoDeriv T l j / (j : ℕ).factorial * (d (Fin.castAdd m j)).val))
      (∑ l, |(X i l).val| * reach T (fun c => (d c).val) l) := by
  have hu := rounding_nonneg h
  -- the product of the inverse with the lower left block
  have hG : ∀ l : Fin m, Near u (4 * m) (dot m (fun k => -X i k) (fun k => M (Fin.natAdd m k) (Fin.castAdd m l))).val
      (∑ k, -(X i k).val * monoDeriv T k l) (∑ k, |(X i k).val| * monoDeriv T k l) := by
    intro l
    have := near_dot hu hd (a := fun k => -X i k) (b := fun k => M (Fin.natAdd m k) (Fin.castAdd m l))
      (fun k => by
        have := Near.self (u := u) (-(X i k).val)
        rw [abs_neg] at this
        exact this) (fun k => hC k (Fin.castAdd m l))
    exact this.mono hu (by omega)
  -- times the inverse of the diagonal block
  have hA : ∀ l j : Fin m, Near u 1 (if l = j then (1 : Fl rnd) / M (Fin.castAdd m l) (Fin.castAdd m l) else 0).val
      (if l = j then 1 / ((j : ℕ).factorial : ℝ) else 0) (if l = j then 1 / ((j : ℕ).factorial : ℝ) else 0) := by
    intro l j
    split_ifs with hl
    · subst hl
      obtain ⟨δ, e, b⟩ := rnd_factor h (1 / ((l : ℕ).factorial : ℝ))
      have hv : (1 / M (Fin.castAdd m l) (Fin.castAdd m l)).val = 1 / ((l : ℕ).factorial : ℝ) * (1 + δ) := by
        rw [← e, ← hM l]
        rfl
      rw [hv]
      have := near_of_factor (u := u) (x := 1 / ((l : ℕ).factorial : ℝ)) b
      have hpos : (0 : ℝ) < (l : ℕ).factorial := by exact_mod_cast Nat.factorial_pos _
      rwa [abs_of_pos (by positivity)] at this
    · have := (Near.self (u := u) 0).mono hu (Nat.zero_le 1)
      rwa [abs_zero] at this
  have hE : ∀ j : Fin m, Near u (5 * m + 1) (invertMappingMatrixG dot inv M (Fin.natAdd m i) (Fin.castAdd m j)).val
      ((∑ k, -(X i k).val * monoDeriv T k j) * (1 / ((j : ℕ).factorial : ℝ)))
      ((∑ k, |(X i k).val| * monoDeriv T k j) * (1 / ((j : ℕ).factorial : ℝ))) := by
    intro j
    have := near_dot hu hd hG fun l => hA l j
    simp only [mul_ite, mul_zero, Finset.sum_ite_eq', Finset.mem_univ, if_true] at this
    refine Near.mono hu (by omega : 4 * m + 1 + m ≤ 5 * m + 1) ?_
    unfold invertMappingMatrixG
    dsimp only
    rw [Fin.addCases_right, Fin.addCases_left, ← hX]
    exact this
  have hrow : ∀ c : Fin (m + m), Near u (5 * m + 1) (invertMappingMatrixG dot inv M (Fin.natAdd m i) c).val
      (Fin.addCases (fun j : Fin m => (∑ k, -(X i k).val * monoDeriv T k j) * (1 / ((j : ℕ).factorial : ℝ)))
        (fun l => (X i l).val) c)
      (Fin.addCases (fun j : Fin m => (∑ k, |(X i k).val| * monoDeriv T k j) * (1 / ((j : ℕ).factorial : ℝ)))
        (fun l => |(X i l).val|) c) := by
    intro c
    refine Fin.addCases (fun j => ?_) (fun l => ?_) c
    · rw [Fin.addCases_left, Fin.addCases_left]
      exact hE j
    · rw [Fin.addCases_right, Fin.addCases_right]
      have : invertMappingMatrixG dot inv M (Fin.natAdd m i) (Fin.natAdd m l) = X i l := by
        unfold invertMappingMatrixG
        dsimp only
        rw [Fin.addCases_right, Fin.addCases_right, hX]
      rw [this]
      exact (Near.self _).mono hu (Nat.zero_le _)
  have hfin := near_dot hu hd hrow fun c => Near.self (u := u) (d c).val
  rw [Fin.sum_univ_add, Fin.sum_univ_add] at hfin
  simp only [Fin.addCases_left, Fin.addCases_right] at hfin
  refine Near.mono hu (by omega : 5 * m + 1 + 0 + (m + m) ≤ 7 * m + 1) ?_
  have s1 : ∑ l, (X i l).val * ((d (Fin.natAdd m l)).val -
        ∑ j : Fin m, monoDeriv T l j / (j : ℕ).factorial * (d (Fin.castAdd m j)).val) =
      ∑ j : Fin m, (∑ k, -(X i k).val * monoDeriv T k j) * (1 / ((j : ℕ).factorial : ℝ)) *
        (d (Fin.castAdd m j)).val + ∑ l, (X i l).val * (d (Fin.natAdd m l)).val := by
    simp only [mul_sub, Finset.sum_sub_distrib, Finset.mul_sum, Finset.sum_mul]
    rw [Finset.sum_comm, sub_eq_neg_add, ← Finset.sum_neg_distrib]
    congr 1
    refine Finset.sum_congr rfl fun j _ => ?_
    rw [← Finset.sum_neg_distrib]
    exact Finset.sum_congr rfl fun k _ => by ring
  have s2 : ∑ l, |(X i l).val| * reach T (fun c => (d c).val) l =
      ∑ j : Fin m, (∑ k, |(X i k).val| * monoDeriv T k j) * (1 / ((j : ℕ).factorial : ℝ)) *
        |(d (Fin.castAdd m j)).val| + ∑ l, |(X i l).val| * |(d (Fin.natAdd m l)).val| := by
    simp only [reach, mul_add, Finset.sum_add_distrib, Finset.mul_sum, Finset.sum_mul]
    rw [add_comm]
    congr 1
    rw [Finset.sum_comm]
    refine Finset.sum_congr rfl fun j _ => Finset.sum_congr rfl fun k _ => by ring
  rw [s1, s2]
  exact hfin

/-- A derivative of a polynomial, as a combination of its coefficients. -/
theorem derivAt_ofFn {n : ℕ} (c : Fin n → ℝ) (k : ℕ) (t : ℝ) :
    derivAt (List.ofFn c) k t = ∑ j : Fin n, monoDeriv t k j * c j := by
  rw [derivAt_eq_sum, List.length_ofFn]
  have h1 : ∑ j : Fin n, monoDeriv t k j * c j = ∑ j ∈ Finset.range n, monoDeriv t k j * (List.ofFn c).getD j 0 := by
    rw [← Fin.sum_univ_eq_sum_range (fun j => monoDeriv t k j * (List.ofFn c).getD j 0)]
    exact Finset.sum_congr rfl fun j _ => by rw [ofFn_getD]
  rw [h1]
  by_cases hk : k ≤ n
  · rw [← Finset.sum_range_add_sum_Ico (fun j => monoDeriv t k j * (List.ofFn c).getD j 0) hk,
      Finset.sum_eq_zero (s := Finset.range k), zero_add, Finset.sum_Ico_eq_sum_range]
    · refine Finset.sum_congr rfl fun i _ => ?_
      rw [monoDeriv, Nat.add_sub_cancel_left]
      ring
    · intro j hj
      rw [monoDeriv, Nat.descFactorial_of_lt (Finset.mem_range.mp hj), Nat.cast_zero, zero_mul, zero_mul]
  · rw [Nat.sub_eq_zero_of_le (by omega), Finset.range_zero, Finset.sum_empty]
    refine (Finset.sum_eq_zero fun j hj => ?_).symm
    rw [monoDeriv, Nat.descFactorial_of_lt (by have := Finset.mem_range.mp hj; omega), Nat.cast_zero, zero_mul, zero_mul]

end Verif
