import Verif.Proofs.RoundedMapping
import Verif.Proofs.RoundedTiming

/-
Property C118: the ends of a segment of the linear optimiser with rounding after every operation.

`inv` stands for Eigen's `inverse()`; nothing is assumed of it, but its residual enters the bound. `dot` stands for the
scalar products of Eigen, of which `Spec.DotOk` is assumed.
-/
namespace Verif

open Spec

set_option linter.unusedSectionVars false

/-- With a field and the exact scalar product the definitions used here are those of the model of the linear
optimiser. -/
theorem C118_same_code {K : Type} [Field K] [LinearOrder K] (sq : K → K) (h : ℕ) (T : K)
    (inv : Matrix (Fin h) (Fin h) K → Matrix (Fin h) (Fin h) K) (M : SqMat h K) (d : Fin (h + h) → K) :
    setupMappingMatrixG (fieldLib sq) h T = setupMappingMatrix h T ∧
    invertMappingMatrixG (fun _ a b => a ⬝ᵥ b) inv M = invertMappingMatrix inv M ∧
    segmentCoeffsG (fun _ a b => a ⬝ᵥ b) M d = List.ofFn (M.mulVec d) := by
  refine ⟨rfl, ?_, rfl⟩
  funext r c
  unfold invertMappingMatrixG invertMappingMatrix
  dsimp only
  refine Fin.addCases (fun i => ?_) (fun i => ?_) r <;> refine Fin.addCases (fun j => ?_) (fun j => ?_) c
  · simp only [Fin.addCases_left, Matrix.diagonal_apply, one_div]
  · simp only [Fin.addCases_left, Fin.addCases_right]
  · simp only [Fin.addCases_left, Fin.addCases_right, dotProduct, Matrix.diagonal_apply,
      one_div]
    rfl
  · simp only [Fin.addCases_right]

/-- **C118**. The polynomial that is stored for a segment of duration `T` with the derivatives `d 0, …, d (h-1)` required
at its beginning and `d h, …, d (2h-1)` required at its end has the required derivatives at the beginning up to `2h + 1`
roundings, and those at the end up to the residual `η` of the inverse the library returned, times what the derivatives
reach, and `7h + 1` roundings. -/
theorem C118_ends {rnd : ℝ → ℝ} {u : ℝ} (hr : Rounding rnd u) (hnat : ∀ n : ℕ, n < 2 ^ 53 → rnd n = n)
    {dot : Dot (Fl rnd)} (hdot : DotOk u dot) (h : ℕ) (hh : h ≤ 11) (T : Fl rnd) (hT : 1 / 2 ^ 52 ≤ T.val)
    (inv : Matrix (Fin h) (Fin h) (Fl rnd) → Matrix (Fin h) (Fin h) (Fl rnd)) :
    ∃ M : SqMat h (Fl rnd), setupMappingMatrixG (flLib rnd) h T = .ok M ∧
      ∀ (d : Fin (h + h) → Fl rnd) (p : List ℝ) (X : Matrix (Fin h) (Fin h) (Fl rnd)),
        p = vals (segmentCoeffsG dot (invertMappingMatrixG dot inv M) d) →
        X = (inv fun i j => M (Fin.natAdd h i) (Fin.natAdd h j)) →
        (∀ k : Fin h, |derivAt p k 0 - (d (Fin.castAdd h k)).val| ≤
          ((1 + u) ^ (2 * h + 1) - 1) * |(d (Fin.castAdd h k)).val|) ∧
        ∀ η : Fin h → Fin h → ℝ,
          (∀ k l : Fin h, |∑ i : Fin h, monoDeriv T.val k (h + i) * (X i l).val - (if k = l then 1 else 0)| ≤ η k l) →
          ∀ k : Fin h, |derivAt p k T.val - (d (Fin.natAdd h k)).val| ≤
            ∑ l, η k l * reach T.val (fun c => (d c).val) l +
              ((1 + u) ^ (7 * h + 1) - 1) * (reach T.val (fun c => (d c).val) k +
                ∑ i : Fin h, monoDeriv T.val k (h + i) * ∑ l, |(X i l).val| * reach T.val (fun c => (d c).val) l) := by
  have hu := rounding_nonneg hr
  have hT0 : 0 < T.val := lt_of_lt_of_le (by positivity) hT
  obtain ⟨M, e, hA, hC⟩ := mapping_rounded hr hnat h hh T hT
  refine ⟨M, e, fun d p X hp hX => ?_⟩
  have hp : p = List.ofFn fun r => (dot (h + h) (invertMappingMatrixG dot inv M r) d).val := by
    rw [hp]
    unfold vals segmentCoeffsG
    rw [List.map_ofFn]
    rfl
  have lo := lower_coeff hr hdot inv M hA d
  have hi := upper_coeff hr hdot inv M hA hC d X hX
  set a : Fin (h + h) → ℝ := fun r => (dot (h + h) (invertMappingMatrixG dot inv M r) d).val with ha
  refine ⟨fun k => ?_, fun η hη k => ?_⟩
  · have hpos : (0 : ℝ) < (k : ℕ).factorial := by exact_mod_cast Nat.factorial_pos _
    have hz : derivAt p k 0 = (k : ℕ).factorial * a (Fin.castAdd h k) := by
      rw [hp, derivAt_ofFn, Finset.sum_eq_single (Fin.castAdd h k)]
      · rw [monoDeriv, Fin.val_castAdd, Nat.sub_self, pow_zero, mul_one, Nat.descFactorial_self]
      · intro j _ hj
        have : (j : ℕ) ≠ k := fun hh => hj (Fin.ext hh)
        rcases lt_or_gt_of_ne this with hlt | hgt
        · rw [monoDeriv, Nat.descFactorial_of_lt hlt, Nat.cast_zero, zero_mul, zero_mul]
        · rw [monoDeriv, zero_pow (by omega), mul_zero, zero_mul]
      · intro hh
        exact absurd (Finset.mem_univ _) hh
    have h2 := mul_le_mul_of_nonneg_left (lo k).2 hpos.le
    rw [← abs_of_pos hpos, ← abs_mul, abs_of_pos hpos, mul_sub, mul_div_cancel₀ _ hpos.ne'] at h2
    rw [hz]
    refine h2.trans (le_of_eq ?_)
    field_simp
  · -- the exact solution
    set r : Fin h → ℝ := fun l => (d (Fin.natAdd h l)).val -
      ∑ j : Fin h, monoDeriv T.val l j / (j : ℕ).factorial * (d (Fin.castAdd h j)).val with hr'
    have hm : ∀ k j : ℕ, 0 ≤ monoDeriv T.val k j := fun k j => by unfold monoDeriv; positivity
    have hrl : ∀ l, |r l| ≤ reach T.val (fun c => (d c).val) l := by
      intro l
      refine (abs_sub _ _).trans (add_le_add_right ?_ _)
      refine (Finset.abs_sum_le_sum_abs _ _).trans (Finset.sum_le_sum fun j _ => ?_)
      rw [abs_mul, abs_of_nonneg (div_nonneg (hm _ _) (by positivity))]
    rw [hp, derivAt_ofFn, Fin.sum_univ_add]
    simp only [Fin.val_castAdd, Fin.val_natAdd]
    have n1 : Near u (7 * h + 1) (∑ j : Fin h, monoDeriv T.val k j * a (Fin.castAdd h j))
        (∑ j : Fin h, monoDeriv T.val k j * ((d (Fin.castAdd h j)).val / (j : ℕ).factorial))
        (∑ j : Fin h, monoDeriv T.val k j * (|(d (Fin.castAdd h j)).val| / (j : ℕ).factorial)) := by
      refine near_sum hu fun j => ?_
      have := (Near.self (u := u) (monoDeriv T.val k j)).mul hu (lo j)
      rw [abs_of_nonneg (hm _ _)] at this
      exact this.mono hu (by omega)
    have n2 : Near u (7 * h + 1) (∑ i : Fin h, monoDeriv T.val k (h + i) * a (Fin.natAdd h i))
        (∑ i : Fin h, monoDeriv T.val k (h + i) * ∑ l, (X i l).val * r l)
        (∑ i : Fin h, monoDeriv T.val k (h + i) * ∑ l, |(X i l).val| * reach T.val (fun c => (d c).val) l) := by
      refine near_sum hu fun i => ?_
      have := (Near.self (u := u) (monoDeriv T.val k (h + i))).mul hu (hi i)
      rw [abs_of_nonneg (hm _ _)] at this
      exact this.mono hu (by omega)
    set P := ∑ j : Fin h, monoDeriv T.val k j * a (Fin.castAdd h j)
    set Q := ∑ i : Fin h, monoDeriv T.val k (h + i) * a (Fin.natAdd h i)
    set B := ∑ i : Fin h, monoDeriv T.val k (h + i) * ∑ l, |(X i l).val| * reach T.val (fun c => (d c).val) l
    -- what the exact solution misses
    have hex : (∑ j : Fin h, monoDeriv T.val k j * ((d (Fin.castAdd h j)).val / (j : ℕ).factorial)) +
        (∑ i : Fin h, monoDeriv T.val k (h + i) * ∑ l, (X i l).val * r l) - (d (Fin.natAdd h k)).val =
        ∑ l, (∑ i : Fin h, monoDeriv T.val k (h + i) * (X i l).val - (if k = l then 1 else 0)) * r l := by
      simp only [sub_mul, ite_mul, one_mul, zero_mul, Finset.sum_sub_distrib, Finset.sum_ite_eq, Finset.mem_univ, if_true]
      have s1 : ∑ i : Fin h, monoDeriv T.val k (h + i) * ∑ l, (X i l).val * r l =
          ∑ l, (∑ i : Fin h, monoDeriv T.val k (h + i) * (X i l).val) * r l := by
        simp only [Finset.mul_sum, Finset.sum_mul]
        rw [Finset.sum_comm]
        exact Finset.sum_congr rfl fun l _ => Finset.sum_congr rfl fun i _ => by ring
      have s2 : ∑ j : Fin h, monoDeriv T.val k j * ((d (Fin.castAdd h j)).val / (j : ℕ).factorial) =
          ∑ j : Fin h, monoDeriv T.val k j / (j : ℕ).factorial * (d (Fin.castAdd h j)).val :=
        Finset.sum_congr rfl fun j _ => by ring
      rw [s1, s2, hr']
      ring
    have hres : |∑ l, (∑ i : Fin h, monoDeriv T.val k (h + i) * (X i l).val - (if k = l then 1 else 0)) * r l| ≤
        ∑ l, η k l * reach T.val (fun c => (d c).val) l := by
      refine (Finset.abs_sum_le_sum_abs _ _).trans (Finset.sum_le_sum fun l _ => ?_)
      rw [abs_mul]
      exact mul_le_mul (hη k l) (hrl l) (abs_nonneg _) ((abs_nonneg _).trans (hη k l))
    have hk1 : ∑ j : Fin h, monoDeriv T.val k j * (|(d (Fin.castAdd h j)).val| / (j : ℕ).factorial) ≤
        reach T.val (fun c => (d c).val) k := by
      unfold reach
      refine le_trans (le_of_eq ?_) (le_add_of_nonneg_left (abs_nonneg _))
      exact Finset.sum_congr rfl fun j _ => by ring
    have hg : 0 ≤ (1 + u) ^ (7 * h + 1) - 1 := by
      have := one_le_pow₀ (n := 7 * h + 1) (by linarith : (1 : ℝ) ≤ 1 + u)
      linarith
    have n1' := n1.2.trans (mul_le_mul_of_nonneg_left hk1 hg)
    have n2' := n2.2
    rw [← hex] at hres
    rw [mul_add]
    rw [abs_le] at hres n1' n2' ⊢
    constructor <;> linarith [hres.1, hres.2, n1'.1, n1'.2, n2'.1, n2'.2]

/-- **C118**, two consecutive segments. What is required at the end of one and at the beginning of the next are the same
numbers, so the two polynomials differ there by at most the error at the end of the first (`e`, as bounded by
`C118_ends`) and `2h + 1` roundings of the number. -/
theorem C118_joint {rnd : ℝ → ℝ} {u : ℝ} (hr : Rounding rnd u) (hnat : ∀ n : ℕ, n < 2 ^ 53 → rnd n = n)
    {dot : Dot (Fl rnd)} (hdot : DotOk u dot) (h : ℕ) (hh : h ≤ 11) (T T' : Fl rnd) (hT : 1 / 2 ^ 52 ≤ T.val)
    (hT' : 1 / 2 ^ 52 ≤ T'.val) (inv : Matrix (Fin h) (Fin h) (Fl rnd) → Matrix (Fin h) (Fin h) (Fl rnd))
    (M M' : SqMat h (Fl rnd)) (hM : setupMappingMatrixG (flLib rnd) h T = .ok M)
    (hM' : setupMappingMatrixG (flLib rnd) h T' = .ok M') (d d' : Fin (h + h) → Fl rnd)
    (hd : ∀ k, d (Fin.natAdd h k) = d' (Fin.castAdd h k)) (p p' : List ℝ)
    (hp : p = vals (segmentCoeffsG dot (invertMappingMatrixG dot inv M) d))
    (hp' : p' = vals (segmentCoeffsG dot (invertMappingMatrixG dot inv M') d'))
    (X : Matrix (Fin h) (Fin h) (Fl rnd)) (hX : X = inv fun i j => M (Fin.natAdd h i) (Fin.natAdd h j))
    (η : Fin h → Fin h → ℝ)
    (hη : ∀ k l : Fin h, |∑ i : Fin h, monoDeriv T.val k (h + i) * (X i l).val - (if k = l then 1 else 0)| ≤ η k l)
    (k : Fin h) :
    |derivAt p k T.val - derivAt p' k 0| ≤
      ∑ l, η k l * reach T.val (fun c => (d c).val) l +
        ((1 + u) ^ (7 * h + 1) - 1) * (reach T.val (fun c => (d c).val) k +
          ∑ i : Fin h, monoDeriv T.val k (h + i) * ∑ l, |(X i l).val| * reach T.val (fun c => (d c).val) l) +
        ((1 + u) ^ (2 * h + 1) - 1) * |(d (Fin.natAdd h k)).val| := by
  obtain ⟨N, e, g⟩ := C118_ends hr hnat hdot h hh T hT inv
  obtain ⟨N', e', g'⟩ := C118_ends hr hnat hdot h hh T' hT' inv
  rw [e] at hM
  rw [e'] at hM'
  obtain rfl := Res.ok.inj hM
  obtain rfl := Res.ok.inj hM'
  have h1 := (g d p X hp hX).2 η hη k
  have h2 := (g' d' p' _ hp' rfl).1 k
  rw [← hd] at h2
  have := abs_sub_le (derivAt p k T.val) (d (Fin.natAdd h k)).val (derivAt p' k 0)
  rw [abs_sub_comm (d (Fin.natAdd h k)).val] at this
  linarith

/-- A cubic with value 0 and slope 1 at the beginning, value 5 and slope -1 at the end of a segment of duration 1, with
doubles, sums from left to right, and the exact inverse of `[[1, 1], [2, 3]]`. -/
example : ∃ M : SqMat 2 (Fl round53), setupMappingMatrixG (flLib round53) 2 ⟨1⟩ = .ok M ∧
    let p := vals (segmentCoeffsG seqDot (invertMappingMatrixG seqDot
      (fun _ => !![⟨3⟩, ⟨-1⟩; ⟨-2⟩, ⟨1⟩]) M) ![⟨0⟩, ⟨1⟩, ⟨5⟩, ⟨-1⟩])
    |derivAt p 0 1 - 5| ≤ 1 / 10 ^ 12 ∧ |derivAt p 1 1 + 1| ≤ 1 / 10 ^ 12 ∧ |derivAt p 1 0 - 1| ≤ 1 / 10 ^ 14 := by
  obtain ⟨M, e, g⟩ := C118_ends round53_rounding round53_nat (seqDot_ok round53_rounding) 2 (by norm_num) ⟨1⟩ (by norm_num)
    (fun _ => !![⟨3⟩, ⟨-1⟩; ⟨-2⟩, ⟨1⟩])
  refine ⟨M, e, ?_⟩
  intro p
  obtain ⟨h1, h2⟩ := g ![⟨0⟩, ⟨1⟩, ⟨5⟩, ⟨-1⟩] p _ rfl rfl
  have h2 := h2 (fun _ _ => 0) (by
    intro k l
    fin_cases k <;> fin_cases l <;> norm_num [Fin.sum_univ_two, monoDeriv, Nat.descFactorial])
  have a := h2 0
  have b := h2 1
  have c := h1 1
  simp [Fin.sum_univ_two, monoDeriv, Nat.descFactorial, reach, Fin.natAdd, Fin.castAdd] at a b c
  norm_num at a b c ⊢
  exact ⟨a.trans (by norm_num), b.trans (by norm_num), c.trans (by norm_num)⟩

end Verif
