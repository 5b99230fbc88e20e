import Verif.Proofs.RoundedCost
import Verif.Proofs.RoundedTiming

/-
Property C120: the cost reported by the linear optimiser with rounding after every operation.

`dot` stands for the scalar products of Eigen (`Spec.DotOk`) and `pow` for the power function (`Spec.PowOk`).
-/
namespace Verif

open Spec

set_option linter.unusedSectionVars false

/-- With a field and the exact scalar product the definitions used here are those of the model of the linear
optimiser. -/
theorem C120_same_code {K : Type} [Field K] [LinearOrder K] {h : ℕ} (k : ℤ) (T : K) (o : LinOpt h K) :
    computeQuadraticCostJacobianG (fun t e => t ^ e) h k T = computeQuadraticCostJacobian h k T ∧
    o.computeCostG (fun _ a b => a ⬝ᵥ b) (1 / 2) = o.computeCost := by
  constructor
  · unfold computeQuadraticCostJacobianG computeQuadraticCostJacobian
    have : ∀ n k (t : K) i j, costEntryG (fun t e => t ^ e) n k t i j = costEntry n k t i j := by
      intro n k t i j
      unfold costEntryG costEntry
      simp only [Nat.cast_ofNat]
    simp only [this]
  · unfold LinOpt.computeCostG LinOpt.computeCost
    have e : ∀ (Q : SqMat h K) (x : Fin (h + h) → K), (fun j => x ⬝ᵥ fun i => Q i j) ⬝ᵥ x = x ⬝ᵥ Q.mulVec x := by
      intro Q x
      rw [Matrix.dotProduct_mulVec]
      rfl
    simp only [e]
    have s : ∀ l : List (List K), l.flatten.foldl (· + ·) 0 = (l.map List.sum).sum := by
      intro l
      rw [← List.sum_flatten, List.sum_eq_foldl]
    simp only [s]

/-- **C120.** The reported cost is the integral of the squared `k`-th derivative of the stored polynomials, over all
segments and dimensions, up to an error of `4k + q + 5 + 4h + S D` roundings relative to the same integral for the
polynomials with the absolute values of the coefficients (`2h` coefficients, `S` segments, `D` dimensions, `q` roundings
in `pow`). -/
theorem C120_cost {rnd : ℝ → ℝ} {u : ℝ} (hr : Rounding rnd u) (hnat : ∀ n : ℕ, n < 2 ^ 53 → rnd n = n)
    {dot : Dot (Fl rnd)} (hdot : DotOk u dot) {q : ℕ} {pow : Fl rnd → ℕ → Fl rnd} (hpow : PowOk u q pow) {h : ℕ}
    (hN : h + h ≤ 22) (k : ℕ) (hk : k < h + h) (o : LinOpt h (Fl rnd))
    (hs : ∀ s ∈ o.segments, 0 < s.time.val ∧ s.polys.length = o.dimension ∧ ∀ p ∈ s.polys, p.coeffs.length = h + h)
    (hcount : o.nSegments = o.segments.length)
    (hQ : (o.segments.mapM fun s => computeQuadraticCostJacobianG pow h (k : ℕ) s.time) = .ok o.cost) :
    ∃ J, o.computeCostG dot ⟨1 / 2⟩ = .ok J ∧
      |J.val - cost k (o.segments.map stored)| ≤
        ((1 + u) ^ (4 * k + q + 5 + 4 * h + o.segments.length * o.dimension) - 1) *
          cost k (o.segments.map storedAbs) := by
  have hu := rounding_nonneg hr
  have hlen : o.cost.length = o.segments.length := Res.mapM_length hQ
  have hz := cost_zip hQ
  refine ⟨⟨1 / 2⟩ * (((o.cost.zip o.segments).map fun m => (List.range o.dimension).map (costPart dot m)).flatten.foldl
    (· + ·) 0), ?_, ?_⟩
  · unfold LinOpt.computeCostG
    rw [Res.check_of ⟨hcount, by rw [hlen, hcount]⟩, Res.ok_bind, cost_parts dot o hs, Res.ok_bind]
    rfl
  · have hsum := cost_sum hr hnat hdot hpow hN k hk o hs hlen hz
    set S := ((o.cost.zip o.segments).map fun m => (List.range o.dimension).map (costPart dot m)).flatten.foldl
      (· + ·) 0
    obtain ⟨δ, e, b⟩ := rnd_factor hr (1 / 2 * S.val)
    have hv : ((⟨1 / 2⟩ : Fl rnd) * S).val = 1 / 2 * S.val * (1 + δ) := e
    have h3 := (Near.self (u := u) (1 / 2)).mul hu (hsum.mul hu (near_of_factor (u := u) (x := 1) b))
    rw [abs_of_pos (by norm_num : (0 : ℝ) < 1 / 2), abs_one] at h3
    have h4 := h3.2
    rw [hv]
    set C := cost k (o.segments.map stored)
    set B := cost k (o.segments.map storedAbs)
    rw [show 4 * k + q + 5 + 4 * h + o.segments.length * o.dimension =
      0 + (4 * k + q + 4 + 4 * h + o.segments.length * o.dimension + 1) by omega]
    rw [show 1 / 2 * (S.val * (1 * (1 + δ))) - 1 / 2 * (2 * C * 1) = 1 / 2 * S.val * (1 + δ) - C by ring,
      show 1 / 2 * (2 * B * 1) = B by ring] at h4
    exact h4

/-- The power function that rounds the exact result. -/
theorem rounded_pow {rnd : ℝ → ℝ} {u : ℝ} (hr : Rounding rnd u) :
    PowOk u 1 (fun (t : Fl rnd) e => ⟨rnd (t.val ^ e)⟩) := by
  intro t e ht
  have := hr.rel (t.val ^ e)
  rw [abs_of_pos (by positivity : 0 < t.val ^ e)] at this
  simpa using this

/-- A motion from 2 with the constant velocity -3 for two seconds has the cost 18 for the first derivative; with doubles it
is computed to 12 digits. -/
example : ∃ (o : LinOpt 1 (Fl round53)) (J : Fl round53), o.segments = [⟨[⟨[⟨2⟩, ⟨-3⟩]⟩], ⟨2⟩, 2⟩] ∧
    o.computeCostG seqDot ⟨1 / 2⟩ = .ok J ∧ |J.val - 18| ≤ 1 / 10 ^ 12 := by
  set pow : Fl round53 → ℕ → Fl round53 := fun t e => ⟨round53 (t.val ^ e)⟩
  set s : Segment (Fl round53) := ⟨[⟨[⟨2⟩, ⟨-3⟩]⟩], ⟨2⟩, 2⟩ with hs
  obtain ⟨Q, hQ⟩ : ∃ Q : SqMat 1 (Fl round53), computeQuadraticCostJacobianG pow 1 (1 : ℕ) s.time = .ok Q :=
    ⟨_, by
      unfold computeQuadraticCostJacobianG
      rw [Res.check_of (by norm_num), Res.ok_bind, if_neg (by unfold kMaxConvolutionSize; norm_num)]
      rfl⟩
  set o : LinOpt 1 (Fl round53) :=
    ⟨1, 1, [], [s], [⟨2⟩], 2, 1, 0, 0, 0, [], [], [Q], [], []⟩ with ho
  obtain ⟨J, h1, h2⟩ := C120_cost round53_rounding round53_nat (seqDot_ok round53_rounding) (rounded_pow round53_rounding)
    (by norm_num : 1 + 1 ≤ 22) 1 (by norm_num) o
    (by
      intro x hx
      rw [ho, List.mem_singleton] at hx
      subst hx
      refine ⟨by norm_num [hs], rfl, ?_⟩
      simp [hs]) rfl
    (by
      change (do let b ← computeQuadraticCostJacobianG pow 1 (1 : ℕ) s.time; let bs ← pure []; pure (b :: bs)) = Res.ok [Q]
      rw [hQ]
      rfl)
  refine ⟨o, J, rfl, h1, ?_⟩
  have e : ∀ c : Fin (1 + 1) → ℝ, ∫ t in (0 : ℝ)..2, (iteratedDeriv 1 (curve (List.ofFn c)) t) ^ 2 = 2 * c 1 ^ 2 := by
    intro c
    have := costMat_integral 1 1 (by norm_num) (by norm_num) 2 c
    have hl : c ⬝ᵥ (costMat 1 1 (2 : ℝ)).mulVec c = 4 * c 1 ^ 2 := by
      change ∑ i : Fin 2, c i * ∑ j : Fin 2, costMat 1 1 (2 : ℝ) i j * c j = _
      simp only [Fin.sum_univ_two, costMat, costEntry]
      norm_num [baseCoeff_eq, kMaxConvolutionSize]
      ring
    linarith
  have e1 := e ![2, -3]
  have e2 := e ![2, 3]
  norm_num [List.ofFn_succ] at e1 e2
  have c1 : cost 1 (o.segments.map stored) = 18 := by
    simp only [ho, hs, cost, stored, vals, List.map_cons, List.map_nil, List.sum_cons, List.sum_nil, add_zero,
      iteratedDeriv_one]
    exact e1
  have c2 : cost 1 (o.segments.map storedAbs) = 18 := by
    simp only [ho, hs, cost, storedAbs, vals, List.map_cons, List.map_nil, List.sum_cons, List.sum_nil, add_zero]
    norm_num
    exact e2
  rw [c1, c2] at h2
  refine h2.trans ?_
  norm_num [ho]

end Verif
