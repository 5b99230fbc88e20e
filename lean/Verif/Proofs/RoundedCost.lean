import Verif.Proofs.LinOptMin
import Verif.Proofs.RoundedMapping
import Verif.Model.RoundedCost
import Verif.Spec.RoundedCost

/- Helper lemmas: the cost with rounding. -/
namespace Verif

open Spec

set_option linter.unusedSectionVars false

variable {rnd : ℝ → ℝ} {u : ℝ}

/-- Adding numbers one after the other. -/
theorem near_foldl (h : Rounding rnd u) {m : ℕ} {α : Type} (f : α → Fl rnd) (F A : α → ℝ) (l : List α)
    (hl : ∀ x ∈ l, Near u m (f x).val (F x) (A x)) : ∀ (n : ℕ) (acc : Fl rnd) (X B : ℝ), m ≤ n → Near u n acc.val X B →
      Near u (n + l.length) ((l.map f).foldl (· + ·) acc).val (X + (l.map F).sum) (B + (l.map A).sum) := by
  have hu := rounding_nonneg h
  induction l with
  | nil => intro n acc X B _ hacc; simpa using hacc
  | cons x l ih =>
    intro n acc X B hn hacc
    have hx := (hl x (by simp)).mono hu hn
    have hs : Near u (n + 1) (acc + f x).val (X + F x) (B + A x) := by
      refine ⟨(abs_add_le _ _).trans (add_le_add hacc.1 hx.1), ?_⟩
      have h1 := h.rel (acc.val + (f x).val)
      have h2 : |acc.val + (f x).val - (X + F x)| ≤ ((1 + u) ^ n - 1) * (B + A x) := by
        rw [add_sub_add_comm, mul_add]
        exact (abs_add_le _ _).trans (add_le_add hacc.2 hx.2)
      have h3 : |acc.val + (f x).val| ≤ (1 + u) ^ n * (B + A x) := by
        rw [mul_add]
        exact (abs_add_le _ _).trans (add_le_add hacc.abs_le hx.abs_le)
      have h4 := mul_le_mul_of_nonneg_left h3 hu
      have h5 := abs_sub_le (acc + f x).val (acc.val + (f x).val) (X + F x)
      change |(acc + f x).val - (acc.val + (f x).val)| ≤ _ at h1
      rw [pow_succ]
      linarith
    have := ih (fun y hy => hl y (List.mem_cons_of_mem _ hy)) (n + 1) (acc + f x) _ _ (by omega) hs
    simp only [List.map_cons, List.foldl_cons, List.sum_cons, List.length_cons]
    rw [← add_assoc X, ← add_assoc B, show n + (l.length + 1) = n + 1 + l.length by omega]
    exact this

/-- The entries of the cost matrix. -/
theorem costEntry_near (h : Rounding rnd u) (hnat : ∀ n : ℕ, n < 2 ^ 53 → rnd n = n) {q : ℕ} {pow : Fl rnd → ℕ → Fl rnd}
    (hpow : PowOk u q pow) (n k : ℕ) (hn : n ≤ kMaxConvolutionSize) (hk : k < n) (t : Fl rnd) (ht : 0 < t.val) (i j : ℕ)
    (hi : i < n) (hj : j < n) :
    Near u (4 * k + q + 4) (costEntryG pow n k t i j).val (costEntry n k t.val i j) (costEntry n k t.val i j) := by
  have hu := rounding_nonneg h
  unfold costEntryG costEntry
  dsimp only
  split_ifs with hc
  · set e := (n - 1 - k) * 2 + 1 - (n - 1 - i) - (n - 1 - j) with he
    have he0 : 0 < e := by omega
    have hkm : kMaxConvolutionSize = 22 := rfl
    obtain ⟨θ₁, b1, e1⟩ := baseRow_rounded h kMaxConvolutionSize k i (by omega)
    obtain ⟨θ₂, b2, e2⟩ := baseRow_rounded h kMaxConvolutionSize k j (by omega)
    obtain ⟨θ₃, b3, e3⟩ := close_factor hu (show Close u q (pow t e).val (t.val ^ e) by
      unfold Close
      rw [abs_of_pos (by positivity : 0 < t.val ^ e)]
      exact hpow t e ht)
    change ((baseCoeff k i : Fl rnd)).val = _ at e1
    change ((baseCoeff k j : Fl rnd)).val = _ at e2
    obtain ⟨δ₁, d1, c1⟩ := rnd_factor h ((baseCoeff k i : Fl rnd).val * (baseCoeff k j : Fl rnd).val)
    obtain ⟨δ₂, d2, c2⟩ := rnd_factor h (((baseCoeff k i : Fl rnd) * baseCoeff k j).val * (pow t e).val)
    obtain ⟨δ₃, d3, c3⟩ := rnd_factor h (((baseCoeff k i : Fl rnd) * baseCoeff k j * pow t e).val *
      (((2 : ℕ) : Fl rnd)).val)
    obtain ⟨δ₄, d4, c4⟩ := rnd_factor h (((baseCoeff k i : Fl rnd) * baseCoeff k j * pow t e * ((2 : ℕ) : Fl rnd)).val /
      ((e : ℕ) : Fl rnd).val)
    have n2 : (((2 : ℕ) : Fl rnd)).val = 2 := by
      change rnd ((2 : ℕ) : ℝ) = 2
      rw [hnat 2 (by norm_num)]
      norm_num
    have ne : ((e : ℕ) : Fl rnd).val = e := by
      change rnd ((e : ℕ) : ℝ) = e
      exact hnat e (lt_of_le_of_lt (by omega : e ≤ 100) (by norm_num))
    obtain ⟨a1, ea1, ba1⟩ := factor_mul hu b1 b2
    obtain ⟨a2, ea2, ba2⟩ := factor_mul hu ba1 c1
    obtain ⟨a3, ea3, ba3⟩ := factor_mul hu ba2 b3
    obtain ⟨a4, ea4, ba4⟩ := factor_mul hu ba3 c2
    obtain ⟨a5, ea5, ba5⟩ := factor_mul hu ba4 c3
    obtain ⟨a6, ea6, ba6⟩ := factor_mul hu ba5 c4
    have hv : (baseCoeff k i * baseCoeff k j * pow t e * ((2 : ℕ) : Fl rnd) / ((e : ℕ) : Fl rnd)).val =
        ((i.descFactorial k : ℝ) * (j.descFactorial k : ℝ) * t.val ^ e * 2 / e) * (1 + a6) := by
      change rnd (((baseCoeff k i : Fl rnd) * baseCoeff k j * pow t e * ((2 : ℕ) : Fl rnd)).val /
        ((e : ℕ) : Fl rnd).val) = _
      rw [d4]
      change rnd (((baseCoeff k i : Fl rnd) * baseCoeff k j * pow t e).val * (((2 : ℕ) : Fl rnd)).val) / _ * _ = _
      rw [d3]
      change rnd (((baseCoeff k i : Fl rnd) * baseCoeff k j).val * (pow t e).val) * _ * _ / _ * _ = _
      rw [d2]
      change rnd ((baseCoeff k i : Fl rnd).val * (baseCoeff k j : Fl rnd).val) * _ * _ * _ * _ / _ * _ = _
      rw [d1, e1, e2, e3, n2, ne, ← ea6, ← ea5, ← ea4, ← ea3, ← ea2, ← ea1]
      ring
    rw [hv, baseCoeff_eq (by omega), baseCoeff_eq (by omega)]
    have := near_of_factor (u := u) (x := (i.descFactorial k : ℝ) * (j.descFactorial k : ℝ) * t.val ^ e * 2 / e)
      (factor_mono hu (by omega : _ ≤ 4 * k + q + 4) ba6)
    rwa [abs_of_nonneg (by positivity)] at this
  · have := (Near.self (u := u) 0).mono hu (Nat.zero_le (4 * k + q + 4))
    rwa [abs_zero] at this

/-- The part of the cost of one polynomial. -/
theorem part_near (h : Rounding rnd u) (hnat : ∀ n : ℕ, n < 2 ^ 53 → rnd n = n) {dot : Dot (Fl rnd)} (hdot : DotOk u dot)
    {q : ℕ} {pow : Fl rnd → ℕ → Fl rnd} (hpow : PowOk u q pow) (m k : ℕ) (hm : m + m ≤ 22) (hk : k < m + m) (t : Fl rnd)
    (ht : 0 < t.val) (Q : SqMat m (Fl rnd)) (hQ : computeQuadraticCostJacobianG pow m k t = .ok Q)
    (x : Fin (m + m) → Fl rnd) :
    Near u (4 * k + q + 4 + 4 * m) (dot (m + m) (fun j => dot (m + m) x fun i => Q i j) x).val
      (2 * ∫ s in (0 : ℝ)..t.val, (iteratedDeriv k (curve (List.ofFn fun i => (x i).val)) s) ^ 2)
      (2 * ∫ s in (0 : ℝ)..t.val, (iteratedDeriv k (curve (List.ofFn fun i => |(x i).val|)) s) ^ 2) := by
  have hu := rounding_nonneg h
  have hQe : ∀ i j : Fin (m + m), Near u (4 * k + q + 4) (Q i j).val (costMat m k t.val i j) (costMat m k t.val i j) := by
    intro i j
    unfold computeQuadraticCostJacobianG at hQ
    rw [Res.check_of (by exact_mod_cast hk), Res.ok_bind, if_neg (by unfold kMaxConvolutionSize; omega)] at hQ
    obtain rfl := Res.ok.inj hQ
    exact costEntry_near h hnat hpow _ k hm hk t ht i j i.isLt j.isLt
  have h1 : ∀ j, Near u (4 * k + q + 4 + 2 * m) (dot (m + m) x fun i => Q i j).val
      (∑ i, (x i).val * costMat m k t.val i j) (∑ i, |(x i).val| * costMat m k t.val i j) := fun j =>
    (near_dot hu hdot (fun i => Near.self (u := u) (x i).val) fun i => hQe i j).mono hu (by omega)
  have h2 := (near_dot hu hdot h1 fun i => Near.self (u := u) (x i).val).mono hu
    (by omega : _ ≤ 4 * k + q + 4 + 4 * m)
  have e : ∀ y : Fin (m + m) → ℝ, ∑ j, (∑ i, y i * costMat m k t.val i j) * y j =
      2 * ∫ s in (0 : ℝ)..t.val, (iteratedDeriv k (curve (List.ofFn y)) s) ^ 2 := by
    intro y
    rw [← costMat_integral m k hm hk, Matrix.dotProduct_mulVec]
    rfl
  rw [← e, ← e]
  exact h2

/-- The part of the cost of dimension `d` of a segment with its cost matrix. -/
def costPart {h : ℕ} (dot : Dot (Fl rnd)) (m : SqMat h (Fl rnd) × Segment (Fl rnd)) (d : ℕ) : Fl rnd :=
  dot (h + h) (fun j => dot (h + h) (fun i => (m.2.polys.getD d ⟨[]⟩).coeffs.getD i 0) fun i => m.1 i j)
    (fun i => (m.2.polys.getD d ⟨[]⟩).coeffs.getD i 0)

theorem cost_zip {h : ℕ} {k : ℤ} {pow : Fl rnd → ℕ → Fl rnd} {qs : List (SqMat h (Fl rnd))}
    {segs : List (Segment (Fl rnd))}
    (hQ : (segs.mapM fun s => computeQuadraticCostJacobianG pow h k s.time) = .ok qs) :
    ∀ m ∈ qs.zip segs, computeQuadraticCostJacobianG pow h k m.2.time = .ok m.1 := by
  intro m hm
  obtain ⟨i, hi⟩ := List.mem_iff_getElem?.mp hm
  rw [List.getElem?_zip_eq_some] at hi
  have := Res.mapM_forall₂.mp hQ
  have g := (List.forall₂_iff_get.mp this).2 i (List.getElem?_eq_some_iff.mp hi.2).1
    (List.getElem?_eq_some_iff.mp hi.1).1
  rw [List.get_eq_getElem, List.get_eq_getElem, (List.getElem?_eq_some_iff.mp hi.2).2,
    (List.getElem?_eq_some_iff.mp hi.1).2] at g
  exact g

theorem cost_parts {h : ℕ} (dot : Dot (Fl rnd)) (o : LinOpt h (Fl rnd))
    (hs : ∀ s ∈ o.segments, 0 < s.time.val ∧ s.polys.length = o.dimension ∧ ∀ p ∈ s.polys, p.coeffs.length = h + h) :
    (o.cost.zip o.segments).mapM (fun m =>
      (List.range o.dimension).mapM fun d => do
        let p ← m.2.get d
        let c ← p.getCoefficients 0
        if c.length ≠ h + h then Res.ub
        else
          let x : Fin (h + h) → Fl rnd := fun i => c.getD i 0
          pure (dot (h + h) (fun j => dot (h + h) x fun i => m.1 i j) x)) =
      Res.ok ((o.cost.zip o.segments).map fun m => (List.range o.dimension).map (costPart dot m)) := by
  apply Res.mapM_ok
  intro m hm
  apply Res.mapM_ok
  intro d hd
  have hd := List.mem_range.mp hd
  have hm2 := (List.of_mem_zip hm).2
  obtain ⟨-, h1, h2⟩ := hs _ hm2
  have hpl : d < m.2.polys.length := by omega
  have hp : m.2.polys.getD d ⟨[]⟩ = m.2.polys[d] := by simp [List.getD_eq_getElem?_getD, hpl]
  have hget : m.2.get d = .ok (m.2.polys.getD d ⟨[]⟩) := by
    unfold Segment.get
    rw [Res.check_of (by unfold Segment.D; exact hpl), Res.ok_bind, Res.at'_of_lt hpl, hp]
  have hcl : (m.2.polys.getD d ⟨[]⟩).coeffs.length = h + h := by
    rw [hp]
    exact h2 _ (List.getElem_mem hpl)
  have hgc : (m.2.polys.getD d ⟨[]⟩).getCoefficients 0 = .ok (m.2.polys.getD d ⟨[]⟩).coeffs := by
    unfold Poly.getCoefficients
    rw [Res.check_of (by positivity), Res.ok_bind, if_pos rfl]
    rfl
  rw [hget, Res.ok_bind, hgc, Res.ok_bind, if_neg (by rw [hcl]; simp)]
  rfl

/-- Twice the integral of the squared `k`-th derivative of dimension `d`. -/
noncomputable def partCost (k : ℕ) (s : Segment ℝ) (d : ℕ) : ℝ :=
  2 * ∫ t in (0 : ℝ)..s.time, (iteratedDeriv k (curve (s.polys.getD d ⟨[]⟩).coeffs) t) ^ 2

theorem costPart_near (hr : Rounding rnd u) (hnat : ∀ n : ℕ, n < 2 ^ 53 → rnd n = n)
    {dot : Dot (Fl rnd)} (hdot : DotOk u dot) {q : ℕ} {pow : Fl rnd → ℕ → Fl rnd} (hpow : PowOk u q pow) {h : ℕ}
    (hN : h + h ≤ 22) (k : ℕ) (hk : k < h + h) (m : SqMat h (Fl rnd) × Segment (Fl rnd)) (ht : 0 < m.2.time.val)
    (hq : computeQuadraticCostJacobianG pow h (k : ℕ) m.2.time = .ok m.1) (d : ℕ) (hd : d < m.2.polys.length)
    (hc : ∀ p ∈ m.2.polys, p.coeffs.length = h + h) :
    Near u (4 * k + q + 4 + 4 * h) (costPart dot m d).val (partCost k (stored m.2) d) (partCost k (storedAbs m.2) d) := by
  have hcl : m.2.polys[d].coeffs.length = h + h := hc _ (List.getElem_mem hd)
  have := part_near hr hnat hdot hpow h k hN hk m.2.time ht m.1 hq (fun i => m.2.polys[d].coeffs.getD i 0)
  have e0 : m.2.polys.getD d ⟨[]⟩ = m.2.polys[d] := by simp [List.getD_eq_getElem?_getD, hd]
  have e1 : ((stored m.2).polys.getD d ⟨[]⟩).coeffs = List.ofFn fun i : Fin (h + h) =>
      (m.2.polys[d].coeffs.getD i 0).val := by
    unfold stored
    rw [List.getD_eq_getElem?_getD, List.getElem?_map, List.getElem?_eq_getElem hd, Option.map_some,
      Option.getD_some]
    apply List.ext_getElem (by simp [vals, hcl])
    intro i g1 g2
    have gi : i < m.2.polys[d].coeffs.length := by simpa [vals] using g1
    simp [vals, List.getD_eq_getElem?_getD, gi]
  have e2 : ((storedAbs m.2).polys.getD d ⟨[]⟩).coeffs = List.ofFn fun i : Fin (h + h) =>
      |(m.2.polys[d].coeffs.getD i 0).val| := by
    unfold storedAbs
    rw [List.getD_eq_getElem?_getD, List.getElem?_map, List.getElem?_eq_getElem hd, Option.map_some,
      Option.getD_some]
    apply List.ext_getElem (by simp [vals, hcl])
    intro i g1 g2
    have gi : i < m.2.polys[d].coeffs.length := by simpa [vals] using g1
    simp [vals, List.getD_eq_getElem?_getD, gi]
  unfold costPart partCost
  rw [e0, e1, e2]
  exact this

/-- The sums of the parts are twice the cost. -/
theorem cost_pairs {h : ℕ} (k dim : ℕ) (qs : List (SqMat h (Fl rnd))) (segs : List (Segment (Fl rnd)))
    (hlen : qs.length = segs.length) (g : Segment (Fl rnd) → Segment ℝ)
    (hg : ∀ s ∈ segs, (g s).polys.length = dim) :
    (((qs.zip segs).flatMap (fun m => (List.range dim).map fun d => (m, d))).map fun x =>
      partCost k (g x.1.2) x.2).sum = 2 * cost k (segs.map g) := by
  unfold cost
  rw [List.map_flatMap, List.flatMap_def, List.sum_flatten, List.map_map, List.map_map, ← List.sum_map_mul_left]
  have hseg : segs = (qs.zip segs).map Prod.snd := by rw [List.map_snd_zip (by rw [hlen])]
  conv_rhs => rw [hseg, List.map_map]
  congr 1
  refine List.map_congr_left fun m hm => ?_
  have h1 := hg _ (List.of_mem_zip hm).2
  simp only [Function.comp, List.map_map]
  rw [← List.sum_map_mul_left]
  have : (List.range dim).map (fun d => (g m.2).polys.getD d ⟨[]⟩) = (g m.2).polys := by
    rw [← h1]
    apply List.ext_getElem (by simp)
    intro i g1 g2
    simp [List.getD_eq_getElem?_getD, g2]
  conv_rhs => rw [← this, List.map_map]
  rfl

theorem cost_fold (hr : Rounding rnd u) {h : ℕ} (dot : Dot (Fl rnd)) (k M : ℕ)
    (l : List ((SqMat h (Fl rnd) × Segment (Fl rnd)) × ℕ))
    (hl : ∀ x ∈ l, Near u M (costPart dot x.1 x.2).val (partCost k (stored x.1.2) x.2) (partCost k (storedAbs x.1.2) x.2))
    (h0 : Near u M (0 : Fl rnd).val 0 0) :
    Near u (M + l.length) ((l.map fun (x : (SqMat h (Fl rnd) × Segment (Fl rnd)) × ℕ) => costPart dot x.1 x.2).foldl (fun a b : Fl rnd => a + b) (0 : Fl rnd)).val
      (0 + (l.map fun (x : (SqMat h (Fl rnd) × Segment (Fl rnd)) × ℕ) => partCost k (stored x.1.2) x.2).sum) (0 + (l.map fun (x : (SqMat h (Fl rnd) × Segment (Fl rnd)) × ℕ) => partCost k (storedAbs x.1.2) x.2).sum) := by
  refine near_foldl hr (m := M) _ _ _ l ?_ M 0 0 0 (le_refl M) h0
  exact hl

theorem cost_sum (hr : Rounding rnd u) (hnat : ∀ n : ℕ, n < 2 ^ 53 → rnd n = n)
    {dot : Dot (Fl rnd)} (hdot : DotOk u dot) {q : ℕ} {pow : Fl rnd → ℕ → Fl rnd} (hpow : PowOk u q pow) {h : ℕ}
    (hN : h + h ≤ 22) (k : ℕ) (hk : k < h + h) (o : LinOpt h (Fl rnd))
    (hs : ∀ s ∈ o.segments, 0 < s.time.val ∧ s.polys.length = o.dimension ∧ ∀ p ∈ s.polys, p.coeffs.length = h + h)
    (hlen : o.cost.length = o.segments.length)
    (hz : ∀ m ∈ o.cost.zip o.segments, computeQuadraticCostJacobianG pow h (k : ℕ) m.2.time = .ok m.1) :
    Near u (4 * k + q + 4 + 4 * h + o.segments.length * o.dimension)
      (((o.cost.zip o.segments).map fun m => (List.range o.dimension).map (costPart dot m)).flatten.foldl (· + ·) 0).val
      (2 * cost k (o.segments.map stored)) (2 * cost k (o.segments.map storedAbs)) := by
  have hu := rounding_nonneg hr
  generalize hM : 4 * k + q + 4 + 4 * h = M
  have hnear : ∀ x ∈ (o.cost.zip o.segments).flatMap (fun m => (List.range o.dimension).map fun d => (m, d)),
      Near u M (costPart dot x.1 x.2).val (partCost k (stored x.1.2) x.2)
        (partCost k (storedAbs x.1.2) x.2) := by
    intro x hx
    obtain ⟨m, hm, hx⟩ := List.mem_flatMap.mp hx
    obtain ⟨d, hd, rfl⟩ := List.mem_map.mp hx
    have hd := List.mem_range.mp hd
    obtain ⟨ht, h1, h2⟩ := hs _ (List.of_mem_zip hm).2
    rw [← hM]
    exact costPart_near hr hnat hdot hpow hN k hk m ht (hz m hm) d (by omega) h2
  have hzero : Near u M (0 : Fl rnd).val 0 0 := by
    have := (Near.self (u := u) 0).mono hu (Nat.zero_le M)
    rw [abs_zero] at this
    exact this
  have hsum := cost_fold hr dot k M _ hnear hzero
  have hflat : ((o.cost.zip o.segments).map fun m => (List.range o.dimension).map (costPart dot m)).flatten =
      ((o.cost.zip o.segments).flatMap (fun m => (List.range o.dimension).map fun d => (m, d))).map
        fun x => costPart dot x.1 x.2 := by
    rw [List.map_flatMap, ← List.flatMap_def]
    simp only [List.map_map]
    rfl
  have hll : ((o.cost.zip o.segments).flatMap (fun m => (List.range o.dimension).map fun d => (m, d))).length =
      o.segments.length * o.dimension := by
    rw [List.length_flatMap]
    simp only [List.length_map, List.length_range]
    rw [List.map_const', List.sum_replicate, List.length_zip, hlen, min_self, smul_eq_mul]
  rw [hll, ← hflat, cost_pairs k o.dimension o.cost o.segments hlen stored (fun s hs' => by
      simp [stored, (hs s hs').2.1]),
    cost_pairs k o.dimension o.cost o.segments hlen storedAbs (fun s hs' => by
      simp [storedAbs, (hs s hs').2.1]), zero_add, zero_add] at hsum
  exact hsum

end Verif
