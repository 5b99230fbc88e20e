import Verif.Proofs.LinOptUnique
import Mathlib.Algebra.Module.LinearMap.Defs

/-
The trajectory of smallest cost depends linearly on the values prescribed at the vertices.
-/
namespace Verif

open Spec Set

set_option linter.unusedSectionVars false

/-- Derivative `m` at `t` of the polynomial with the coefficients `f 0, ..., f (n - 1)`. -/
noncomputable def dvL (n m : ℕ) (t : ℝ) : (ℕ → ℝ) →ₗ[ℝ] ℝ where
  toFun f := derivAt ((List.range n).map f) m t
  map_add' f g := by
    simp only [derivAt_eq_sum, List.length_map, List.length_range]
    rw [← Finset.sum_add_distrib]
    refine Finset.sum_congr rfl fun i hi => ?_
    have : m + i < n := by simp at hi; omega
    simp [List.getD_eq_getElem?_getD, this]
    ring
  map_smul' a f := by
    simp only [derivAt_eq_sum, List.length_map, List.length_range, RingHom.id_apply, smul_eq_mul]
    rw [Finset.mul_sum]
    refine Finset.sum_congr rfl fun i hi => ?_
    have : m + i < n := by simp at hi; omega
    simp [List.getD_eq_getElem?_getD, this]
    ring

theorem dvL_apply (n m : ℕ) (t : ℝ) (f : ℕ → ℝ) : dvL n m t f = derivAt ((List.range n).map f) m t := rfl

theorem dvL_continuous (n m : ℕ) (f : ℕ → ℝ) : _root_.Continuous fun t => dvL n m t f :=
  continuous_derivAt _ _

theorem dvL_coord (n m : ℕ) (t : ℝ) (c : List ℝ) (h : c.length = n) :
    dvL n m t (fun j => c.getD j 0) = derivAt c m t := by
  rw [dvL_apply]
  congr 1
  apply List.ext_getElem (by simp [h])
  intro i h1 h2
  simp [List.getD_eq_getElem?_getD, h2]

theorem dvL_const (n m : ℕ) (t b : ℝ) (hn : 0 < n) :
    dvL n m t (fun j => if j = 0 then b else 0) = if m = 0 then b else 0 := by
  rw [dvL_apply, derivAt_eq_sum]
  simp only [List.length_map, List.length_range]
  have key : ∀ i ∈ Finset.range (n - m), ((m + i).descFactorial m : ℝ) *
      ((List.range n).map fun j => if j = 0 then b else 0).getD (m + i) 0 * t ^ i =
      if m + i = 0 then b else 0 := by
    intro i hi
    have : m + i < n := by simp at hi; omega
    simp only [List.getD_eq_getElem?_getD, List.getElem?_map, List.getElem?_range this, Option.map_some,
      Option.getD_some]
    split
    · have h1 : m = 0 := by omega
      have h2 : i = 0 := by omega
      subst h1; subst h2
      simp
    · simp
  rw [Finset.sum_congr rfl key]
  split
  · rename_i h0
    subst h0
    rw [Finset.sum_eq_single 0]
    · simp
    · intro i _ hi
      simp [hi]
    · intro h; simp at h; omega
  · rename_i h0
    refine Finset.sum_eq_zero fun i _ => ?_
    rw [if_neg (by omega)]

/-- The segments with the given times and coefficients `c i d j`. -/
noncomputable def mkSegs (n dim : ℕ) (times : List ℝ) (c : ℕ → ℕ → ℕ → ℝ) : List (Segment ℝ) :=
  (List.range times.length).map fun i =>
    ⟨(List.range dim).map fun d => ⟨(List.range n).map (c i d)⟩, times.getD i 0, n⟩

/-- The coefficients of a list of segments. -/
noncomputable def cf (a : List (Segment ℝ)) (i d j : ℕ) : ℝ :=
  ((a.getD i ⟨[], 0, 0⟩).polys.getD d ⟨[]⟩).coeffs.getD j 0

theorem mkSegs_get {n dim : ℕ} {times : List ℝ} {c : ℕ → ℕ → ℕ → ℝ} {i : ℕ} {s : Segment ℝ}
    (hs : (mkSegs n dim times c)[i]? = some s) : i < times.length ∧
      s = ⟨(List.range dim).map fun d => ⟨(List.range n).map (c i d)⟩, times.getD i 0, n⟩ := by
  unfold mkSegs at hs
  rw [List.getElem?_map] at hs
  by_cases hi : i < times.length
  · rw [List.getElem?_range hi] at hs
    simp only [Option.map_some, Option.some.injEq] at hs
    exact ⟨hi, hs.symm⟩
  · rw [List.getElem?_eq_none (by simpa using hi)] at hs
    simp at hs

theorem mkSegs_shape (n dim : ℕ) (times : List ℝ) (c : ℕ → ℕ → ℕ → ℝ) :
    Shape n dim times (mkSegs n dim times c) := by
  refine ⟨?_, ?_, ?_⟩
  · unfold mkSegs
    apply List.ext_getElem (by simp)
    intro i h1 h2
    simp [List.getD_eq_getElem?_getD, h2]
  · intro s hs
    obtain ⟨i, -, rfl⟩ := List.mem_map.mp hs
    simp
  · intro s hs p hp
    obtain ⟨i, -, rfl⟩ := List.mem_map.mp hs
    obtain ⟨d, -, rfl⟩ := List.mem_map.mp hp
    simp

theorem mkSegs_deriv {n dim : ℕ} {times : List ℝ} {c : ℕ → ℕ → ℕ → ℝ} {i : ℕ} {s : Segment ℝ}
    (hs : (mkSegs n dim times c)[i]? = some s) {d : ℕ} (hd : d < dim) (m : ℕ) (t : ℝ) :
    segDeriv s d m t = dvL n m t (c i d) := by
  obtain ⟨-, rfl⟩ := mkSegs_get hs
  unfold segDeriv
  simp [List.getD_eq_getElem?_getD, hd, dvL_apply]

section
variable {n dim : ℕ} {times : List ℝ} {a : List (Segment ℝ)}

theorem cf_deriv (ha : Shape n dim times a) {i : ℕ} {s : Segment ℝ} (hs : a[i]? = some s) {d : ℕ}
    (hd : d < dim) (m : ℕ) (t : ℝ) : segDeriv s d m t = dvL n m t (cf a i d) := by
  have hm : s ∈ a := List.mem_of_getElem? hs
  have h1 := ha.dims s hm
  have h2 : d < s.polys.length := by omega
  have h3 := ha.coeffs s hm s.polys[d] (List.getElem_mem h2)
  have e : cf a i d = fun j => s.polys[d].coeffs.getD j 0 := by
    funext j
    unfold cf
    simp [List.getD_eq_getElem?_getD, hs, h2]
  rw [e, dvL_coord _ _ _ _ h3]
  unfold segDeriv
  simp [List.getD_eq_getElem?_getD, h2]

theorem shape_time_getD (ha : Shape n dim times a) {i : ℕ} {s : Segment ℝ} (hs : a[i]? = some s) :
    s.time = times.getD i 0 := by
  rw [← ha.durations]
  simp [List.getD_eq_getElem?_getD, hs]

theorem shape_some (ha : Shape n dim times a) {i : ℕ} (hi : i < times.length) : ∃ s, a[i]? = some s := by
  have : i < a.length := by rw [shape_length ha]; exact hi
  exact ⟨a[i], List.getElem?_eq_getElem this⟩

/-- The cost in terms of the coefficients. -/
theorem cost_cf (k : ℕ) (ha : Shape n dim times a) :
    cost k a = ∑ i ∈ Finset.range times.length, ∑ d ∈ Finset.range dim,
      ∫ t in (0 : ℝ)..times.getD i 0, (dvL n k t (cf a i d)) ^ 2 := by
  rw [cost_eq]
  have e : (a.map fun s => (s.polys.map fun p => ∫ t in (0 : ℝ)..s.time, (derivAt p.coeffs k t) ^ 2).sum) =
      (List.range times.length).map fun i => ∑ d ∈ Finset.range dim,
        ∫ t in (0 : ℝ)..times.getD i 0, (dvL n k t (cf a i d)) ^ 2 := by
    have hl := shape_length ha
    apply List.ext_getElem (by simp [hl])
    intro i h1 h2
    have hi : i < a.length := by simpa using h1
    have hs : a[i]? = some a[i] := List.getElem?_eq_getElem hi
    simp only [List.getElem_map, List.getElem_range]
    rw [shape_time_getD ha hs]
    have hd := ha.dims a[i] (List.getElem_mem hi)
    have e2 : (a[i].polys.map fun p => ∫ t in (0 : ℝ)..times.getD i 0, (derivAt p.coeffs k t) ^ 2) =
        (List.range dim).map fun d => ∫ t in (0 : ℝ)..times.getD i 0, (dvL n k t (cf a i d)) ^ 2 := by
      apply List.ext_getElem (by simp [hd])
      intro d g1 g2
      have hdd : d < dim := by simpa using g2
      have hdp : d < a[i].polys.length := by simpa using g1
      simp only [List.getElem_map, List.getElem_range]
      congr 1
      funext t
      rw [← cf_deriv ha hs hdd k t]
      unfold segDeriv
      simp [List.getD_eq_getElem?_getD, hdp]
    rw [e2]
    rfl
  rw [e]
  rfl

theorem cf_mkSegs (c : ℕ → ℕ → ℕ → ℝ) {i d : ℕ} (hi : i < times.length) (hd : d < dim) (m : ℕ) (t : ℝ) :
    dvL n m t (cf (mkSegs n dim times c) i d) = dvL n m t (c i d) := by
  obtain ⟨s, hs⟩ := shape_some (mkSegs_shape n dim times c) hi
  rw [← cf_deriv (mkSegs_shape n dim times c) hs hd, mkSegs_deriv hs hd]

theorem cost_mkSegs (k : ℕ) (c : ℕ → ℕ → ℕ → ℝ) :
    cost k (mkSegs n dim times c) = ∑ i ∈ Finset.range times.length, ∑ d ∈ Finset.range dim,
      ∫ t in (0 : ℝ)..times.getD i 0, (dvL n k t (c i d)) ^ 2 := by
  rw [cost_cf k (mkSegs_shape n dim times c)]
  refine Finset.sum_congr rfl fun i hi => Finset.sum_congr rfl fun d hd => ?_
  congr 1
  funext t
  rw [cf_mkSegs c (by simpa using hi) (by simpa using hd)]

end

/-- The constraint of order `q` at vertex `i`. -/
def pinAt (vertices : List (Vertex ℝ)) (i q : ℕ) : Option (List ℝ) :=
  vertices[i]?.bind fun v => v.getConstraint (q : ℕ)

/-- A variation of one dimension that keeps the constraints: `e i` are the coefficients of segment `i`. -/
structure Adm1 (h : ℕ) (vertices : List (Vertex ℝ)) (times : List ℝ) (n : ℕ) (e : ℕ → ℕ → ℝ) : Prop where
  left : ∀ i q, q < h → (pinAt vertices i q).isSome → i < times.length → dvL n q 0 (e i) = 0
  right : ∀ i q, q < h → (pinAt vertices (i + 1) q).isSome → i < times.length →
    dvL n q (times.getD i 0) (e i) = 0
  cont : ∀ i, i + 1 < times.length → ∀ q < h, dvL n q (times.getD i 0) (e i) = dvL n q 0 (e (i + 1))

theorem meets_iff {h n dim : ℕ} {times : List ℝ} {a : List (Segment ℝ)} {vertices : List (Vertex ℝ)}
    (ha : Shape n dim times a) : MeetsConstraints h dim vertices a ↔
      ∀ i q, q < h → ∀ c, pinAt vertices i q = some c → ∀ d < dim,
        (i < times.length → dvL n q 0 (cf a i d) = c.getD d 0) ∧
        (∀ j, i = j + 1 → j < times.length → dvL n q (times.getD j 0) (cf a j d) = c.getD d 0) := by
  constructor
  · intro hm i q hq c hc d hd
    unfold pinAt at hc
    rw [Option.bind_eq_some_iff] at hc
    obtain ⟨v, hv, hc⟩ := hc
    obtain ⟨m1, m2⟩ := hm i v hv q hq c hc d hd
    refine ⟨fun hi => ?_, fun j hij hj => ?_⟩
    · obtain ⟨s, hs⟩ := shape_some ha hi
      rw [← cf_deriv ha hs hd]
      exact m1 s hs
    · obtain ⟨s, hs⟩ := shape_some ha hj
      rw [← shape_time_getD ha hs, ← cf_deriv ha hs hd]
      exact m2 j s hij hs
  · intro hm i v hv q hq c hc d hd
    obtain ⟨m1, m2⟩ := hm i q hq c (by unfold pinAt; rw [hv]; exact hc) d hd
    have hlt : ∀ {j : ℕ} {s : Segment ℝ}, a[j]? = some s → j < times.length := by
      intro j s hs
      rw [← shape_length ha]
      exact (List.getElem?_eq_some_iff.mp hs).1
    refine ⟨fun s hs => ?_, fun j s hij hs => ?_⟩
    · rw [cf_deriv ha hs hd]
      exact m1 (hlt hs)
    · rw [cf_deriv ha hs hd, shape_time_getD ha hs]
      exact m2 j hij (hlt hs)

theorem continuous_iff {h n dim : ℕ} {times : List ℝ} {a : List (Segment ℝ)} (ha : Shape n dim times a) :
    Spec.Continuous h dim a ↔ ∀ i, i + 1 < times.length → ∀ q < h, ∀ d < dim,
      dvL n q (times.getD i 0) (cf a i d) = dvL n q 0 (cf a (i + 1) d) := by
  constructor
  · intro hc i hi q hq d hd
    obtain ⟨s, hs⟩ := shape_some ha (show i < times.length by omega)
    obtain ⟨s', hs'⟩ := shape_some ha hi
    rw [← shape_time_getD ha hs, ← cf_deriv ha hs hd, ← cf_deriv ha hs' hd]
    exact hc i s s' hs hs' q hq d hd
  · intro hc i s s' hs hs' q hq d hd
    rw [cf_deriv ha hs hd, cf_deriv ha hs' hd, shape_time_getD ha hs]
    refine hc i ?_ q hq d hd
    rw [← shape_length ha]
    exact (List.getElem?_eq_some_iff.mp hs').1

theorem integral_expand (n k : ℕ) (T ε : ℝ) (x y : ℕ → ℝ) :
    (∫ t in (0 : ℝ)..T, (dvL n k t (x + ε • y)) ^ 2) = (∫ t in (0 : ℝ)..T, (dvL n k t x) ^ 2) +
      2 * ε * (∫ t in (0 : ℝ)..T, dvL n k t x * dvL n k t y) +
      ε ^ 2 * ∫ t in (0 : ℝ)..T, (dvL n k t y) ^ 2 := by
  have c1 := dvL_continuous n k x
  have c2 := dvL_continuous n k y
  rw [← intervalIntegral.integral_const_mul, ← intervalIntegral.integral_const_mul,
    ← intervalIntegral.integral_add, ← intervalIntegral.integral_add]
  · congr 1
    funext t
    rw [map_add, map_smul, smul_eq_mul]
    ring
  · exact (((c1.pow 2)).add (continuous_const.mul (c1.mul c2))).intervalIntegrable _ _
  · exact (continuous_const.mul (c2.pow 2)).intervalIntegrable _ _
  · exact (c1.pow 2).intervalIntegrable _ _
  · exact (continuous_const.mul (c1.mul c2)).intervalIntegrable _ _

theorem zero_of_quadratic {B Q : ℝ} (hQ : 0 ≤ Q) (h : ∀ ε : ℝ, 0 ≤ 2 * ε * B + ε ^ 2 * Q) : B = 0 := by
  by_contra hB
  have h1 := h (-B / (Q + 1))
  have hp : 0 < Q + 1 := by linarith
  have e : 2 * (-B / (Q + 1)) * B + (-B / (Q + 1)) ^ 2 * Q = -(B ^ 2 * (Q + 2)) / (Q + 1) ^ 2 := by
    field_simp
    ring
  rw [e] at h1
  have h2 : 0 < B ^ 2 * (Q + 2) := by positivity
  have h3 : -(B ^ 2 * (Q + 2)) / (Q + 1) ^ 2 < 0 := div_neg_of_neg_of_pos (by linarith) (by positivity)
  linarith

/-- The trajectory of smallest cost is orthogonal to all variations, dimension by dimension. -/
theorem optimum_stationary {h k n dim : ℕ} {times : List ℝ} (h0 : ∀ T ∈ times, 0 < T)
    {vertices : List (Vertex ℝ)} {a : List (Segment ℝ)} (ha : Shape n dim times a)
    (ma : MeetsConstraints h dim vertices a) (ca : Spec.Continuous h dim a)
    (hmin : ∀ segs, Shape n dim times segs → MeetsConstraints h dim vertices segs →
      Spec.Continuous h dim segs → cost k a ≤ cost k segs) {e : ℕ → ℕ → ℝ}
    (he : Adm1 h vertices times n e) {d : ℕ} (hd : d < dim) :
    ∑ i ∈ Finset.range times.length, ∫ t in (0 : ℝ)..times.getD i 0,
      dvL n k t (cf a i d) * dvL n k t (e i) = 0 := by
  have hT : ∀ i, i < times.length → 0 ≤ times.getD i 0 := by
    intro i hi
    have := h0 times[i] (List.getElem_mem hi)
    simp [List.getD_eq_getElem?_getD, hi, this.le]
  refine zero_of_quadratic (Q := ∑ i ∈ Finset.range times.length,
    ∫ t in (0 : ℝ)..times.getD i 0, (dvL n k t (e i)) ^ 2) ?_ ?_
  · refine Finset.sum_nonneg fun i hi => ?_
    exact intervalIntegral.integral_nonneg (hT i (by simpa using hi)) fun _ _ => sq_nonneg _
  intro ε
  set c : ℕ → ℕ → ℕ → ℝ := fun i d' => if d' = d then cf a i d + ε • e i else cf a i d' with hc
  have hsh := mkSegs_shape n dim times c
  have hcd : ∀ i d' m t, dvL n m t (c i d') = dvL n m t (cf a i d') + if d' = d then ε * dvL n m t (e i) else 0 := by
    intro i d' m t
    rw [hc]
    dsimp only
    split
    · rename_i h1
      rw [map_add, map_smul, smul_eq_mul, h1]
    · simp
  have h1 := hmin _ hsh ?_ ?_
  · rw [cost_mkSegs, cost_cf k ha] at h1
    have key : (∑ i ∈ Finset.range times.length, ∑ d' ∈ Finset.range dim,
          ∫ t in (0 : ℝ)..times.getD i 0, (dvL n k t (c i d')) ^ 2) =
        (∑ i ∈ Finset.range times.length, ∑ d' ∈ Finset.range dim,
          ∫ t in (0 : ℝ)..times.getD i 0, (dvL n k t (cf a i d')) ^ 2) +
        (2 * ε * (∑ i ∈ Finset.range times.length, ∫ t in (0 : ℝ)..times.getD i 0,
          dvL n k t (cf a i d) * dvL n k t (e i)) +
        ε ^ 2 * ∑ i ∈ Finset.range times.length, ∫ t in (0 : ℝ)..times.getD i 0, (dvL n k t (e i)) ^ 2) := by
      rw [Finset.mul_sum, Finset.mul_sum, ← Finset.sum_add_distrib, ← Finset.sum_add_distrib]
      refine Finset.sum_congr rfl fun i _ => ?_
      have hmem : d ∈ Finset.range dim := by simpa using hd
      rw [← Finset.add_sum_erase _ _ hmem, ← Finset.add_sum_erase (Finset.range dim)
        (fun d' => ∫ t in (0 : ℝ)..times.getD i 0, (dvL n k t (cf a i d')) ^ 2) hmem]
      have e1 : ∑ x ∈ (Finset.range dim).erase d, (∫ t in (0 : ℝ)..times.getD i 0, (dvL n k t (c i x)) ^ 2) =
          ∑ x ∈ (Finset.range dim).erase d, ∫ t in (0 : ℝ)..times.getD i 0, (dvL n k t (cf a i x)) ^ 2 := by
        refine Finset.sum_congr rfl fun x hx => ?_
        congr 1
        funext t
        rw [hcd, if_neg (Finset.ne_of_mem_erase hx), add_zero]
      have e2 : c i d = cf a i d + ε • e i := by rw [hc]; simp
      rw [e1, e2, integral_expand]
      ring
    rw [key] at h1
    linarith
  · rw [meets_iff hsh]
    intro i q hq w hw d' hd'
    obtain ⟨m1, m2⟩ := (meets_iff ha).mp ma i q hq w hw d' hd'
    refine ⟨fun hi => ?_, fun j hij hj => ?_⟩
    · rw [cf_mkSegs c hi hd', hcd, m1 hi, he.left i q hq (by rw [hw]; rfl) hi]
      simp
    · subst hij
      rw [cf_mkSegs c hj hd', hcd, m2 j rfl hj, he.right j q hq (by rw [hw]; rfl) hj]
      simp
  · rw [continuous_iff hsh]
    intro i hi q hq d' hd'
    rw [cf_mkSegs c (by omega) hd', cf_mkSegs c hi hd', hcd, hcd, he.cont i hi q hq,
      (continuous_iff ha).mp ca i hi q hq d' hd']

/-- Superposition: `ι` problems with the same times and the same constrained orders, and a further problem
whose prescribed values are combinations of those of the problems, plus `β` for the positions. Its
trajectory of smallest cost is the combination of theirs. -/
theorem optimum_combination {ι : Type} [Fintype ι] {h k n m : ℕ} (hk : k < h) (hn : 0 < n) {times : List ℝ}
    (h0 : ∀ T ∈ times, 0 < T) (hne : times ≠ [])
    (D : ι → ℕ) (verts : ι → List (Vertex ℝ)) (a : ι → List (Segment ℝ))
    (ha : ∀ s, Shape n (D s) times (a s)) (ma : ∀ s, MeetsConstraints h (D s) (verts s) (a s))
    (ca : ∀ s, Spec.Continuous h (D s) (a s))
    (hmin : ∀ s segs, Shape n (D s) times segs → MeetsConstraints h (D s) (verts s) segs →
      Spec.Continuous h (D s) segs → cost k (a s) ≤ cost k segs)
    {verts' : List (Vertex ℝ)} (hcount : verts'.length = times.length + 1) (hpin : Pinned k verts')
    {b : List (Segment ℝ)} (hb : Shape n m times b) (mb : MeetsConstraints h m verts' b)
    (cb : Spec.Continuous h m b)
    (minb : ∀ segs, Shape n m times segs → MeetsConstraints h m verts' segs →
      Spec.Continuous h m segs → cost k b ≤ cost k segs)
    (α : ι → ℕ → ℕ → ℝ) (β : ℕ → ℝ) (hβ : k = 0 → ∀ d, β d = 0)
    (hpat : ∀ s i q, q < h → (pinAt (verts s) i q).isSome = (pinAt verts' i q).isSome)
    (hval : ∀ i q, q < h → ∀ c, pinAt verts' i q = some c → ∀ d < m, c.getD d 0 =
      ∑ s, ∑ j ∈ Finset.range (D s), α s d j * ((pinAt (verts s) i q).getD []).getD j 0 +
        if q = 0 then β d else 0) :
    ∀ i < times.length, ∀ d < m, ∀ q t, dvL n q t (cf b i d) =
      ∑ s, ∑ j ∈ Finset.range (D s), α s d j * dvL n q t (cf (a s) i j) + if q = 0 then β d else 0 := by
  set x : ℕ → ℕ → ℕ → ℝ := fun i d => ∑ s, ∑ j ∈ Finset.range (D s), α s d j • cf (a s) i j +
    fun j => if j = 0 then β d else 0 with hx
  have hxd : ∀ i d q t, dvL n q t (x i d) =
      ∑ s, ∑ j ∈ Finset.range (D s), α s d j * dvL n q t (cf (a s) i j) + if q = 0 then β d else 0 := by
    intro i d q t
    rw [hx]
    dsimp only
    rw [map_add, map_sum, dvL_const n q t _ hn]
    congr 1
    refine Finset.sum_congr rfl fun s _ => ?_
    rw [map_sum]
    refine Finset.sum_congr rfl fun j _ => ?_
    rw [map_smul, smul_eq_mul]
  have hsx := mkSegs_shape n m times x
  have hsome : ∀ s i q, q < h → ∀ c, pinAt verts' i q = some c → ∃ w, pinAt (verts s) i q = some w := by
    intro s i q hq c hc
    have := hpat s i q hq
    rw [hc] at this
    exact Option.isSome_iff_exists.mp this
  have mx : MeetsConstraints h m verts' (mkSegs n m times x) := by
    rw [meets_iff hsx]
    intro i q hq c hc d hd
    rw [hval i q hq c hc d hd]
    refine ⟨fun hi => ?_, fun j hij hj => ?_⟩
    · rw [cf_mkSegs x hi hd, hxd]
      congr 1
      refine Finset.sum_congr rfl fun s _ => Finset.sum_congr rfl fun j hj => ?_
      obtain ⟨w, hw⟩ := hsome s i q hq c hc
      rw [((meets_iff (ha s)).mp (ma s) i q hq w hw j (by simpa using hj)).1 hi, hw]
      rfl
    · rw [cf_mkSegs x hj hd, hxd]
      congr 1
      refine Finset.sum_congr rfl fun s _ => Finset.sum_congr rfl fun l hl => ?_
      obtain ⟨w, hw⟩ := hsome s i q hq c hc
      rw [((meets_iff (ha s)).mp (ma s) i q hq w hw l (by simpa using hl)).2 j hij hj, hw]
      rfl
  have cx : Spec.Continuous h m (mkSegs n m times x) := by
    rw [continuous_iff hsx]
    intro i hi q hq d hd
    rw [cf_mkSegs x (by omega) hd, cf_mkSegs x hi hd, hxd, hxd]
    congr 1
    refine Finset.sum_congr rfl fun s _ => Finset.sum_congr rfl fun j hj => ?_
    rw [(continuous_iff (ha s)).mp (ca s) i hi q hq j (by simpa using hj)]
  -- the difference is a variation
  have hadm : ∀ d < m, Adm1 h verts' times n fun i => cf b i d - x i d := by
    intro d hd
    refine ⟨fun i q hq hp hi => ?_, fun i q hq hp hi => ?_, fun i hi q hq => ?_⟩
    · obtain ⟨c, hc⟩ := Option.isSome_iff_exists.mp hp
      have e1 := ((meets_iff hb).mp mb i q hq c hc d hd).1 hi
      have e2 := ((meets_iff hsx).mp mx i q hq c hc d hd).1 hi
      rw [cf_mkSegs x hi hd] at e2
      rw [map_sub, e1, e2, sub_self]
    · obtain ⟨c, hc⟩ := Option.isSome_iff_exists.mp hp
      have e1 := ((meets_iff hb).mp mb (i + 1) q hq c hc d hd).2 i rfl hi
      have e2 := ((meets_iff hsx).mp mx (i + 1) q hq c hc d hd).2 i rfl hi
      rw [cf_mkSegs x hi hd] at e2
      rw [map_sub, e1, e2, sub_self]
    · have e1 := (continuous_iff hb).mp cb i hi q hq d hd
      have e2 := (continuous_iff hsx).mp cx i hi q hq d hd
      rw [cf_mkSegs x (by omega) hd, cf_mkSegs x hi hd] at e2
      rw [map_sub, map_sub, e1, e2]
  have hadm' : ∀ d < m, ∀ s, Adm1 h (verts s) times n fun i => cf b i d - x i d := by
    intro d hd s
    have h1 := hadm d hd
    exact ⟨fun i q hq hp hi => h1.left i q hq (by rw [← hpat s i q hq]; exact hp) hi,
      fun i q hq hp hi => h1.right i q hq (by rw [← hpat s (i + 1) q hq]; exact hp) hi, h1.cont⟩
  -- it is orthogonal to `x`
  have horth : ∀ d < m, ∑ i ∈ Finset.range times.length, (∫ t in (0 : ℝ)..times.getD i 0,
      dvL n k t (x i d) * dvL n k t (cf b i d - x i d)) = 0 := by
    intro d hd
    have e : ∀ i ∈ Finset.range times.length, (∫ t in (0 : ℝ)..times.getD i 0,
        dvL n k t (x i d) * dvL n k t (cf b i d - x i d)) =
        ∑ s, ∑ j ∈ Finset.range (D s), α s d j * ∫ t in (0 : ℝ)..times.getD i 0,
          dvL n k t (cf (a s) i j) * dvL n k t (cf b i d - x i d) := by
      intro i _
      have c2 := dvL_continuous n k (cf b i d - x i d)
      have e1 : ∀ t, dvL n k t (x i d) * dvL n k t (cf b i d - x i d) =
          ∑ s, ∑ j ∈ Finset.range (D s),
            α s d j * (dvL n k t (cf (a s) i j) * dvL n k t (cf b i d - x i d)) := by
        intro t
        rw [hxd]
        have : (if k = 0 then β d else 0) = 0 := by
          split
          · rename_i hk0; exact hβ hk0 d
          · rfl
        rw [this, add_zero, Finset.sum_mul]
        refine Finset.sum_congr rfl fun s _ => ?_
        rw [Finset.sum_mul]
        refine Finset.sum_congr rfl fun j _ => ?_
        ring
      simp only [e1]
      rw [intervalIntegral.integral_finsetSum]
      · refine Finset.sum_congr rfl fun s _ => ?_
        rw [intervalIntegral.integral_finsetSum]
        · refine Finset.sum_congr rfl fun j _ => ?_
          rw [intervalIntegral.integral_const_mul]
        · intro j _
          exact (continuous_const.mul ((dvL_continuous n k _).mul c2)).intervalIntegrable _ _
      · intro s _
        exact (continuous_finsetSum _ fun j _ =>
          continuous_const.mul ((dvL_continuous n k _).mul c2)).intervalIntegrable _ _
    rw [Finset.sum_congr rfl e, Finset.sum_comm]
    refine Finset.sum_eq_zero fun s _ => ?_
    rw [Finset.sum_comm]
    refine Finset.sum_eq_zero fun j hj => ?_
    rw [← Finset.mul_sum, optimum_stationary h0 (ha s) (ma s) (ca s) (hmin s) (hadm' d hd s)
      (by simpa using hj), mul_zero]
  have hle : cost k (mkSegs n m times x) ≤ cost k b := by
    rw [cost_mkSegs, cost_cf k hb]
    have key : ∀ d < m, (∑ i ∈ Finset.range times.length,
        ∫ t in (0 : ℝ)..times.getD i 0, (dvL n k t (x i d)) ^ 2) ≤
        ∑ i ∈ Finset.range times.length, ∫ t in (0 : ℝ)..times.getD i 0, (dvL n k t (cf b i d)) ^ 2 := by
      intro d hd
      have e : ∀ i ∈ Finset.range times.length,
          (∫ t in (0 : ℝ)..times.getD i 0, (dvL n k t (cf b i d)) ^ 2) =
          (∫ t in (0 : ℝ)..times.getD i 0, (dvL n k t (x i d)) ^ 2) +
          (2 * (∫ t in (0 : ℝ)..times.getD i 0, dvL n k t (x i d) * dvL n k t (cf b i d - x i d)) +
            ∫ t in (0 : ℝ)..times.getD i 0, (dvL n k t (cf b i d - x i d)) ^ 2) := by
        intro i _
        have := integral_expand n k (times.getD i 0) 1 (x i d) (cf b i d - x i d)
        rw [one_smul, add_sub_cancel] at this
        rw [this]
        ring
      rw [Finset.sum_congr rfl e, Finset.sum_add_distrib, Finset.sum_add_distrib, ← Finset.mul_sum,
        horth d hd]
      have : 0 ≤ ∑ i ∈ Finset.range times.length,
          ∫ t in (0 : ℝ)..times.getD i 0, (dvL n k t (cf b i d - x i d)) ^ 2 := by
        refine Finset.sum_nonneg fun i hi => ?_
        refine intervalIntegral.integral_nonneg ?_ fun _ _ => sq_nonneg _
        have hi' : i < times.length := by simpa using hi
        have := h0 times[i] (List.getElem_mem hi')
        simp [List.getD_eq_getElem?_getD, hi', this.le]
      linarith
    rw [Finset.sum_comm, Finset.sum_comm (s := Finset.range times.length) (t := Finset.range m)
      (f := fun i d => ∫ t in (0 : ℝ)..times.getD i 0, (dvL n k t (cf b i d)) ^ 2)]
    exact Finset.sum_le_sum fun d hd => key d (by simpa using hd)
  have hpoly := optimum_unique hk h0 hne hcount hpin hb hsx mb mx cb cx minb hle
  intro i hi d hd q t
  rw [← hxd, ← cf_mkSegs (times := times) x hi hd]
  congr 1
  funext j
  have e : ∀ (l : List (Segment ℝ)), cf l i d j =
      (((l.map Segment.polys).getD i []).getD d ⟨[]⟩).coeffs.getD j 0 := by
    intro l
    unfold cf
    congr 3
    simp only [List.getD_eq_getElem?_getD, List.getElem?_map]
    cases l[i]? <;> rfl
  rw [e, e, hpoly]

end Verif
