import Verif.Props.LinearOptimization
import Verif.Spec.NonlinearOptimization
import Mathlib.MeasureTheory.Integral.IntervalIntegral.Basic

/-
The trajectory of smallest cost is unique, and scales with the times.
-/
namespace Verif

open Spec Set

set_option linter.unusedSectionVars false

/-- A linear combination of two lists of coefficients. -/
def lc (α β : ℝ) (c c' : List ℝ) : List ℝ := List.zipWith (fun x y => α * x + β * y) c c'

theorem derivAt_lc (α β : ℝ) (c c' : List ℝ) (h : c.length = c'.length) (k : ℕ) (t : ℝ) :
    derivAt (lc α β c c') k t = α * derivAt c k t + β * derivAt c' k t := by
  rw [derivAt_eq_sum, derivAt_eq_sum, derivAt_eq_sum, Finset.mul_sum, Finset.mul_sum]
  have hl : (lc α β c c').length = c.length := by simp [lc, h]
  rw [hl, ← h, ← Finset.sum_add_distrib]
  refine Finset.sum_congr rfl fun i hi => ?_
  have hi' : k + i < c.length := by simp at hi; omega
  have e : (lc α β c c').getD (k + i) 0 = α * c.getD (k + i) 0 + β * c'.getD (k + i) 0 := by
    simp [lc, List.getD_eq_getElem?_getD, hi', show k + i < c'.length by omega]
  rw [e]
  ring

/-- The same for segments of equal duration and for lists of them. -/
def lcSeg (α β : ℝ) (s s' : Segment ℝ) : Segment ℝ :=
  ⟨List.zipWith (fun p q => ⟨lc α β p.coeffs q.coeffs⟩) s.polys s'.polys, s.time, s.N⟩

def lcSegs (α β : ℝ) (a b : List (Segment ℝ)) : List (Segment ℝ) := List.zipWith (lcSeg α β) a b

theorem lcSegs_get {α β : ℝ} {a b : List (Segment ℝ)} (h : a.length = b.length) {i : ℕ} {s : Segment ℝ}
    (hs : (lcSegs α β a b)[i]? = some s) :
    ∃ x y, a[i]? = some x ∧ b[i]? = some y ∧ s = lcSeg α β x y := by
  unfold lcSegs at hs
  rw [List.getElem?_zipWith] at hs
  cases hx : a[i]? with
  | none => rw [hx] at hs; simp at hs
  | some x =>
    cases hy : b[i]? with
    | none => rw [hx, hy] at hs; simp at hs
    | some y =>
      rw [hx, hy] at hs
      simp only [Option.some.injEq] at hs
      exact ⟨x, y, rfl, rfl, hs.symm⟩

theorem shape_length {n dim : ℕ} {times : List ℝ} {a : List (Segment ℝ)} (h : Shape n dim times a) :
    a.length = times.length := by
  rw [← h.durations, List.length_map]

theorem shape_time {n dim : ℕ} {times : List ℝ} {a b : List (Segment ℝ)} (ha : Shape n dim times a)
    (hb : Shape n dim times b) {i : ℕ} {x y : Segment ℝ} (hx : a[i]? = some x) (hy : b[i]? = some y) :
    x.time = y.time := by
  have h1 : (a.map Segment.time)[i]? = some x.time := by rw [List.getElem?_map, hx]; rfl
  have h2 : (b.map Segment.time)[i]? = some y.time := by rw [List.getElem?_map, hy]; rfl
  rw [ha.durations] at h1
  rw [hb.durations, h1, Option.some.injEq] at h2
  exact h2

theorem segDeriv_lcSeg {α β : ℝ} {n dim : ℕ} {x y : Segment ℝ} (hx : x.polys.length = dim)
    (hy : y.polys.length = dim) (cx : ∀ p ∈ x.polys, p.coeffs.length = n)
    (cy : ∀ p ∈ y.polys, p.coeffs.length = n) {d : ℕ} (hd : d < dim) (m : ℕ) (t : ℝ) :
    segDeriv (lcSeg α β x y) d m t = α * segDeriv x d m t + β * segDeriv y d m t := by
  have h1 : d < x.polys.length := by omega
  have h2 : d < y.polys.length := by omega
  unfold segDeriv lcSeg
  simp only [List.getD_eq_getElem?_getD, List.getElem?_zipWith, List.getElem?_eq_getElem h1,
    List.getElem?_eq_getElem h2, Option.getD_some]
  rw [derivAt_lc _ _ _ _ (by rw [cx _ (List.getElem_mem h1), cy _ (List.getElem_mem h2)])]

section
variable {h dim : ℕ} {times : List ℝ} {vertices : List (Vertex ℝ)} {a b : List (Segment ℝ)}

theorem lcSegs_shape (α β : ℝ) {n : ℕ} (ha : Shape n dim times a) (hb : Shape n dim times b) :
    Shape n dim times (lcSegs α β a b) := by
  have hl : a.length = b.length := by rw [shape_length ha, shape_length hb]
  refine ⟨?_, ?_, ?_⟩
  · rw [← ha.durations]
    unfold lcSegs
    apply List.ext_getElem (by simp [hl])
    intro i h1 h2
    simp [lcSeg]
  · intro s hs
    obtain ⟨i, hi⟩ := List.getElem?_of_mem hs
    obtain ⟨x, y, hx, hy, rfl⟩ := lcSegs_get hl hi
    simp [lcSeg, ha.dims x (List.mem_of_getElem? hx), hb.dims y (List.mem_of_getElem? hy)]
  · intro s hs p hp
    obtain ⟨i, hi⟩ := List.getElem?_of_mem hs
    obtain ⟨x, y, hx, hy, rfl⟩ := lcSegs_get hl hi
    obtain ⟨j, hj⟩ := List.getElem?_of_mem hp
    simp only [lcSeg, List.getElem?_zipWith] at hj
    have hxl := ha.dims x (List.mem_of_getElem? hx)
    have hyl := hb.dims y (List.mem_of_getElem? hy)
    cases e1 : x.polys[j]? with
    | none => rw [e1] at hj; simp at hj
    | some p1 =>
      cases e2 : y.polys[j]? with
      | none => rw [e1, e2] at hj; simp at hj
      | some p2 =>
        rw [e1, e2] at hj
        simp only [Option.some.injEq] at hj
        subst hj
        simp [lc, ha.coeffs x (List.mem_of_getElem? hx) p1 (List.mem_of_getElem? e1),
          hb.coeffs y (List.mem_of_getElem? hy) p2 (List.mem_of_getElem? e2)]

theorem lcSegs_deriv (α β : ℝ) {n : ℕ} (ha : Shape n dim times a) (hb : Shape n dim times b) {i : ℕ}
    {s x y : Segment ℝ} (hs : (lcSegs α β a b)[i]? = some s) (hx : a[i]? = some x) (hy : b[i]? = some y)
    {d : ℕ} (hd : d < dim) (m : ℕ) (t : ℝ) :
    segDeriv s d m t = α * segDeriv x d m t + β * segDeriv y d m t := by
  obtain ⟨x', y', hx', hy', rfl⟩ := lcSegs_get (by rw [shape_length ha, shape_length hb]) hs
  rw [hx, Option.some.injEq] at hx'
  rw [hy, Option.some.injEq] at hy'
  subst hx' hy'
  exact segDeriv_lcSeg (ha.dims x (List.mem_of_getElem? hx)) (hb.dims y (List.mem_of_getElem? hy))
    (ha.coeffs x (List.mem_of_getElem? hx)) (hb.coeffs y (List.mem_of_getElem? hy)) hd m t

theorem lcSegs_meets (α β : ℝ) (hαβ : α + β = 1) {n : ℕ} (ha : Shape n dim times a)
    (hb : Shape n dim times b) (ma : MeetsConstraints h dim vertices a)
    (mb : MeetsConstraints h dim vertices b) : MeetsConstraints h dim vertices (lcSegs α β a b) := by
  intro i v hv k hk c hc d hd
  have hl : a.length = b.length := by rw [shape_length ha, shape_length hb]
  obtain ⟨a1, a2⟩ := ma i v hv k hk c hc d hd
  obtain ⟨b1, b2⟩ := mb i v hv k hk c hc d hd
  constructor
  · intro s hs
    obtain ⟨x, y, hx, hy, -⟩ := lcSegs_get hl hs
    rw [lcSegs_deriv α β ha hb hs hx hy hd, a1 x hx, b1 y hy, ← add_mul, hαβ, one_mul]
  · intro j s hj hs
    obtain ⟨x, y, hx, hy, rfl⟩ := lcSegs_get hl hs
    have e1 : (lcSeg α β x y).time = x.time := rfl
    rw [lcSegs_deriv α β ha hb hs hx hy hd, e1, a2 j x hj hx, shape_time ha hb hx hy, b2 j y hj hy, ← add_mul,
      hαβ, one_mul]

theorem lcSegs_continuous (α β : ℝ) {n : ℕ} (ha : Shape n dim times a)
    (hb : Shape n dim times b) (ca : Spec.Continuous h dim a) (cb : Spec.Continuous h dim b) :
    Spec.Continuous h dim (lcSegs α β a b) := by
  intro i s s' hs hs' k hk d hd
  have hl : a.length = b.length := by rw [shape_length ha, shape_length hb]
  obtain ⟨x, y, hx, hy, rfl⟩ := lcSegs_get hl hs
  obtain ⟨x', y', hx', hy', rfl⟩ := lcSegs_get hl hs'
  have e1 : (lcSeg α β x y).time = x.time := rfl
  rw [lcSegs_deriv α β ha hb hs hx hy hd, lcSegs_deriv α β ha hb hs' hx' hy' hd, e1,
    ca i x x' hx hx' k hk d hd, shape_time ha hb hx hy, cb i y y' hy hy' k hk d hd]

end

theorem cost_eq (k : ℕ) (segs : List (Segment ℝ)) :
    cost k segs = (segs.map fun s => (s.polys.map fun p =>
      ∫ t in (0 : ℝ)..s.time, (derivAt p.coeffs k t) ^ 2).sum).sum := by
  unfold cost
  simp only [iteratedDeriv_curve]

theorem integral_parallelogram (c c' : List ℝ) (h : c.length = c'.length) (k : ℕ) (T : ℝ) :
    4 * (∫ t in (0 : ℝ)..T, (derivAt (lc (1 / 2) (1 / 2) c c') k t) ^ 2) +
      (∫ t in (0 : ℝ)..T, (derivAt (lc 1 (-1) c c') k t) ^ 2) =
    2 * (∫ t in (0 : ℝ)..T, (derivAt c k t) ^ 2) + 2 * ∫ t in (0 : ℝ)..T, (derivAt c' k t) ^ 2 := by
  have i1 : ∀ c : List ℝ, IntervalIntegrable (fun t => (derivAt c k t) ^ 2) MeasureTheory.volume 0 T :=
    fun c => ((continuous_derivAt c k).pow 2).intervalIntegrable _ _
  rw [← intervalIntegral.integral_const_mul, ← intervalIntegral.integral_const_mul,
    ← intervalIntegral.integral_const_mul, ← intervalIntegral.integral_add, ← intervalIntegral.integral_add]
  · congr 1
    funext t
    rw [derivAt_lc _ _ _ _ h, derivAt_lc _ _ _ _ h]
    ring
  all_goals first
    | exact (i1 _).const_mul _
    | exact i1 _

theorem polys_parallelogram (k n : ℕ) (T : ℝ) : ∀ (ps qs : List (Poly ℝ)), ps.length = qs.length →
    (∀ p ∈ ps, p.coeffs.length = n) → (∀ p ∈ qs, p.coeffs.length = n) →
    4 * ((List.zipWith (fun p q => (⟨lc (1 / 2) (1 / 2) p.coeffs q.coeffs⟩ : Poly ℝ)) ps qs).map fun p =>
        ∫ t in (0 : ℝ)..T, (derivAt p.coeffs k t) ^ 2).sum +
      ((List.zipWith (fun p q => (⟨lc 1 (-1) p.coeffs q.coeffs⟩ : Poly ℝ)) ps qs).map fun p =>
        ∫ t in (0 : ℝ)..T, (derivAt p.coeffs k t) ^ 2).sum =
    2 * (ps.map fun p => ∫ t in (0 : ℝ)..T, (derivAt p.coeffs k t) ^ 2).sum +
      2 * (qs.map fun p => ∫ t in (0 : ℝ)..T, (derivAt p.coeffs k t) ^ 2).sum := by
  intro ps
  induction ps with
  | nil => intro qs hl _ _; cases qs <;> simp_all
  | cons p ps ih =>
    intro qs hl hp hq
    cases qs with
    | nil => simp at hl
    | cons q qs =>
      have := ih qs (by simpa using hl) (fun x hx => hp x (by simp [hx])) (fun x hx => hq x (by simp [hx]))
      have h1 := integral_parallelogram p.coeffs q.coeffs (by rw [hp p (by simp), hq q (by simp)]) k T
      simp only [List.zipWith_cons_cons, List.map_cons, List.sum_cons]
      linarith

theorem cost_parallelogram (k n dim : ℕ) : ∀ (times : List ℝ) (a b : List (Segment ℝ)),
    Shape n dim times a → Shape n dim times b →
    4 * cost k (lcSegs (1 / 2) (1 / 2) a b) + cost k (lcSegs 1 (-1) a b) = 2 * cost k a + 2 * cost k b := by
  simp only [cost_eq]
  intro times a
  induction a generalizing times with
  | nil =>
    intro b ha hb
    have := shape_length ha
    rw [← shape_length hb] at this
    cases b <;> simp_all [lcSegs]
  | cons x a ih =>
    intro b ha hb
    have hl := (shape_length ha).trans (shape_length hb).symm
    cases b with
    | nil => simp at hl
    | cons y b =>
      have ht : x.time = y.time := shape_time ha hb (i := 0) rfl rfl
      have ha' : Shape n dim (a.map Segment.time) a :=
        ⟨rfl, fun s hs => ha.dims s (by simp [hs]), fun s hs => ha.coeffs s (by simp [hs])⟩
      have hb' : Shape n dim (a.map Segment.time) b := by
        refine ⟨?_, fun s hs => hb.dims s (by simp [hs]), fun s hs => hb.coeffs s (by simp [hs])⟩
        have h1 := ha.durations
        have h2 := hb.durations
        rw [← h1] at h2
        simp only [List.map_cons, List.cons.injEq] at h2
        exact h2.2
      have := ih _ b ha' hb'
      have h1 := polys_parallelogram k n x.time x.polys y.polys
        (by rw [ha.dims x (by simp), hb.dims y (by simp)]) (ha.coeffs x (by simp)) (hb.coeffs y (by simp))
      simp only [lcSegs, List.zipWith_cons_cons, List.map_cons, List.sum_cons, ← ht]
      simp only [lcSegs] at this
      have e : ∀ α β : ℝ, (lcSeg α β x y).time = x.time := fun _ _ => rfl
      have e' : ∀ α β : ℝ, (lcSeg α β x y).polys =
        List.zipWith (fun p q => (⟨lc α β p.coeffs q.coeffs⟩ : Poly ℝ)) x.polys y.polys := fun _ _ => rfl
      simp only [e, e']
      linarith

theorem sum_nonneg_eq_zero (l : List ℝ) (h : ∀ x ∈ l, 0 ≤ x) (hs : l.sum ≤ 0) : ∀ x ∈ l, x = 0 := by
  induction l with
  | nil => simp
  | cons y l ih =>
    have h1 := h y (by simp)
    have h2 : 0 ≤ l.sum := List.sum_nonneg fun x hx => h x (by simp [hx])
    rw [List.sum_cons] at hs
    intro x hx
    rcases List.mem_cons.mp hx with rfl | hx
    · linarith
    · exact ih (fun z hz => h z (by simp [hz])) (by linarith) x hx

theorem integral_sq_nonneg (c : List ℝ) (k : ℕ) {T : ℝ} (hT : 0 ≤ T) :
    0 ≤ ∫ t in (0 : ℝ)..T, (derivAt c k t) ^ 2 :=
  intervalIntegral.integral_nonneg hT fun _ _ => sq_nonneg _

/-- A cost of zero means that the derivative vanishes. -/
theorem deriv_zero_of_cost {k : ℕ} {segs : List (Segment ℝ)} (h0 : ∀ s ∈ segs, 0 < s.time)
    (hc : cost k segs ≤ 0) : ∀ s ∈ segs, ∀ p ∈ s.polys, ∀ t ∈ Icc 0 s.time, derivAt p.coeffs k t = 0 := by
  intro s hs p hp
  rw [cost_eq] at hc
  have hin : ∀ s ∈ segs, ∀ x ∈ (s.polys.map fun p => ∫ t in (0 : ℝ)..s.time, (derivAt p.coeffs k t) ^ 2),
      0 ≤ x := by
    intro s hs x hx
    obtain ⟨p, -, rfl⟩ := List.mem_map.mp hx
    exact integral_sq_nonneg _ _ (h0 s hs).le
  have h1 := sum_nonneg_eq_zero _ (by
    intro x hx
    obtain ⟨s, hs, rfl⟩ := List.mem_map.mp hx
    exact List.sum_nonneg (hin s hs)) hc _ (List.mem_map.mpr ⟨s, hs, rfl⟩)
  have h2 := sum_nonneg_eq_zero _ (hin s hs) h1.le _ (List.mem_map.mpr ⟨p, hp, rfl⟩)
  have hcont : ContinuousOn (fun t => (derivAt p.coeffs k t) ^ 2) (Icc 0 s.time) :=
    ((continuous_derivAt p.coeffs k).pow 2).continuousOn
  intro t ht
  by_contra hne
  have hpos := intervalIntegral.integral_pos (h0 s hs) hcont (fun _ _ => sq_nonneg _)
    ⟨t, ht, by positivity⟩
  linarith

/-- A function whose derivative of order `k` vanishes and whose lower derivatives vanish at one point
vanishes with all derivatives. -/
theorem deriv_zero_all {e : List ℝ} {k : ℕ} {T t0 : ℝ} (hT : 0 < T) (ht0 : t0 ∈ Icc 0 T)
    (hk : ∀ t ∈ Icc 0 T, derivAt e k t = 0) (hl : ∀ m < k, derivAt e m t0 = 0) :
    ∀ m, ∀ t ∈ Icc 0 T, derivAt e m t = 0 := by
  have up : ∀ m, (∀ t ∈ Icc 0 T, derivAt e m t = 0) → ∀ t ∈ Icc 0 T, derivAt e (m + 1) t = 0 := by
    intro m hm t ht
    have h1 : HasDerivWithinAt (fun x => derivAt e m x) (derivAt e (m + 1) t) (Icc 0 T) t :=
      (hasDerivAt_derivAt e m t).hasDerivWithinAt
    have h2 : HasDerivWithinAt (fun x => derivAt e m x) 0 (Icc 0 T) t :=
      (hasDerivWithinAt_const t (Icc 0 T) (0 : ℝ)).congr (fun x hx => hm x hx) (hm t ht)
    exact (uniqueDiffOn_Icc hT t ht).eq_deriv _ h1 h2
  have down : ∀ m < k, (∀ t ∈ Icc 0 T, derivAt e (m + 1) t = 0) → ∀ t ∈ Icc 0 T, derivAt e m t = 0 := by
    intro m hm hz t ht
    have := (convex_Icc (0 : ℝ) T).norm_image_sub_le_of_norm_hasDerivWithin_le (C := 0)
      (f := fun x => derivAt e m x) (f' := fun x => derivAt e (m + 1) x)
      (fun x _ => (hasDerivAt_derivAt e m x).hasDerivWithinAt)
      (fun x hx => by rw [hz x hx]; simp) ht0 ht
    simp only [hl m hm, sub_zero, zero_mul, norm_le_zero_iff] at this
    exact this
  have lower : ∀ j, j ≤ k → ∀ t ∈ Icc 0 T, derivAt e (k - j) t = 0 := by
    intro j
    induction j with
    | zero => intro _; simpa using hk
    | succ j ih =>
      intro hj
      have e1 : k - j = (k - (j + 1)) + 1 := by omega
      have := ih (by omega)
      rw [e1] at this
      exact down _ (by omega) this
  have upper : ∀ j, ∀ t ∈ Icc 0 T, derivAt e (k + j) t = 0 := by
    intro j
    induction j with
    | zero => simpa using hk
    | succ j ih => exact up _ ih
  intro m
  rcases le_total m k with h | h
  · have := lower (k - m) (by omega)
    rwa [show k - (k - m) = m by omega] at this
  · have := upper (m - k)
    rwa [show k + (m - k) = m by omega] at this

theorem lc_sub_zero {c c' : List ℝ} (h : c.length = c'.length)
    (h0 : ∀ m, derivAt (lc 1 (-1) c c') m 0 = 0) : c = c' := by
  apply List.ext_getElem h
  intro i h1 h2
  have := h0 i
  rw [derivAt_lc _ _ _ _ h, derivAt_zero, derivAt_zero] at this
  have hf : (i.factorial : ℝ) ≠ 0 := by exact_mod_cast i.factorial_ne_zero
  have e1 : c.getD i 0 = c[i] := by simp [List.getD_eq_getElem?_getD, h1]
  have e2 : c'.getD i 0 = c'[i] := by simp [List.getD_eq_getElem?_getD, h2]
  rw [e1, e2] at this
  have : (i.factorial : ℝ) * (c[i] - c'[i]) = 0 := by linarith
  rcases mul_eq_zero.mp this with h | h
  · exact absurd h hf
  · linarith

/-- Two feasible trajectories, one of smallest cost, the other not costlier: they are the same. -/
theorem optimum_unique {h dim k : ℕ} (hk : k < h) {times : List ℝ} (h0 : ∀ T ∈ times, 0 < T)
    (hne : times ≠ []) {vertices : List (Vertex ℝ)} (hcount : vertices.length = times.length + 1)
    (hpin : Pinned k vertices) {n : ℕ} {a b : List (Segment ℝ)} (ha : Shape n dim times a)
    (hb : Shape n dim times b) (ma : MeetsConstraints h dim vertices a)
    (mb : MeetsConstraints h dim vertices b) (ca : Spec.Continuous h dim a)
    (cb : Spec.Continuous h dim b)
    (hmin : ∀ segs, Shape n dim times segs → MeetsConstraints h dim vertices segs →
      Spec.Continuous h dim segs → cost k a ≤ cost k segs) (hle : cost k b ≤ cost k a) :
    a.map Segment.polys = b.map Segment.polys := by
  have hl : a.length = b.length := by rw [shape_length ha, shape_length hb]
  have hpar := cost_parallelogram k n dim times a b ha hb
  have hmid := hmin _ (lcSegs_shape (1 / 2) (1 / 2) ha hb) (lcSegs_meets _ _ (by norm_num) ha hb ma mb)
    (lcSegs_continuous _ _ ha hb ca cb)
  set D := lcSegs 1 (-1) a b with hD
  have hDs : Shape n dim times D := lcSegs_shape 1 (-1) ha hb
  have hDt : ∀ s ∈ D, 0 < s.time := by
    intro s hs
    apply h0
    rw [← hDs.durations]
    exact List.mem_map.mpr ⟨s, hs, rfl⟩
  have hz := deriv_zero_of_cost (k := k) (segs := D) hDt (by linarith)
  have hDc : Spec.Continuous h dim D := lcSegs_continuous _ _ ha hb ca cb
  have hDl : D.length = times.length := shape_length hDs
  have hseg : ∀ s ∈ D, ∀ d < dim, ∃ p ∈ s.polys, ∀ m t, segDeriv s d m t = derivAt p.coeffs m t := by
    intro s hs d hd
    have : d < s.polys.length := by rw [hDs.dims s hs]; exact hd
    refine ⟨s.polys[d], List.getElem_mem this, fun m t => ?_⟩
    simp [segDeriv, List.getD_eq_getElem?_getD, this]
  -- all derivatives vanish on a segment if those below `k` do at one point of it
  have spread : ∀ s ∈ D, ∀ t0 ∈ Icc 0 s.time, (∀ d < dim, ∀ m < k, segDeriv s d m t0 = 0) →
      ∀ d < dim, ∀ m, ∀ t ∈ Icc 0 s.time, segDeriv s d m t = 0 := by
    intro s hs t0 ht0 hlow d hd m t ht
    obtain ⟨p, hp, hpe⟩ := hseg s hs d hd
    rw [hpe]
    refine deriv_zero_all (hDt s hs) ht0 (hz s hs p hp) (fun m' hm' => ?_) m t ht
    rw [← hpe]
    exact hlow d hd m' hm'
  obtain ⟨v, hv, hvc⟩ := hpin
  obtain ⟨i0, hi0⟩ := List.getElem?_of_mem hv
  have hi0l : i0 < vertices.length := by
    by_contra hc
    rw [List.getElem?_eq_none (by omega)] at hi0
    simp at hi0
  have hpos : 0 < times.length := List.length_pos_of_ne_nil hne
  let Z : ℕ → Prop := fun i => ∀ s, D[i]? = some s → ∀ d < dim, ∀ m, ∀ t ∈ Icc 0 s.time, segDeriv s d m t = 0
  have mem : ∀ {i : ℕ} {s : Segment ℝ}, D[i]? = some s → s ∈ D := fun h => List.mem_of_getElem? h
  -- the pinned vertex
  have start : ∃ i < D.length, Z i := by
    rcases Nat.lt_or_ge i0 times.length with hlt | hge
    · refine ⟨i0, by omega, fun s hs => spread s (mem hs) 0 ⟨le_refl _, (hDt s (mem hs)).le⟩ ?_⟩
      intro d hd m hm
      obtain ⟨c, hc⟩ := hvc m hm
      obtain ⟨x, y, hx, hy, -⟩ := lcSegs_get hl hs
      rw [lcSegs_deriv 1 (-1) ha hb hs hx hy hd, (ma i0 v hi0 m (by omega) c hc d hd).1 x hx,
        (mb i0 v hi0 m (by omega) c hc d hd).1 y hy]
      ring
    · have hii : i0 = (i0 - 1) + 1 := by omega
      refine ⟨i0 - 1, by omega, fun s hs => spread s (mem hs) s.time ⟨(hDt s (mem hs)).le, le_refl _⟩ ?_⟩
      intro d hd m hm
      obtain ⟨c, hc⟩ := hvc m hm
      obtain ⟨x, y, hx, hy, hxy⟩ := lcSegs_get hl hs
      have e1 : s.time = x.time := by rw [hxy]; rfl
      rw [lcSegs_deriv 1 (-1) ha hb hs hx hy hd, e1, (ma i0 v hi0 m (by omega) c hc d hd).2 _ x hii hx,
        shape_time ha hb hx hy, (mb i0 v hi0 m (by omega) c hc d hd).2 _ y hii hy]
      ring
  have fwd : ∀ i, i + 1 < D.length → Z i → Z (i + 1) := by
    intro i hi hZ s' hs'
    refine spread s' (mem hs') 0 ⟨le_refl _, (hDt s' (mem hs')).le⟩ ?_
    intro d hd m hm
    have hs : D[i]? = some D[i] := List.getElem?_eq_getElem (by omega)
    rw [← hDc i _ s' hs hs' m (by omega) d hd]
    exact hZ _ hs d hd m _ ⟨(hDt _ (mem hs)).le, le_refl _⟩
  have bwd : ∀ i, i + 1 < D.length → Z (i + 1) → Z i := by
    intro i hi hZ s hs
    refine spread s (mem hs) s.time ⟨(hDt s (mem hs)).le, le_refl _⟩ ?_
    intro d hd m hm
    have hs' : D[i + 1]? = some D[i + 1] := List.getElem?_eq_getElem hi
    rw [hDc i s _ hs hs' m (by omega) d hd]
    exact hZ _ hs' d hd m _ ⟨le_refl _, (hDt _ (mem hs')).le⟩
  obtain ⟨i1, hi1, hZ1⟩ := start
  have first : ∀ j, j ≤ i1 → Z (i1 - j) := by
    intro j
    induction j with
    | zero => intro _; exact hZ1
    | succ j ih =>
      intro hj
      refine bwd _ (by omega) ?_
      rw [show i1 - (j + 1) + 1 = i1 - j by omega]
      exact ih (by omega)
  have all : ∀ i, i < D.length → Z i := by
    intro i
    induction i with
    | zero => intro _; simpa using first i1 (le_refl _)
    | succ i ih => intro hi; exact fwd i hi (ih (by omega))
  apply List.ext_getElem (by simpa using hl)
  intro i h1 h2
  simp only [List.length_map] at h1 h2
  simp only [List.getElem_map]
  have hx : a[i]? = some a[i] := List.getElem?_eq_getElem h1
  have hy : b[i]? = some b[i] := List.getElem?_eq_getElem h2
  have hxl := ha.dims _ (List.mem_of_getElem? hx)
  have hyl := hb.dims _ (List.mem_of_getElem? hy)
  have hiD : i < D.length := by rw [hDl, ← shape_length ha]; exact h1
  have hs : D[i]? = some D[i] := List.getElem?_eq_getElem hiD
  apply List.ext_getElem (by rw [hxl, hyl])
  intro d h3 h4
  have hd : d < dim := by omega
  have hc1 := ha.coeffs _ (List.mem_of_getElem? hx) _ (List.getElem_mem h3)
  have hc2 := hb.coeffs _ (List.mem_of_getElem? hy) _ (List.getElem_mem h4)
  have key : (a[i].polys[d]).coeffs = (b[i].polys[d]).coeffs := by
    apply lc_sub_zero (by rw [hc1, hc2])
    intro m
    have := all i hiD _ hs d hd m 0 ⟨le_refl _, (hDt _ (mem hs)).le⟩
    rw [lcSegs_deriv 1 (-1) ha hb hs hx hy hd] at this
    rw [derivAt_lc _ _ _ _ (by rw [hc1, hc2])]
    simpa [segDeriv, List.getD_eq_getElem?_getD, h3, h4] using this
  cases hp : a[i].polys[d]
  cases hq : b[i].polys[d]
  rw [hp, hq] at key
  simp only at key
  rw [key]

/-- Slowing down by the factor `c`. -/
theorem scaleTime_shape {n dim : ℕ} {times : List ℝ} {a : List (Segment ℝ)} (ha : Shape n dim times a)
    (c : ℝ) : Shape n dim (times.map (· * c)) (a.map fun s => s.scaleTime c) := by
  refine ⟨?_, ?_, ?_⟩
  · rw [← ha.durations, List.map_map, List.map_map]
    rfl
  · intro s hs
    obtain ⟨x, hx, rfl⟩ := List.mem_map.mp hs
    simp [Segment.scaleTime, ha.dims x hx]
  · intro s hs p hp
    obtain ⟨x, hx, rfl⟩ := List.mem_map.mp hs
    obtain ⟨q, hq, rfl⟩ := List.mem_map.mp hp
    rw [show (q.scaleInTime (1 / c)).coeffs.length = q.coeffs.length from scaleLoop_length _ _ _]
    exact ha.coeffs x hx q hq

theorem segDeriv_scaleTime (s : Segment ℝ) (c : ℝ) (d m : ℕ) (t : ℝ) :
    segDeriv (s.scaleTime c) d m t = (1 / c) ^ m * segDeriv s d m (1 / c * t) := by
  unfold segDeriv Segment.scaleTime
  by_cases hd : d < s.polys.length
  · simp only [List.getD_eq_getElem?_getD, List.getElem?_map, List.getElem?_eq_getElem hd,
      Option.map_some, Option.getD_some]
    exact derivAt_scaleInTime _ _ _ _
  · have e1 : (s.polys.map fun p => p.scaleInTime (1 / c)).getD d ⟨[]⟩ = ⟨[]⟩ := by
      rw [List.getD_eq_getElem?_getD, List.getElem?_eq_none (by simpa using hd)]; rfl
    have e2 : s.polys.getD d ⟨[]⟩ = ⟨[]⟩ := by
      rw [List.getD_eq_getElem?_getD, List.getElem?_eq_none (by simpa using hd)]; rfl
    simp only [e1, e2]
    simp [derivAt_eq_sum]

theorem scaleTime_get {a : List (Segment ℝ)} {c : ℝ} {i : ℕ} {s : Segment ℝ}
    (hs : (a.map fun s => s.scaleTime c)[i]? = some s) : ∃ x, a[i]? = some x ∧ s = x.scaleTime c := by
  rw [List.getElem?_map] at hs
  cases hx : a[i]? with
  | none => rw [hx] at hs; simp at hs
  | some x => rw [hx] at hs; simp only [Option.map_some, Option.some.injEq] at hs; exact ⟨x, rfl, hs.symm⟩

theorem scaleTime_continuous {h dim : ℕ} {a : List (Segment ℝ)} (ca : Spec.Continuous h dim a) {c : ℝ}
    (hc : c ≠ 0) : Spec.Continuous h dim (a.map fun s => s.scaleTime c) := by
  intro i s s' hs hs' k hk d hd
  obtain ⟨x, hx, rfl⟩ := scaleTime_get hs
  obtain ⟨x', hx', rfl⟩ := scaleTime_get hs'
  have e : 1 / c * (x.scaleTime c).time = x.time := by
    simp only [Segment.scaleTime]; field_simp
  rw [segDeriv_scaleTime, segDeriv_scaleTime, e, mul_zero, ca i x x' hx hx' k hk d hd]

theorem scaleTime_meets {h dim : ℕ} {vertices : List (Vertex ℝ)} (hr : AtRest h vertices)
    {a : List (Segment ℝ)} (ma : MeetsConstraints h dim vertices a) {c : ℝ} (hc : c ≠ 0) :
    MeetsConstraints h dim vertices (a.map fun s => s.scaleTime c) := by
  intro i v hv k hk w hw d hd
  obtain ⟨m1, m2⟩ := ma i v hv k hk w hw d hd
  have key : (1 / c) ^ k * w.getD d 0 = w.getD d 0 := by
    rcases Nat.eq_zero_or_pos k with h0 | h0
    · subst h0; simp
    · have : w.getD d 0 = 0 := by
        rw [List.getD_eq_getElem?_getD]
        cases e : w[d]? with
        | none => rfl
        | some y => exact hr v (List.mem_of_getElem? hv) k h0 hk w hw y (List.mem_of_getElem? e)
      rw [this, mul_zero]
  constructor
  · intro s hs
    obtain ⟨x, hx, rfl⟩ := scaleTime_get hs
    rw [segDeriv_scaleTime, mul_zero, m1 x hx, key]
  · intro j s hj hs
    obtain ⟨x, hx, rfl⟩ := scaleTime_get hs
    have e : 1 / c * (x.scaleTime c).time = x.time := by
      simp only [Segment.scaleTime]; field_simp
    rw [segDeriv_scaleTime, e, m2 j x hj hx, key]

theorem cost_scaleTime (k : ℕ) (a : List (Segment ℝ)) {c : ℝ} (hc : c ≠ 0) :
    cost k (a.map fun s => s.scaleTime c) = c * ((1 / c) ^ k) ^ 2 * cost k a := by
  rw [cost_eq, cost_eq, List.map_map, ← List.sum_map_mul_left]
  congr 1
  refine List.map_congr_left fun s _ => ?_
  simp only [Function.comp_apply, Segment.scaleTime, List.map_map]
  rw [← List.sum_map_mul_left]
  congr 1
  refine List.map_congr_left fun p _ => ?_
  simp only [Function.comp_apply, derivAt_scaleInTime, mul_pow]
  rw [intervalIntegral.integral_const_mul,
    intervalIntegral.integral_comp_mul_left (fun t => (derivAt p.coeffs k t) ^ 2) (one_div_ne_zero hc)]
  have e : 1 / c * (s.time * c) = s.time := by field_simp
  rw [mul_zero, e, smul_eq_mul]
  simp only [one_div, inv_inv]
  ring

/-- The optimum for times multiplied by `c`, all constraints being at rest, is the optimum for the
original times run slower by `c`. -/
theorem optimum_scaled {h dim k : ℕ} (hk : k < h) {times : List ℝ} (h0 : ∀ T ∈ times, 0 < T)
    (hne : times ≠ []) {vertices : List (Vertex ℝ)} (hcount : vertices.length = times.length + 1)
    (hpin : Pinned k vertices) (hr : AtRest h vertices) {c : ℝ} (hc : 0 < c) {n : ℕ}
    {a b : List (Segment ℝ)} (ha : Shape n dim times a)
    (hb : Shape n dim (times.map (· * c)) b) (ma : MeetsConstraints h dim vertices a)
    (mb : MeetsConstraints h dim vertices b) (ca : Spec.Continuous h dim a)
    (cb : Spec.Continuous h dim b)
    (mina : ∀ segs, Shape n dim times segs → MeetsConstraints h dim vertices segs →
      Spec.Continuous h dim segs → cost k a ≤ cost k segs)
    (minb : ∀ segs, Shape n dim (times.map (· * c)) segs → MeetsConstraints h dim vertices segs →
      Spec.Continuous h dim segs → cost k b ≤ cost k segs) :
    b.map Segment.polys = (a.map fun s => s.scaleTime c).map Segment.polys := by
  have hc' : (1 / c : ℝ) ≠ 0 := one_div_ne_zero hc.ne'
  have hback : Shape n dim times (b.map fun s => s.scaleTime (1 / c)) := by
    have := scaleTime_shape hb (1 / c)
    rwa [List.map_map, show ((· * (1 / c)) ∘ (· * c) : ℝ → ℝ) = id by
      funext x; simp only [Function.comp_apply, id]; field_simp, List.map_id] at this
  have h1 := mina _ hback (scaleTime_meets hr mb hc') (scaleTime_continuous cb hc')
  rw [cost_scaleTime k b hc'] at h1
  refine optimum_unique hk ?_ (by simpa using hne) (by simpa using hcount) hpin hb
    (scaleTime_shape ha c) mb (scaleTime_meets hr ma hc.ne') cb (scaleTime_continuous ca hc.ne') minb ?_
  · intro T hT
    obtain ⟨x, hx, rfl⟩ := List.mem_map.mp hT
    exact mul_pos (h0 x hx) hc
  · rw [cost_scaleTime k a hc.ne']
    calc c * ((1 / c) ^ k) ^ 2 * cost k a
        ≤ c * ((1 / c) ^ k) ^ 2 * (1 / c * ((1 / (1 / c)) ^ k) ^ 2 * cost k b) := by
          gcongr
      _ = cost k b := by
          have : (c⁻¹ ^ k) * c ^ k = 1 := by rw [← mul_pow, inv_mul_cancel₀ hc.ne', one_pow]
          simp only [one_div, inv_inv]
          calc c * (c⁻¹ ^ k) ^ 2 * (c⁻¹ * (c ^ k) ^ 2 * cost k b)
              = (c * c⁻¹) * (c⁻¹ ^ k * c ^ k) ^ 2 * cost k b := by ring
            _ = cost k b := by rw [this, mul_inv_cancel₀ hc.ne']; ring

end Verif
