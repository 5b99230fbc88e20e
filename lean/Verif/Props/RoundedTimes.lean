import Verif.Proofs.RoundedTimes

/-
Property C122: the time estimates with rounding after every operation. `Spec.Factor q x y` says that `x` and `y` agree up
to a factor `q`; a rounding with relative error at most `u` changes a number by a factor of at most `1 / (1 - u)`.
`Spec.Orders order` leaves open in which order Eigen adds the squares of a norm, and `Spec.ExpOk u e` allows `e` roundings in
the exponential function of the C library. `Spec.distance` is the Euclidean distance of two lists of numbers, `vals` are the
real numbers stored in a list.
-/
set_option linter.unusedSectionVars false

namespace Verif

open Spec

variable {rnd : ℝ → ℝ} {u : ℝ}

/-- **C122.** With exact numbers the code below is that of the model of vertex.cpp. -/
theorem C122_same_code {K : Type} [Field K] [LinearOrder K] (sq ex : K → K) (vs : List (Vertex K))
    (start goal : List K) (vMax aMax magic timeFactor : K) :
    computeTimeVelocityRampG (fieldTimeLib sq ex) start goal vMax aMax = computeTimeVelocityRamp sq start goal vMax aMax ∧
    estimateSegmentTimesVelocityRampG (fieldTimeLib sq ex) vs vMax aMax =
      estimateSegmentTimesVelocityRamp sq vs vMax aMax timeFactor ∧
    estimateSegmentTimesNfabianG (fieldTimeLib sq ex) vs vMax aMax magic =
      estimateSegmentTimesNfabian sq ex vs vMax aMax magic := by
  have h1 : ∀ a b : List K, computeTimeVelocityRampG (fieldTimeLib sq ex) a b vMax aMax =
      computeTimeVelocityRamp sq a b vMax aMax := fun a b => rfl
  refine ⟨h1 _ _, ?_, rfl⟩
  unfold estimateSegmentTimesVelocityRampG estimateSegmentTimesVelocityRamp
  have h2 : ∀ t : K, (if (fieldTimeLib sq ex).tenth < t then t else (fieldTimeLib sq ex).tenth) = max (1 / 10) t := by
    intro t
    show (if 1 / 10 < t then t else 1 / 10) = max (1 / 10) t
    split
    · next h => rw [max_eq_right h.le]
    · next h => rw [max_eq_left (not_lt.mp h)]
  simp only [h1, h2]

/-- **C122.** For any two positions of the same size, `computeTimeVelocityRamp` with rounding after every operation agrees
with the least duration of a motion from rest at the one to rest at the other within the limits, up to `n + 16` roundings in
dimension `n`; also at the border of the two cases of the code, where rounding may lead into the wrong one. -/
theorem C122_ramp (h : Rounding rnd u) (hu : u < 1) {order : ℕ → AddOrder} (ho : Orders order) (exp : Fl rnd → Fl rnd)
    (a b : List (Fl rnd)) (hab : a.length = b.length) (vMax aMax : Fl rnd) (hv : 0 < vMax.val) (ha : 0 < aMax.val) :
    ∃ t T, computeTimeVelocityRampG (flTimeLib rnd order exp) a b vMax aMax = .ok t ∧
      Factor ((1 - u)⁻¹ ^ (a.length + 16)) t.val T ∧
      ∀ (n : ℕ) (p q : EuclideanSpace ℝ (Fin n)), vals a = List.ofFn (fun i => p i) → vals b = List.ofFn (fun i => q i) →
        IsLeast {T' | ∃ x v, RestToRest p q vMax.val aMax.val T' x v} T := by
  obtain ⟨t, e, hf⟩ := ramp_value h hu ho exp a b hab vMax aMax hv ha
  refine ⟨t, _, e, hf, ?_⟩
  intro n p q hp hq
  rw [hp, hq, distance_ofFn]
  refine ⟨rampTime_achieved p q vMax.val aMax.val hv ha, ?_⟩
  rintro T' ⟨x, v, hr⟩
  exact rampTime_le hr hv ha

/-- **C122.** `estimateSegmentTimesVelocityRamp` returns one time per pair of consecutive vertices: at least the `double`
next to 0.1, and up to `D + 16` roundings the larger of 0.1 s and the exact result of `computeTimeVelocityRamp`, so that
covering the distance in this time needs at most `vMax` up to as many roundings. -/
theorem C122_ramp_times (h : Rounding rnd u) (hu : u < 1) {order : ℕ → AddOrder} (ho : Orders order)
    (exp : Fl rnd → Fl rnd) (D : ℕ) (vs : List (Vertex (Fl rnd))) (h2 : 2 ≤ vs.length)
    (hpos : ∀ v ∈ vs, ∃ c, v.getConstraint 0 = some c ∧ c.length = D) (vMax aMax : Fl rnd) (hv : 0 < vMax.val)
    (ha : 0 < aMax.val) :
    ∃ ts, estimateSegmentTimesVelocityRampG (flTimeLib rnd order exp) vs vMax aMax = .ok ts ∧
      ts.length = vs.length - 1 ∧
      ∀ i (hi : i < ts.length) (h1 : i + 1 < vs.length) (a b : List (Fl rnd)),
        vs[i].getConstraint 0 = some a → vs[i + 1].getConstraint 0 = some b →
        rnd (1 / 10) ≤ ts[i].val ∧
        distance (vals a) (vals b) / vMax.val ≤ (1 - u)⁻¹ ^ (D + 16) * ts[i].val ∧
        ∃ T, computeTimeVelocityRamp Real.sqrt (vals a) (vals b) vMax.val aMax.val = .ok T ∧
          Factor ((1 - u)⁻¹ ^ (D + 16)) ts[i].val (max (1 / 10) T) := by
  have hlen : ∀ v ∈ vs, v.position.length = D := by
    intro v hv
    obtain ⟨c, h1, h2⟩ := hpos v hv
    simp [Vertex.position, h1, h2]
  have hval := fun (v w : Vertex (Fl rnd)) (hv' : v ∈ vs) (hw : w ∈ vs) =>
    ramp_value h hu ho exp v.position w.position (by rw [hlen v hv', hlen w hw]) vMax aMax hv ha
  classical
  choose! g hg using fun v w (hvw : v ∈ vs ∧ w ∈ vs) => hval v w hvw.1 hvw.2
  have hm := mapM_zip_ok (fun v w : Vertex (Fl rnd) => do
      let t ← computeTimeVelocityRampG (flTimeLib rnd order exp) v.position w.position vMax aMax
      pure (if (flTimeLib rnd order exp).tenth < t then t else (flTimeLib rnd order exp).tenth))
    (fun v w => if (flTimeLib rnd order exp).tenth < g v w then g v w else (flTimeLib rnd order exp).tenth) vs
    (fun v hv' w hw => by rw [(hg v w ⟨hv', hw⟩).1]; rfl)
  have hok := (show estimateSegmentTimesVelocityRampG (flTimeLib rnd order exp) vs vMax aMax = _ by
    unfold estimateSegmentTimesVelocityRampG
    rw [Res.check_of h2, Res.ok_bind]).trans hm
  refine ⟨_, hok, by simp, ?_⟩
  intro i hi h1 a b ea eb
  have h0 : i < vs.length := by omega
  have e1 : vs[i].position = a := by simp [Vertex.position, ea]
  have e2 : vs[i + 1].position = b := by simp [Vertex.position, eb]
  have hab : a.length = b.length := by
    rw [← e1, ← e2, hlen _ (List.getElem_mem _), hlen _ (List.getElem_mem _)]
  have hD : a.length = D := by rw [← e1, hlen _ (List.getElem_mem _)]
  have hgi := (hg vs[i] vs[i + 1] ⟨List.getElem_mem _, List.getElem_mem _⟩).2
  rw [e1, e2, hD] at hgi
  simp only [List.getElem_map, List.getElem_zip, List.getElem_tail]
  set t := g vs[i] vs[i + 1] with ht
  have hmax : (if (flTimeLib rnd order exp).tenth < t then t else (flTimeLib rnd order exp).tenth).val =
      max (rnd (1 / 10)) t.val := by
    split
    · next hc =>
      have hc' : rnd (1 / 10) < t.val := hc
      rw [max_eq_right hc'.le]
    · next hc =>
      have hc' : ¬ rnd (1 / 10) < t.val := hc
      rw [max_eq_left (not_lt.mp hc')]
      rfl
  rw [hmax]
  have hd : 0 ≤ distance (vals a) (vals b) := Real.sqrt_nonneg _
  have hR := rampTime_nonneg hd hv ha
  have hα := flα_ge h hu
  have htenth : Factor (flα u ^ (D + 16)) (rnd (1 / 10)) (1 / 10) := by
    have := factor_rnd h hu (x := 1 / 10) (by norm_num)
    rw [← pow_one (flα u)] at this
    exact this.up h hu (by norm_num) (by omega)
  have hfac := htenth.max hgi (by positivity)
  have hT := computeTimeVelocityRamp_ok (vals a) (vals b) (by simp [vals, hab]) vMax.val aMax.val hv ha
  refine ⟨le_max_left _ _, ?_, _, hT, hfac⟩
  have hlow : distance (vals a) (vals b) / vMax.val ≤ rampTime (distance (vals a) (vals b)) vMax.val aMax.val := by
    set d := distance (vals a) (vals b)
    rcases lt_or_ge d (vMax.val ^ 2 / aMax.val) with hc | hc
    · unfold rampTime
      rw [if_pos hc]
      have h3 : d / vMax.val ≤ Real.sqrt (d / aMax.val) := by
        apply Real.le_sqrt_of_sq_le
        rw [div_pow, div_le_div_iff₀ (by positivity) ha]
        rw [lt_div_iff₀ ha] at hc
        nlinarith
      have := Real.sqrt_nonneg (d / aMax.val)
      linarith
    · unfold rampTime
      rw [if_neg (not_lt.mpr hc)]
      have : 0 ≤ vMax.val / aMax.val := by positivity
      linarith
  exact (hlow.trans (le_max_right (1 / 10) _)).trans hfac.2

/-- **C122.** `estimateSegmentTimesNfabian` returns one time per pair of consecutive vertices. Up to `D + 8` roundings it is
at least twice the distance divided by `vMax`, and it is positive where the two positions differ, though equal positions
give 0. It agrees with the exact formula up to `D + e + 11` roundings and a factor that grows with the time itself, since
the exponential function magnifies the error of its argument. -/
theorem C122_nfabian_times (h : Rounding rnd u) (hu : u < 1) {order : ℕ → AddOrder} (ho : Orders order)
    {exp : Fl rnd → Fl rnd} {e : ℕ} (he : ExpOk u e exp) (D : ℕ) (vs : List (Vertex (Fl rnd))) (h2 : 2 ≤ vs.length)
    (hpos : ∀ v ∈ vs, ∃ c, v.getConstraint 0 = some c ∧ c.length = D) (vMax aMax magic : Fl rnd) (hv : 0 < vMax.val)
    (ha : 0 < aMax.val) (hm : 0 ≤ magic.val) :
    ∃ ts, estimateSegmentTimesNfabianG (flTimeLib rnd order exp) vs vMax aMax magic = .ok ts ∧
      ts.length = vs.length - 1 ∧
      ∀ i (hi : i < ts.length) (h1 : i + 1 < vs.length) (a b : List (Fl rnd)),
        vs[i].getConstraint 0 = some a → vs[i + 1].getConstraint 0 = some b →
        2 * distance (vals a) (vals b) / vMax.val ≤ (1 - u)⁻¹ ^ (D + 8) * ts[i].val ∧
        (vals a ≠ vals b → 0 < ts[i].val) ∧ (vals a = vals b → ts[i].val = 0) ∧
        Factor ((1 - u)⁻¹ ^ (D + e + 11) *
            Real.exp (((1 - u)⁻¹ ^ (D + 6) - 1) * (2 * distance (vals a) (vals b) / vMax.val))) ts[i].val
          (2 * distance (vals a) (vals b) / vMax.val *
            (1 + magic.val * (vMax.val / aMax.val) *
              Real.exp (-(2 * distance (vals a) (vals b) / vMax.val)))) := by
  have hlen : ∀ v ∈ vs, v.position.length = D := by
    intro v hv
    obtain ⟨c, h1, h2⟩ := hpos v hv
    simp [Vertex.position, h1, h2]
  have hval := fun (v w : Vertex (Fl rnd)) (hv' : v ∈ vs) (hw : w ∈ vs) =>
    nfabian_value h hu ho he v.position w.position (by rw [hlen v hv', hlen w hw]) vMax aMax magic hv ha hm
  classical
  choose! g hg using fun v w (hvw : v ∈ vs ∧ w ∈ vs) => hval v w hvw.1 hvw.2
  have hmm := mapM_zip_ok (fun v w : Vertex (Fl rnd) =>
      nfabianTimeG (flTimeLib rnd order exp) v.position w.position vMax aMax magic) g vs
    (fun v hv' w hw => (hg v w ⟨hv', hw⟩).1)
  have hok := (show estimateSegmentTimesNfabianG (flTimeLib rnd order exp) vs vMax aMax magic = _ by
    unfold estimateSegmentTimesNfabianG
    rw [Res.check_of h2, Res.ok_bind]).trans hmm
  refine ⟨_, hok, by simp, ?_⟩
  intro i hi h1 a b ea eb
  have h0 : i < vs.length := by omega
  have e1 : vs[i].position = a := by simp [Vertex.position, ea]
  have e2 : vs[i + 1].position = b := by simp [Vertex.position, eb]
  have hab : a.length = b.length := by
    rw [← e1, ← e2, hlen _ (List.getElem_mem _), hlen _ (List.getElem_mem _)]
  have hD : a.length = D := by rw [← e1, hlen _ (List.getElem_mem _)]
  have hgi := (hg vs[i] vs[i + 1] ⟨List.getElem_mem _, List.getElem_mem _⟩).2
  rw [e1, e2, hD] at hgi
  simp only [List.getElem_map, List.getElem_zip, List.getElem_tail]
  set t := g vs[i] vs[i + 1] with ht
  have hα := flα_ge h hu
  have hα0 : 0 < flα u := by linarith
  refine ⟨hgi.1, ?_, ?_, hgi.2⟩
  · intro hne
    have hdp := distance_pos (by simp [vals, hab]) hne
    have hz : 0 < 2 * distance (vals a) (vals b) / vMax.val := by positivity
    by_contra hc
    rw [not_lt] at hc
    have := mul_nonpos_of_nonneg_of_nonpos (pow_pos hα0 (D + 8)).le hc
    linarith [hgi.1]
  · intro heq
    have hd0 : distance (vals a) (vals b) = 0 := by rw [heq]; simp [distance]
    have hle := hgi.2.1
    have hge := hgi.2.2
    rw [hd0] at hle hge
    simp only [mul_zero, zero_div, zero_mul, Real.exp_zero, mul_one] at hle hge
    exact le_antisymm hle (nonneg_of_mul_nonneg_right hge (pow_pos hα0 _))

/-- An order of addition: from left to right. -/
def leftToRight : ℕ → AddOrder
  | 0 => .leaf 0
  | 1 => .leaf 0
  | n + 2 => .node (leftToRight (n + 1)) (.leaf (n + 1))

theorem leftToRight_orders : Orders leftToRight := by
  intro n hn
  obtain ⟨m, rfl⟩ : ∃ m, n = m + 1 := ⟨n - 1, by omega⟩
  clear hn
  induction m with
  | zero => exact List.Perm.refl _
  | succ m ih =>
    rw [List.range_succ (n := m + 1)]
    exact ih.append_right [m + 1]

/-- The hypotheses of the three theorems hold: `double` rounding, addition from left to right, an exponential function that
is rounded correctly, and three vertices in space, the last two at the same position. -/
example : Rounding round53 (1 / 2 ^ 53) ∧ (1 / 2 ^ 53 : ℝ) < 1 ∧ Orders leftToRight ∧
    ExpOk (rnd := round53) (1 / 2 ^ 53) 1 (fun x => ⟨round53 (Real.exp x.val)⟩) ∧
    (let vs : List (Vertex (Fl round53)) :=
      [⟨3, [(0, [⟨0⟩, ⟨0⟩, ⟨0⟩])]⟩, ⟨3, [(0, [⟨1⟩, ⟨2⟩, ⟨3⟩]), (1, [⟨0⟩, ⟨0⟩, ⟨0⟩])]⟩, ⟨3, [(0, [⟨1⟩, ⟨2⟩, ⟨3⟩])]⟩]
     2 ≤ vs.length ∧ ∀ v ∈ vs, ∃ c, v.getConstraint 0 = some c ∧ c.length = 3) := by
  refine ⟨round53_rounding, by norm_num, leftToRight_orders, ?_, by simp, ?_⟩
  · intro x _
    rw [pow_one]
    exact factor_rnd round53_rounding (by norm_num) (Real.exp_pos _).le
  · intro v hv
    simp only [List.mem_cons, List.not_mem_nil, or_false] at hv
    rcases hv with rfl | rfl | rfl <;> exact ⟨_, rfl, rfl⟩

end Verif
