import Verif.Proofs.Ramp
import Verif.Proofs.Vertex
import Mathlib.Analysis.SpecialFunctions.Exp
import Mathlib.Algebra.BigOperators.Fin

/-
Properties C25 - C27: the segment time estimates.

`Spec.RestToRest p q vMax aMax T x v` says that `x` is a motion of `T` seconds from rest at `p` to rest
at `q` with velocity `v`, speed at most `vMax` and acceleration at most `aMax`.
-/
namespace Verif

open Spec

/-- Euclidean distance of two positions given as lists. -/
noncomputable def Spec.distance (a b : List ℝ) : ℝ :=
  Real.sqrt (∑ i ∈ Finset.range a.length, (a.getD i 0 - b.getD i 0) ^ 2)

theorem sum_map_sq_zipWith (a b : List ℝ) (h : a.length = b.length) :
    ((List.zipWith (· - ·) a b).map (· ^ 2)).sum =
      ∑ i ∈ Finset.range a.length, (a.getD i 0 - b.getD i 0) ^ 2 := by
  induction a generalizing b with
  | nil => simp
  | cons x a ih =>
    cases b with
    | nil => simp at h
    | cons y b =>
      simp only [List.zipWith_cons_cons, List.map_cons, List.sum_cons, List.length_cons]
      rw [Finset.sum_range_succ', ih b (by simpa using h), add_comm]
      simp

theorem vecNorm_sub (a b : List ℝ) (h : a.length = b.length) :
    vecNorm Real.sqrt (List.zipWith (· - ·) a b) = distance a b := by
  unfold vecNorm distance
  rw [sum_map_sq_zipWith a b h]

theorem distance_comm (a b : List ℝ) (h : a.length = b.length) : distance a b = distance b a := by
  unfold distance
  rw [h]
  congr 1
  apply Finset.sum_congr rfl
  intro i _
  ring

theorem distance_ofFn {n : ℕ} (p q : EuclideanSpace ℝ (Fin n)) :
    distance (List.ofFn fun i => p i) (List.ofFn fun i => q i) = ‖p - q‖ := by
  rw [EuclideanSpace.norm_eq]
  unfold distance
  congr 1
  rw [List.length_ofFn, Finset.sum_range]
  apply Finset.sum_congr rfl
  intro i _
  simp

theorem distance_pos {a b : List ℝ} (h : a.length = b.length) (hne : a ≠ b) : 0 < distance a b := by
  unfold distance
  apply Real.sqrt_pos.mpr
  have : ∃ i, i < a.length ∧ a.getD i 0 ≠ b.getD i 0 := by
    by_contra hcon
    push Not at hcon
    apply hne
    apply List.ext_getElem h
    intro i h1 h2
    simpa [List.getD_eq_getElem?_getD, h1, h2] using hcon i h1
  obtain ⟨i, hi, hne⟩ := this
  apply Finset.sum_pos'
  · intro j _; positivity
  · exact ⟨i, Finset.mem_range.mpr hi, by have := sub_ne_zero.mpr hne; positivity⟩

theorem computeTimeVelocityRamp_ok (a b : List ℝ) (h : a.length = b.length) (vMax aMax : ℝ)
    (hv : 0 < vMax) (ha : 0 < aMax) :
    computeTimeVelocityRamp Real.sqrt a b vMax aMax = .ok (rampTime (distance a b) vMax aMax) := by
  unfold computeTimeVelocityRamp rampTime
  have e : 2 * (1 / 2 * vMax * (vMax / aMax)) = vMax ^ 2 / aMax := by ring
  simp only [vecSub, h, if_true, Res.ok_bind, vecNorm_sub a b h, e]
  split
  · rfl
  · rw [Res.pure_eq]; congr 1; field_simp; ring

/-! ### C26 minimum time -/

/-- **C26.** `computeTimeVelocityRamp` is the least duration of a motion from rest at `p` to rest at
`q` with speed at most `vMax` and acceleration at most `aMax`: some motion takes this long, none is
faster. -/
theorem C26_minimum_time {n : ℕ} (p q : EuclideanSpace ℝ (Fin n)) (vMax aMax : ℝ) (hv : 0 < vMax)
    (ha : 0 < aMax) :
    ∃ T, computeTimeVelocityRamp Real.sqrt (List.ofFn fun i => p i) (List.ofFn fun i => q i) vMax aMax =
        .ok T ∧
      IsLeast {T' | ∃ x v, RestToRest p q vMax aMax T' x v} T := by
  refine ⟨_, computeTimeVelocityRamp_ok _ _ (by simp) vMax aMax hv ha, ?_⟩
  rw [distance_ofFn]
  refine ⟨rampTime_achieved p q vMax aMax hv ha, ?_⟩
  rintro T' ⟨x, v, h⟩
  exact rampTime_le h hv ha

example : computeTimeVelocityRamp (K := ℚ) (fun x => if x = 100 then 10 else 0) [0, 0] [6, 8] 2 1 =
    .ok 7 := by decide +kernel
example : computeTimeVelocityRamp (K := ℚ) (fun x => if x = 1 then 1 else 0) [1] [0] 2 1 =
    .ok 2 := by decide +kernel

/-! ### C25 estimateSegmentTimesVelocityRamp -/

theorem mapM_zip_ok {α β : Type} (f : α → α → Res β) (g : α → α → β) (l : List α)
    (h : ∀ a ∈ l, ∀ b ∈ l, f a b = .ok (g a b)) :
    (l.zip l.tail).mapM (fun p => f p.1 p.2) = .ok ((l.zip l.tail).map fun p => g p.1 p.2) := by
  apply Res.mapM_ok
  rintro ⟨a, b⟩ hab
  have := List.of_mem_zip hab
  exact h a this.1 b (List.mem_of_mem_tail this.2)

/-- **C25 (partial).** One time per pair of consecutive vertices: at least 0.1 s, at least the
distance divided by `vMax`, in fact the larger of 0.1 s and the time of `computeTimeVelocityRamp`.
Missing: the effect of the time factor, which is false, see `C25_time_factor_false`. -/
theorem C25_times_partial (D : ℕ) (vs : List (Vertex ℝ)) (h2 : 2 ≤ vs.length)
    (hpos : ∀ v ∈ vs, ∃ c, v.getConstraint 0 = some c ∧ c.length = D) (vMax aMax tf : ℝ)
    (hv : 0 < vMax) (ha : 0 < aMax) :
    ∃ ts, estimateSegmentTimesVelocityRamp Real.sqrt vs vMax aMax tf = .ok ts ∧
      ts.length = vs.length - 1 ∧
      ∀ i (hi : i < ts.length) (h1 : i + 1 < vs.length) (a b : List ℝ),
        vs[i].getConstraint 0 = some a → vs[i + 1].getConstraint 0 = some b →
        (1 : ℝ) / 10 ≤ ts[i] ∧ distance a b / vMax ≤ ts[i] ∧
        ∃ T, computeTimeVelocityRamp Real.sqrt a b vMax aMax = .ok T ∧ ts[i] = max (1 / 10) T := by
  have hlen : ∀ v ∈ vs, v.position.length = D := by
    intro v hv
    obtain ⟨c, h1, h2⟩ := hpos v hv
    simp [Vertex.position, h1, h2]
  have hm := mapM_zip_ok (fun v w : Vertex ℝ => do
      let t ← computeTimeVelocityRamp Real.sqrt v.position w.position vMax aMax
      pure (max (1 / 10) t))
    (fun v w => max (1 / 10) (rampTime (distance v.position w.position) vMax aMax)) vs
    (fun v hv' w hw => by
      rw [computeTimeVelocityRamp_ok _ _ (by rw [hlen v hv', hlen w hw]) vMax aMax hv ha]; rfl)
  have hok := (show estimateSegmentTimesVelocityRamp Real.sqrt vs vMax aMax tf = _ by
    unfold estimateSegmentTimesVelocityRamp
    rw [Res.check_of h2, Res.ok_bind]).trans hm
  refine ⟨_, hok, ?_, ?_⟩
  · simp
  · intro i hi h1 a b ea eb
    have h0 : i < vs.length := by omega
    have e1 : vs[i].position = a := by simp [Vertex.position, ea]
    have e2 : vs[i + 1].position = b := by simp [Vertex.position, eb]
    have hab : a.length = b.length := by
      rw [← e1, ← e2, hlen _ (List.getElem_mem _), hlen _ (List.getElem_mem _)]
    have key : ((vs.zip vs.tail).map fun p =>
        max (1 / 10) (rampTime (distance p.1.position p.2.position) vMax aMax))[i] =
        max (1 / 10) (rampTime (distance a b) vMax aMax) := by
      simp [e1, e2]
    rw [key]
    refine ⟨le_max_left _ _, le_trans ?_ (le_max_right _ _),
      _, computeTimeVelocityRamp_ok a b hab vMax aMax hv ha, rfl⟩
    unfold rampTime
    have hd : 0 ≤ distance a b := Real.sqrt_nonneg _
    split
    · rename_i hlt
      rw [lt_div_iff₀ ha] at hlt
      have h3 : Real.sqrt (distance a b / aMax) = Real.sqrt (distance a b * aMax) / aMax := by
        rw [show distance a b / aMax = distance a b * aMax / aMax ^ 2 by field_simp,
          Real.sqrt_div' _ (by positivity), Real.sqrt_sq ha.le]
      rw [h3]
      have h4 : Real.sqrt (distance a b * aMax) ≤ vMax := by
        rw [Real.sqrt_le_left hv.le]; exact hlt.le
      have h5 : Real.sqrt (distance a b * aMax) * Real.sqrt (distance a b * aMax) =
        distance a b * aMax := Real.mul_self_sqrt (by positivity)
      have h6 : 0 ≤ Real.sqrt (distance a b * aMax) := Real.sqrt_nonneg _
      rw [div_le_iff₀ hv, mul_div_assoc', div_mul_eq_mul_div, le_div_iff₀ ha]
      nlinarith
    · have : 0 ≤ vMax / aMax := by positivity
      linarith

/-- **C25.** Fewer than two vertices abort. -/
theorem C25_too_few (vs : List (Vertex ℝ)) (h : vs.length < 2) (vMax aMax tf : ℝ) :
    estimateSegmentTimesVelocityRamp Real.sqrt vs vMax aMax tf = .abort := by
  unfold estimateSegmentTimesVelocityRamp
  rw [Res.check_of_not (by omega)]; rfl

/-- **C25 is false for the time factor.** A larger factor need not give larger times (the result does
not depend on it). -/
theorem C25_time_factor_false :
    ¬ ∀ (vs : List (Vertex ℝ)) (vMax aMax tf tf' : ℝ) (ts ts' : List ℝ), 0 < vMax → 0 < aMax →
      1 ≤ tf → tf < tf' → estimateSegmentTimesVelocityRamp Real.sqrt vs vMax aMax tf = .ok ts →
      estimateSegmentTimesVelocityRamp Real.sqrt vs vMax aMax tf' = .ok ts' →
      List.Forall₂ (· < ·) ts ts' := by
  intro h
  obtain ⟨ts, h1, h2, -⟩ := C25_times_partial 1 [⟨1, [(0, [0])]⟩, ⟨1, [(0, [5])]⟩] (by simp)
    (by
      intro v hv
      simp only [List.mem_cons, List.not_mem_nil, or_false] at hv
      rcases hv with rfl | rfl
      · exact ⟨[0], rfl, rfl⟩
      · exact ⟨[5], rfl, rfl⟩) 1 1 1 one_pos one_pos
  have := h _ 1 1 1 2 ts ts one_pos one_pos le_rfl (by norm_num) h1 h1
  match ts, h2 with
  | [t], _ => simp at this

example : estimateSegmentTimesVelocityRamp (K := ℚ) (fun x => if x = 100 then 10 else 0)
    [⟨2, [(0, [0, 0])]⟩, ⟨2, [(0, [6, 8]), (1, [0, 0])]⟩, ⟨2, [(0, [6, 8])]⟩] 2 1 5 =
    .ok [7, 1/10] := by decide +kernel
example : ∀ v ∈ ([⟨2, [(0, [0, 0])]⟩, ⟨2, [(0, [6, 8])]⟩] : List (Vertex ℝ)),
    ∃ c, v.getConstraint 0 = some c ∧ c.length = 2 := by
  intro v hv
  simp only [List.mem_cons, List.not_mem_nil, or_false] at hv
  rcases hv with rfl | rfl
  · exact ⟨[0, 0], rfl, rfl⟩
  · exact ⟨[6, 8], rfl, rfl⟩

/-! ### C27 estimateSegmentTimesNfabian -/

/-- **C27 (partial: consecutive positions differ).** One time per pair of consecutive vertices, at
least twice the distance divided by `vMax`, and positive where the two positions differ. Missing:
coincident positions, where the time is 0, see `C27_coincident_false`. -/
theorem C27_times_partial (D : ℕ) (vs : List (Vertex ℝ)) (h2 : 2 ≤ vs.length)
    (hpos : ∀ v ∈ vs, ∃ c, v.getConstraint 0 = some c ∧ c.length = D) (vMax aMax magic : ℝ)
    (hv : 0 < vMax) (ha : 0 < aMax) (hmagic : 0 ≤ magic) :
    ∃ ts, estimateSegmentTimesNfabian Real.sqrt Real.exp vs vMax aMax magic = .ok ts ∧
      ts.length = vs.length - 1 ∧
      ∀ i (hi : i < ts.length) (h1 : i + 1 < vs.length) (a b : List ℝ),
        vs[i].getConstraint 0 = some a → vs[i + 1].getConstraint 0 = some b →
        2 * distance a b / vMax ≤ ts[i] ∧ (a ≠ b → 0 < ts[i]) ∧
        ts[i] = 2 * distance a b / vMax *
          (1 + magic * (vMax / aMax) * Real.exp (-(2 * distance a b / vMax))) := by
  have hlen : ∀ v ∈ vs, v.position.length = D := by
    intro v hv
    obtain ⟨c, h1, h2⟩ := hpos v hv
    simp [Vertex.position, h1, h2]
  have hm := mapM_zip_ok (fun v w : Vertex ℝ => do
      let diff ← vecSub w.position v.position
      let distance := vecNorm Real.sqrt diff
      pure (distance / vMax * 2 * (1 + magic * vMax / aMax * Real.exp (-distance / vMax * 2))))
    (fun v w => distance v.position w.position / vMax * 2 *
      (1 + magic * vMax / aMax * Real.exp (-(distance v.position w.position) / vMax * 2))) vs
    (fun v hv' w hw => by
      have hl : w.position.length = v.position.length := by rw [hlen v hv', hlen w hw]
      simp only [vecSub, hl, if_true, Res.ok_bind, vecNorm_sub _ _ hl]
      rw [distance_comm _ _ hl]; rfl)
  have hok := (show estimateSegmentTimesNfabian Real.sqrt Real.exp vs vMax aMax magic = _ by
    unfold estimateSegmentTimesNfabian
    rw [Res.check_of h2, Res.ok_bind]).trans hm
  refine ⟨_, hok, ?_, ?_⟩
  · simp
  · intro i hi h1 a b ea eb
    have h0 : i < vs.length := by omega
    have e1 : vs[i].position = a := by simp [Vertex.position, ea]
    have e2 : vs[i + 1].position = b := by simp [Vertex.position, eb]
    have hab : a.length = b.length := by
      rw [← e1, ← e2, hlen _ (List.getElem_mem _), hlen _ (List.getElem_mem _)]
    have hd : 0 ≤ distance a b := Real.sqrt_nonneg _
    simp only [List.getElem_map, List.getElem_zip, List.getElem_tail, e1, e2]
    have hexp := (Real.exp_pos (-(distance a b) / vMax * 2)).le
    have h1 : 1 ≤ 1 + magic * vMax / aMax * Real.exp (-(distance a b) / vMax * 2) := by
      have : 0 ≤ magic * vMax / aMax * Real.exp (-(distance a b) / vMax * 2) := by positivity
      linarith
    have hdv : 0 ≤ distance a b / vMax * 2 := by positivity
    refine ⟨?_, ?_, ?_⟩
    · rw [show 2 * distance a b / vMax = distance a b / vMax * 2 by ring]
      exact le_mul_of_one_le_right hdv h1
    · intro hne
      have := distance_pos hab hne
      positivity
    · rw [show -(distance a b) / vMax * 2 = -(2 * distance a b / vMax) by ring]
      ring

/-- **C27.** `estimateSegmentTimes` is `estimateSegmentTimesNfabian` with the constant 6.5. -/
theorem C27_default (vs : List (Vertex ℝ)) (vMax aMax : ℝ) :
    estimateSegmentTimes Real.sqrt Real.exp vs vMax aMax =
      estimateSegmentTimesNfabian Real.sqrt Real.exp vs vMax aMax 6.5 := by
  unfold estimateSegmentTimes; norm_num

/-- **C27 is false for coincident vertices.** For two consecutive vertices at the same position the
time is 0, for all parameters. -/
theorem C27_coincident_false (p : List ℝ) (vMax aMax magic : ℝ) :
    estimateSegmentTimesNfabian Real.sqrt Real.exp
      [⟨p.length, [(0, p)]⟩, ⟨p.length, [(0, p)]⟩] vMax aMax magic = .ok [0] := by
  unfold estimateSegmentTimesNfabian
  rw [Res.check_of (by simp), Res.ok_bind]
  have h0 : vecNorm Real.sqrt (List.replicate p.length 0) = 0 := by
    simp [vecNorm]
  simp [Vertex.position, Vertex.getConstraint, mapFind, vecSub, List.mapM_cons, h0]

example : estimateSegmentTimesNfabian (K := ℚ) (fun x => if x = 100 then 10 else 0)
    (fun x => if x = -10 then 1/100 else 0) [⟨2, [(0, [0, 0])]⟩, ⟨2, [(0, [6, 8])]⟩] 2 1 6 =
    .ok [10 * (1 + 12 / 100)] := by decide +kernel

end Verif
