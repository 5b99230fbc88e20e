import Verif.Proofs.RoundedHalfPlane

/-
Property C124 (half planes in floating point): `checkHalfPlaneFeasibility` with numbers `Fl rnd`, every operation of which
rounds its result, with a root finder of limited accuracy and scalar products in an unknown order. `Spec.distanceAt` is the
exact distance from the boundary of a half plane, times the length of its normal.
-/
set_option linter.unusedSectionVars false

namespace Verif

open Polynomial Spec Set

theorem halfPlaneLoopG_field {K : Type} [Field K] [LinearOrder K] (rf : RootFinder K) (s : Segment K)
    (hps : List (HalfPlane K)) :
    halfPlaneLoopG (fun x => |x|) dblEpsilon (fun _ a b => ∑ i, a i * b i) rf s hps = halfPlaneLoop rf s hps := by
  have hc : ∀ (hp : HalfPlane K) (l : List K),
      candidatesInsideG (fun _ a b => ∑ i, a i * b i) s hp l = candidatesInside s hp l := by
    intro hp l
    induction l with
    | nil => rfl
    | cons t l ih =>
      simp only [candidatesInsideG, candidatesInside, ih, dot3, Fin.sum_univ_three]
      rfl
  have hm : ∀ p : Poly K, p.computeMinMaxCandidatesG (fun x => |x|) dblEpsilon rf 0 s.time 0 =
      p.computeMinMaxCandidates rf 0 s.time 0 := by
    intro p
    unfold Poly.computeMinMaxCandidatesG Poly.computeMinMaxCandidates Poly.getRoots
    by_cases h : (p.N : ℤ) - 0 - 1 < 0
    · rw [if_pos h, if_pos h]
    · rw [if_neg h, if_neg h]
      rcases p.getCoefficients (0 + 1) with ⟨c⟩ | _ | _ | _ | _ <;> rfl
  induction hps with
  | nil => rfl
  | cons hp hps ih =>
    simp only [halfPlaneLoopG, halfPlaneLoop, hc, hm, ih]
    rfl

/-- **C124.** The functions used below are those of C43, with other numbers. -/
theorem C124_same_code {K : Type} [Field K] [LinearOrder K] (rf : RootFinder K) (hps : List (HalfPlane K))
    (s : Segment K) (tr : Trajectory K) :
    s.checkHalfPlanesG (fun x => |x|) dblEpsilon (fun _ a b => ∑ i, a i * b i) rf hps = s.checkHalfPlanes rf hps ∧
      halfPlaneSegmentsG (fun x => |x|) dblEpsilon (fun _ a b => ∑ i, a i * b i) rf hps tr.segments =
        tr.checkHalfPlanes rf hps := by
  have key : ∀ s : Segment K, s.checkHalfPlanesG (fun x => |x|) dblEpsilon (fun _ a b => ∑ i, a i * b i) rf hps =
      s.checkHalfPlanes rf hps := by
    intro s
    unfold Segment.checkHalfPlanesG Segment.checkHalfPlanes
    rw [halfPlaneLoopG_field]
  refine ⟨key s, ?_⟩
  unfold Trajectory.checkHalfPlanes
  induction tr.segments with
  | nil => rfl
  | cons s ss ih =>
    simp only [halfPlaneSegmentsG, halfPlaneSegments, key, ih]

variable {rnd : ℝ → ℝ} {u : ℝ}

/-- **C124.** For a segment with 3 or 4 dimensions the check returns. If it returns true, the position is at no time of the
segment further than `3 E + B ε²` on the wrong side of a half plane. If it returns false, it is at some time of the segment
no further than `E` on the right side of one of them. `E` is what `2 N + 4` rounding errors can make of the terms of the
distance, `ε` the accuracy of the root finder and `B` bounds the acceleration along the normals. -/
theorem C124_half_planes (h : Rounding rnd u) {dot : Dot (Fl rnd)} (hd : DotOk u dot) {ε : ℝ} (hε : 0 ≤ ε)
    (s : Segment (Fl rnd)) (hs : s.WF) (hD : s.D = 3 ∨ s.D = 4) (hN : 1 ≤ s.N) (hT : 0 ≤ s.time.val)
    (rf : RootFinder (Fl rnd)) (hrf : ApproxOn ε 0 s.time.val rf) (hps : List (HalfPlane (Fl rnd))) (E B : ℝ)
    (hE : ∀ hp ∈ hps, ((1 + u) ^ (2 * s.N + 4) - 1) * (normalSize s hp 0 s.time.val + pointSize hp) ≤ E)
    (hB : ∀ hp ∈ hps, (1 + u) ^ (2 * s.N + 4) * normalSize s hp 2 s.time.val ≤ B) :
    ∃ b, s.checkHalfPlanesFl dot rf hps = .ok b ∧
      (b = true → ∀ hp ∈ hps, ∀ t ∈ Icc 0 s.time.val, -(3 * E + B * ε ^ 2) < distanceAt s hp t) ∧
      (b = false → ∃ hp ∈ hps, ∃ t ∈ Icc 0 s.time.val, distanceAt s hp t ≤ E) := by
  obtain ⟨b, hb, h1, h2⟩ := halfPlaneLoopG_ok h hd hε s hs (by omega) hN hT rf hrf hps hE hB
  refine ⟨b, ?_, h1, h2⟩
  unfold Segment.checkHalfPlanesFl Segment.checkHalfPlanesG
  rw [if_pos hD, hb]

/-- **C124.** So with a margin there is no doubt: a segment that keeps a distance of more than `E` from all half planes at
all times is accepted, one that is further than `3 E + B ε²` on the wrong side at some time is rejected. -/
theorem C124_margin (h : Rounding rnd u) {dot : Dot (Fl rnd)} (hd : DotOk u dot) {ε : ℝ} (hε : 0 ≤ ε)
    (s : Segment (Fl rnd)) (hs : s.WF) (hD : s.D = 3 ∨ s.D = 4) (hN : 1 ≤ s.N) (hT : 0 ≤ s.time.val)
    (rf : RootFinder (Fl rnd)) (hrf : ApproxOn ε 0 s.time.val rf) (hps : List (HalfPlane (Fl rnd))) (E B : ℝ)
    (hE : ∀ hp ∈ hps, ((1 + u) ^ (2 * s.N + 4) - 1) * (normalSize s hp 0 s.time.val + pointSize hp) ≤ E)
    (hB : ∀ hp ∈ hps, (1 + u) ^ (2 * s.N + 4) * normalSize s hp 2 s.time.val ≤ B) :
    ((∀ hp ∈ hps, ∀ t ∈ Icc 0 s.time.val, E < distanceAt s hp t) → s.checkHalfPlanesFl dot rf hps = .ok true) ∧
      ((∃ hp ∈ hps, ∃ t ∈ Icc 0 s.time.val, distanceAt s hp t ≤ -(3 * E + B * ε ^ 2)) →
        s.checkHalfPlanesFl dot rf hps = .ok false) := by
  obtain ⟨b, hb, h1, h2⟩ := C124_half_planes h hd hε s hs hD hN hT rf hrf hps E B hE hB
  rw [hb]
  constructor
  · intro H
    cases b with
    | true => rfl
    | false =>
      obtain ⟨hp, hm, t, ht, q⟩ := h2 rfl
      exact absurd q (not_le.mpr (H hp hm t ht))
  · rintro ⟨hp, hm, t, ht, q⟩
    cases b with
    | false => rfl
    | true => exact absurd q (not_le.mpr (h1 rfl hp hm t ht))

/-- **C124.** A segment of another dimension is never accepted. -/
theorem C124_dimension (dot : Dot (Fl rnd)) (rf : RootFinder (Fl rnd)) (s : Segment (Fl rnd))
    (hD : ¬ (s.D = 3 ∨ s.D = 4)) (hps : List (HalfPlane (Fl rnd))) : s.checkHalfPlanesFl dot rf hps = .ok false := by
  unfold Segment.checkHalfPlanesFl Segment.checkHalfPlanesG
  rw [if_neg hD]

/-- **C124 (trajectories).** The same for all segments of a trajectory. -/
theorem C124_trajectory (h : Rounding rnd u) {dot : Dot (Fl rnd)} (hd : DotOk u dot) {ε : ℝ} (hε : 0 ≤ ε)
    (tr : Trajectory (Fl rnd)) (hD : tr.D = 3 ∨ tr.D = 4) (hN : 1 ≤ tr.N)
    (hwf : ∀ s ∈ tr.segments, s.WF ∧ s.N = tr.N ∧ s.D = tr.D ∧ 0 ≤ s.time.val)
    (rf : RootFinder (Fl rnd)) (hrf : ∀ s ∈ tr.segments, ApproxOn ε 0 s.time.val rf)
    (hps : List (HalfPlane (Fl rnd))) (E B : ℝ)
    (hE : ∀ s ∈ tr.segments, ∀ hp ∈ hps,
      ((1 + u) ^ (2 * tr.N + 4) - 1) * (normalSize s hp 0 s.time.val + pointSize hp) ≤ E)
    (hB : ∀ s ∈ tr.segments, ∀ hp ∈ hps, (1 + u) ^ (2 * tr.N + 4) * normalSize s hp 2 s.time.val ≤ B) :
    ∃ b, tr.checkHalfPlanesFl dot rf hps = .ok b ∧
      (b = true → ∀ s ∈ tr.segments, ∀ hp ∈ hps, ∀ t ∈ Icc 0 s.time.val,
        -(3 * E + B * ε ^ 2) < distanceAt s hp t) ∧
      (b = false → ∃ s ∈ tr.segments, ∃ hp ∈ hps, ∃ t ∈ Icc 0 s.time.val, distanceAt s hp t ≤ E) := by
  unfold Trajectory.checkHalfPlanesFl
  generalize tr.segments = segs at hwf hrf hE hB
  induction segs with
  | nil => exact ⟨true, rfl, by simp, by simp⟩
  | cons s ss ih =>
    obtain ⟨b, hb, h1, h2⟩ := ih (fun s' hs' => hwf s' (by simp [hs'])) (fun s' hs' => hrf s' (by simp [hs']))
      (fun s' hs' => hE s' (by simp [hs'])) (fun s' hs' => hB s' (by simp [hs']))
    obtain ⟨w1, w2, w3, w4⟩ := hwf s (by simp)
    obtain ⟨b1, hb1, g1, g2⟩ := C124_half_planes h hd hε s w1 (by rw [w3]; exact hD) (by rw [w2]; exact hN) w4 rf
      (hrf s (by simp)) hps E B (by rw [w2]; exact hE s (by simp)) (by rw [w2]; exact hB s (by simp))
    have hb1' : s.checkHalfPlanesG Fl.abs ⟨dblEpsilon⟩ dot rf hps = .ok b1 := hb1
    unfold halfPlaneSegmentsG
    rw [hb1', Res.ok_bind]
    cases b1 with
    | false =>
      obtain ⟨hp, q⟩ := g2 rfl
      exact ⟨false, rfl, by simp, fun _ => ⟨s, by simp, hp, q⟩⟩
    | true =>
      refine ⟨b, hb, fun hbt => ?_, fun hbf => ?_⟩
      · intro s' hs'
        rcases List.mem_cons.mp hs' with rfl | hs'
        · exact g1 rfl
        · exact h1 hbt s' hs'
      · obtain ⟨s', hs', q⟩ := h2 hbf
        exact ⟨s', by simp [hs'], q⟩

/-- The vertical throw of C43, `z(t) = 1 + 4 t - t²` for 4 seconds, with doubles. -/
def exThrowFl : Segment (Fl round53) := ⟨[⟨[⟨0⟩, ⟨1⟩, ⟨0⟩]⟩, ⟨[⟨2⟩, ⟨0⟩, ⟨0⟩]⟩, ⟨[⟨1⟩, ⟨4⟩, ⟨-1⟩]⟩], ⟨4⟩, 3⟩

/-- The half space below height `z`. -/
def exBelow (z : ℝ) : HalfPlane (Fl round53) := ⟨![⟨0⟩, ⟨0⟩, ⟨z⟩], ![⟨0⟩, ⟨0⟩, ⟨-1⟩]⟩

theorem cons3_two {α : Type} (a b c : α) : ![a, b, c] 2 = c := rfl

theorem exThrowFl_distance (z t : ℝ) : distanceAt exThrowFl (exBelow z) t = z - (1 + 4 * t - t ^ 2) := by
  unfold distanceAt realPolys
  simp only [exThrowFl, List.map_cons, List.map_nil]
  simp only [vec3_cons, Fin.sum_univ_three, exBelow, derivAt_eq_sum, vals, cons3_two]
  norm_num [Finset.sum_range_succ, Matrix.cons_val_zero, Matrix.cons_val_one]
  ring

/-- It stays below 6 and exceeds 9/2 at time 2: both are found with doubles and a root finder that rounds to doubles. -/
example : exThrowFl.checkHalfPlanesFl seqDot (roundedRoots round53) [exBelow 6] = .ok true ∧
    exThrowFl.checkHalfPlanesFl seqDot (roundedRoots round53) [exBelow 6, exBelow (9 / 2)] = .ok false := by
  have hwf : exThrowFl.WF := ⟨by simp [exThrowFl, Poly.N], by simp [exThrowFl]⟩
  have hsz : ∀ z : ℝ, 0 ≤ z → normalSize exThrowFl (exBelow z) 0 4 + pointSize (exBelow z) = 33 + z ∧
      normalSize exThrowFl (exBelow z) 2 4 = 2 := by
    intro z hz
    unfold normalSize pointSize
    simp only [exThrowFl, List.map_cons, List.map_nil]
    simp only [vec3_cons, Fin.sum_univ_three, exBelow, derivAt_eq_sum, vals, cons3_two]
    norm_num [Finset.sum_range_succ, abs_of_nonneg hz, Nat.descFactorial]
  have ht : exThrowFl.time.val = 4 := rfl
  have hn : exThrowFl.N = 3 := rfl
  have hrf := roundedRoots_approx (rnd := round53) round53_rounding (T := 4) (a := 0) (b := 4) (by norm_num) (by norm_num)
  have key : ∀ hps : List (HalfPlane (Fl round53)), (∀ hp ∈ hps, ∃ z, 0 ≤ z ∧ z ≤ 6 ∧ hp = exBelow z) →
      ((∀ hp ∈ hps, ∀ t ∈ Icc 0 exThrowFl.time.val, 1 / 10 ^ 12 < distanceAt exThrowFl hp t) →
        exThrowFl.checkHalfPlanesFl seqDot (roundedRoots round53) hps = .ok true) ∧
      ((∃ hp ∈ hps, ∃ t ∈ Icc 0 exThrowFl.time.val,
        distanceAt exThrowFl hp t ≤ -(3 * (1 / 10 ^ 12) + 3 * (1 / 2 ^ 53 * 4) ^ 2)) →
        exThrowFl.checkHalfPlanesFl seqDot (roundedRoots round53) hps = .ok false) := by
    intro hps hz
    refine C124_margin round53_rounding (seqDot_ok round53_rounding) (ε := 1 / 2 ^ 53 * 4) (by norm_num) exThrowFl hwf
      (Or.inl rfl) (by rw [hn]; norm_num) (by rw [ht]; norm_num) (roundedRoots round53) hrf hps _ _ ?_ ?_
    · intro hp hm
      obtain ⟨z, z0, z1, rfl⟩ := hz hp hm
      rw [ht, hn, (hsz z z0).1]
      refine le_trans (mul_le_mul_of_nonneg_left (by linarith : 33 + z ≤ 39) (by norm_num)) ?_
      norm_num
    · intro hp hm
      obtain ⟨z, z0, z1, rfl⟩ := hz hp hm
      rw [ht, hn, (hsz z z0).2]
      norm_num
  constructor
  · refine (key [exBelow 6] ?_).1 ?_
    · intro hp hm
      rw [List.mem_singleton] at hm
      exact ⟨6, by norm_num, by norm_num, hm⟩
    · intro hp hm t _
      rw [List.mem_singleton] at hm
      rw [hm, exThrowFl_distance]
      norm_num
      nlinarith [sq_nonneg (t - 2)]
  · refine (key [exBelow 6, exBelow (9 / 2)] ?_).2 ⟨exBelow (9 / 2), by simp, 2, ?_, ?_⟩
    · intro hp hm
      rcases List.mem_cons.mp hm with rfl | hm
      · exact ⟨6, by norm_num, by norm_num, rfl⟩
      · rw [List.mem_singleton] at hm
        exact ⟨9 / 2, by norm_num, by norm_num, hm⟩
    · rw [ht]; norm_num
    · rw [exThrowFl_distance]
      norm_num

end Verif
