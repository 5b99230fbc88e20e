import Mathlib.Tactic.Ring
import Verif.Proofs.HalfPlane
import Verif.Props.Polynomial

/-
Properties C43, C44, C45 and C58: half planes and checks over whole trajectories.

`Spec.Inside hp x`: the point `x` lies strictly on the side of `hp` its normal points to.
`Spec.vec3 ps 0 t`: the position at time `t`.
-/
namespace Verif

open Polynomial Spec Set

/-! ### C43 half-plane feasibility -/

/-- **C43.** For a segment with 3 or 4 dimensions and non-negative duration, and a root finder that
returns all real roots, `checkHalfPlaneFeasibility` returns true exactly when the position is strictly
inside every half plane at every time of the segment. -/
theorem C43_exact (rf : RootFinder ℝ) (hrf : Complete rf) (s : Segment ℝ) (h : s.WF)
    (hD : s.D = 3 ∨ s.D = 4) (hN : 1 ≤ s.N) (hT : 0 ≤ s.time) (hps : List (HalfPlane ℝ)) :
    ∃ b, s.checkHalfPlanes rf hps = .ok b ∧
      (b = true ↔ ∀ hp ∈ hps, ∀ t ∈ Icc 0 s.time, Inside hp (vec3 s.polys 0 t)) := by
  obtain ⟨b, hb, hb2⟩ := halfPlaneLoop_ok rf hrf s h (by omega) hN hT hps
  refine ⟨b, ?_, hb2⟩
  unfold Segment.checkHalfPlanes
  rw [if_pos hD, hb]

/-- **C43.** A segment of another dimension is never accepted. -/
theorem C43_dimension (rf : RootFinder ℝ) (s : Segment ℝ) (hD : ¬ (s.D = 3 ∨ s.D = 4))
    (hps : List (HalfPlane ℝ)) : s.checkHalfPlanes rf hps = .ok false := by
  unfold Segment.checkHalfPlanes
  rw [if_neg hD]

/-- **C43 (trajectories).** The check of a trajectory returns true exactly when the position is strictly
inside every half plane at every time of every segment. -/
theorem C43_trajectory (rf : RootFinder ℝ) (hrf : Complete rf) (tr : Trajectory ℝ) (h : tr.WF)
    (hD : tr.D = 3 ∨ tr.D = 4) (hN : 1 ≤ tr.N) (hps : List (HalfPlane ℝ)) :
    ∃ b, tr.checkHalfPlanes rf hps = .ok b ∧
      (b = true ↔ ∀ s ∈ tr.segments, ∀ hp ∈ hps, ∀ t ∈ Icc 0 s.time, Inside hp (vec3 s.polys 0 t)) := by
  have key : ∀ segs : List (Segment ℝ),
      (∀ s ∈ segs, s.WF ∧ (s.D = 3 ∨ s.D = 4) ∧ 1 ≤ s.N ∧ 0 ≤ s.time) →
      ∃ b, halfPlaneSegments rf hps segs = .ok b ∧
      (b = true ↔ ∀ s ∈ segs, ∀ hp ∈ hps, ∀ t ∈ Icc 0 s.time, Inside hp (vec3 s.polys 0 t)) := by
    intro segs
    induction segs with
    | nil => intro _; exact ⟨true, rfl, by simp⟩
    | cons s ss ih =>
      intro hs
      obtain ⟨b, hb, hb2⟩ := ih fun s' hs' => hs s' (by simp [hs'])
      obtain ⟨h1, h2, h3, h4⟩ := hs s (by simp)
      obtain ⟨b1, hb1, hb3⟩ := C43_exact rf hrf s h1 h2 h3 h4 hps
      have e : halfPlaneSegments rf hps (s :: ss) = (do
        let b ← s.checkHalfPlanes rf hps
        if b then halfPlaneSegments rf hps ss else pure false) := rfl
      rw [e, hb1, Res.ok_bind]
      cases b1 with
      | true =>
        refine ⟨b, hb, ?_⟩
        rw [hb2]
        simp only [List.forall_mem_cons]
        exact ⟨fun hh => ⟨hb3.mp rfl, hh⟩, fun hh => hh.2⟩
      | false =>
        refine ⟨false, rfl, ?_⟩
        simp only [List.forall_mem_cons]
        exact ⟨fun hh => absurd hh (by simp), fun hh => hb3.mpr hh.1⟩
  exact key tr.segments fun s hs => ⟨h.wf s hs, by rw [h.dims s hs]; exact hD,
    by rw [h.coeffs s hs]; exact hN, h.nonneg s hs⟩

/-- A vertical throw `z(t) = 1 + 4 t - t²` for 4 seconds. -/
def exThrow : Segment ℚ := ⟨[⟨[0, 1, 0]⟩, ⟨[2, 0, 0]⟩, ⟨[1, 4, -1]⟩], 4, 3⟩

/-- It stays below the plane `z = 6`, but crosses `z = 9/2` between its ends: both verdicts need the
extremum at time 2. -/
example : exThrow.checkHalfPlanes (fun _ => (true, [(2, 0)])) [⟨![0, 0, 6], ![0, 0, -1]⟩] = .ok true ∧
    exThrow.checkHalfPlanes (fun _ => (true, [(2, 0)]))
      [⟨![0, 0, 6], ![0, 0, -1]⟩, ⟨![0, 0, 9 / 2], ![0, 0, -1]⟩] = .ok false := by
  decide +kernel

example : ∃ rf : RootFinder ℝ, Complete rf ∧
    (⟨[⟨[0, 1, 0]⟩, ⟨[2, 0, 0]⟩, ⟨[1, 4, -1]⟩], 4, 3⟩ : Segment ℝ).WF := by
  obtain ⟨rf, hrf⟩ := complete_rootFinder_exists
  exact ⟨rf, hrf, ⟨by simp [Poly.N], by simp⟩⟩

/-! ### C44 bounding boxes -/

/-- **C44.** `createBoundingBox(center, size)` returns six half planes, and a point is strictly inside
all of them exactly when each coordinate differs from that of the centre by less than half the size. -/
theorem C44_box (center size : Fin 3 → ℝ) :
    ∃ hps, createBoundingBox Real.sqrt center size = .ok hps ∧ hps.length = 6 ∧
      ∀ x : Fin 3 → ℝ, (∀ hp ∈ hps, Inside hp x) ↔ ∀ i, |x i - center i| < size i / 2 := by
  have hne : ∀ (i : Fin 3) (a : ℝ), a ≠ 0 → Function.update (fun _ => (0 : ℝ)) i a ≠ 0 := by
    intro i a ha h0
    have := congrFun h0 i
    simp at this
    exact ha this
  have hax : ∀ i : Fin 3, boundingBoxAxis Real.sqrt center size i = .ok
      [⟨fun j => center j - size j / 2, normalized3 Real.sqrt (Function.update (fun _ => 0) i 1)⟩,
       ⟨fun j => center j + size j / 2, normalized3 Real.sqrt (Function.update (fun _ => 0) i (-1))⟩] := by
    intro i
    unfold boundingBoxAxis
    rw [ofNormal_ok (hne i 1 (by norm_num)), Res.ok_bind, ofNormal_ok (hne i (-1) (by norm_num))]
    rfl
  refine ⟨([0, 1, 2] : List (Fin 3)).flatMap fun i : Fin 3 =>
      [⟨fun j => center j - size j / 2, normalized3 Real.sqrt (Function.update (fun _ => 0) i 1)⟩,
       ⟨fun j => center j + size j / 2, normalized3 Real.sqrt (Function.update (fun _ => 0) i (-1))⟩],
    ?_, ?_, ?_⟩
  · unfold createBoundingBox
    rw [Res.mapM_ok (fun i _ => hax i)]
    rfl
  · rfl
  · intro x
    have hlo : ∀ i : Fin 3, Inside ⟨fun j => center j - size j / 2,
        normalized3 Real.sqrt (Function.update (fun _ => 0) i 1)⟩ x ↔ center i - size i / 2 < x i := by
      intro i
      rw [inside_normalized (hne i 1 (by norm_num))]
      have : ∑ j, (x j - (center j - size j / 2)) * Function.update (fun _ => (0 : ℝ)) i 1 j =
          x i - (center i - size i / 2) := by
        fin_cases i <;> simp [Fin.sum_univ_three, Function.update]
      rw [this, sub_pos]
    have hhi : ∀ i : Fin 3, Inside ⟨fun j => center j + size j / 2,
        normalized3 Real.sqrt (Function.update (fun _ => 0) i (-1))⟩ x ↔ x i < center i + size i / 2 := by
      intro i
      rw [inside_normalized (hne i (-1) (by norm_num))]
      have : ∑ j, (x j - (center j + size j / 2)) * Function.update (fun _ => (0 : ℝ)) i (-1) j =
          (center i + size i / 2) - x i := by
        fin_cases i <;> simp [Fin.sum_univ_three, Function.update]
      rw [this, sub_pos]
    simp only [List.mem_flatMap, List.mem_cons, List.not_mem_nil, or_false]
    constructor
    · intro hall i
      have h1 := (hlo i).mp (hall _ ⟨i, by fin_cases i <;> simp, Or.inl rfl⟩)
      have h2 := (hhi i).mp (hall _ ⟨i, by fin_cases i <;> simp, Or.inr rfl⟩)
      rw [abs_lt]
      constructor <;> linarith
    · rintro hall hp ⟨i, _, rfl | rfl⟩
      · rw [hlo]
        have := abs_lt.mp (hall i)
        linarith [this.1]
      · rw [hhi]
        have := abs_lt.mp (hall i)
        linarith [this.2]

/-- The point (1, 2, 3) is in the box with centre (1, 1, 1) and size (1, 3, 5). -/
example : ∀ i : Fin 3, |(![1, 2, 3] : Fin 3 → ℝ) i - ![1, 1, 1] i| < ![1, 3, 5] i / 2 := by
  intro i; fin_cases i <;> norm_num

/-! ### C45 checks over trajectories -/

/-- **C45.** Whatever the check of a single segment is (it must return): the check of a trajectory gives
`feasible` exactly when there is a segment and all of them are feasible; otherwise it gives the verdict of
the first segment that is not feasible, and `indeterminable` for no segments. -/
theorem C45_first (check : Segment ℝ → Res Verdict) (verdict : Segment ℝ → Verdict) (tr : Trajectory ℝ)
    (hc : ∀ s ∈ tr.segments, check s = .ok (verdict s)) :
    ∃ r, tr.checkInputFeasibility check = .ok r ∧
      (r = .feasible ↔ tr.segments ≠ [] ∧ ∀ s ∈ tr.segments, verdict s = .feasible) ∧
      (tr.segments = [] → r = .indeterminable) ∧
      (∀ i, (hi : i < tr.segments.length) → (∀ j, (hj : j < i) → verdict tr.segments[j] = .feasible) →
        verdict tr.segments[i] ≠ .feasible → r = verdict tr.segments[i]) := by
  have key : ∀ (segs : List (Segment ℝ)) (r0 : Verdict), (∀ s ∈ segs, check s = .ok (verdict s)) →
      ∃ r, checkTrajectory check segs r0 = .ok r ∧
        (segs = [] → r = r0) ∧
        (segs ≠ [] → (r = .feasible ↔ ∀ s ∈ segs, verdict s = .feasible)) ∧
        (∀ i, (hi : i < segs.length) → (∀ j, (hj : j < i) → verdict segs[j] = .feasible) →
          verdict segs[i] ≠ .feasible → r = verdict segs[i]) := by
    intro segs
    induction segs with
    | nil => intro r0 _; exact ⟨r0, rfl, fun _ => rfl, by simp, by simp⟩
    | cons s ss ih =>
      intro r0 hs
      have e : checkTrajectory check (s :: ss) r0 = (do
        let r ← check s
        if r ≠ .feasible then pure r else checkTrajectory check ss r) := rfl
      rw [e, hs s (by simp), Res.ok_bind]
      by_cases hv : verdict s = .feasible
      · rw [if_neg (by simpa using hv), hv]
        obtain ⟨r, h1, h2, h3, h4⟩ := ih .feasible fun s' hs' => hs s' (by simp [hs'])
        refine ⟨r, h1, by simp, ?_, ?_⟩
        · intro _
          by_cases hss : ss = []
          · rw [h2 hss]; simp [hss, hv]
          · rw [h3 hss]; simp [hv]
        · intro i hi hj hi2
          cases i with
          | zero => exact absurd hv hi2
          | succ i => exact h4 i (by simpa using hi) (fun j hj' => hj (j + 1) (by omega)) hi2
      · rw [if_pos hv]
        refine ⟨verdict s, rfl, by simp, ?_, ?_⟩
        · intro _
          constructor
          · intro hh; exact absurd hh hv
          · intro hh; exact hh s (by simp)
        · intro i hi hj hi2
          cases i with
          | zero => rfl
          | succ i => exact absurd (hj 0 (by omega)) hv
  obtain ⟨r, h1, h2, h3, h4⟩ := key tr.segments .indeterminable hc
  refine ⟨r, h1, ?_, h2, h4⟩
  by_cases hne : tr.segments = []
  · rw [h2 hne]; simp [hne]
  · rw [h3 hne]; simp [hne]

/-- Three segments told apart by their durations; the second one is too fast. -/
example : (⟨0, 0, 6, [⟨[], 1, 0⟩, ⟨[], 2, 0⟩, ⟨[], 3, 0⟩]⟩ : Trajectory ℚ).checkInputFeasibility
    (fun s => .ok (if s.time = 1 then .feasible else if s.time = 2 then .velocity else .yawAcc)) =
    .ok .velocity := by decide +kernel

/-! ### C58 constructing half planes -/

/-- **C58.** A half plane made of a point and a non-zero normal has a unit normal and describes the half
space the given normal points to; a zero normal is rejected. -/
theorem C58_normal (p n : Fin 3 → ℝ) :
    (n = 0 → HalfPlane.ofNormal Real.sqrt p n = .abort) ∧
    (n ≠ 0 → ∃ hp, HalfPlane.ofNormal Real.sqrt p n = .ok hp ∧ hp.point = p ∧
      ∑ i, hp.normal i ^ 2 = 1 ∧ ∀ x, Inside hp x ↔ 0 < ∑ i, (x i - p i) * n i) := by
  constructor
  · intro h
    unfold HalfPlane.ofNormal
    rw [Res.check_of_not]
    · rfl
    · intro h'
      exact (norm3_pos_iff n).mp h' h
  · intro h
    exact ⟨_, ofNormal_ok h p, rfl, normalized3_unit h, inside_normalized h p⟩

/-- The determinant of three vectors. -/
def det3 (u v w : Fin 3 → ℝ) : ℝ :=
  u 0 * (v 1 * w 2 - v 2 * w 1) - u 1 * (v 0 * w 2 - v 2 * w 0) + u 2 * (v 0 * w 1 - v 1 * w 0)

/-- **C58 (three points, partial).** For three points that are not on a line the half plane has a unit
normal, the points are on its boundary, and the inside is where the points appear counter-clockwise.
Missing: distinct points on a line are not rejected, see `C58_collinear_false`. -/
theorem C58_points_partial (a b c : Fin 3 → ℝ)
    (h : cross3 (fun i => b i - a i) (fun i => c i - a i) ≠ 0) :
    ∃ hp, HalfPlane.ofPoints Real.sqrt a b c = .ok hp ∧ ∑ i, hp.normal i ^ 2 = 1 ∧
      (∀ x ∈ [a, b, c], ∑ i, (x i - hp.point i) * hp.normal i = 0) ∧
      ∀ x, Inside hp x ↔ 0 < det3 (fun i => b i - a i) (fun i => c i - a i) (fun i => x i - a i) := by
  have hab : a ≠ b := by
    rintro rfl
    apply h
    funext i
    fin_cases i <;> simp [cross3]
  have hac : a ≠ c := by
    rintro rfl
    apply h
    funext i
    fin_cases i <;> simp [cross3]
  refine ⟨⟨a, normalized3 Real.sqrt (cross3 (fun i => b i - a i) (fun i => c i - a i))⟩, ?_,
    normalized3_unit h, ?_, ?_⟩
  · unfold HalfPlane.ofPoints
    rw [Res.check_of hab, Res.ok_bind, Res.check_of hac]
    rfl
  · intro x hx
    simp only [normalized3_of_ne h, mul_div]
    rw [← Finset.sum_div, Fin.sum_univ_three]
    simp only [List.mem_cons, List.not_mem_nil, or_false] at hx
    rcases hx with rfl | rfl | rfl
    · simp
    · apply div_eq_zero_iff.mpr
      left
      simp [cross3]; ring
    · apply div_eq_zero_iff.mpr
      left
      simp [cross3]; ring
  · intro x
    rw [inside_normalized h]
    have : ∑ i, (x i - a i) * cross3 (fun i => b i - a i) (fun i => c i - a i) i =
        det3 (fun i => b i - a i) (fun i => c i - a i) (fun i => x i - a i) := by
      rw [Fin.sum_univ_three]
      simp [cross3, det3]; ring
    rw [this]

/-- **C58.** The constructor aborts when the first point equals one of the others. -/
theorem C58_points_rejected (a b c : Fin 3 → ℝ) (h : a = b ∨ a = c) :
    HalfPlane.ofPoints Real.sqrt a b c = .abort := by
  unfold HalfPlane.ofPoints
  by_cases hab : a = b
  · rw [Res.check_of_not (by simpa using hab)]; rfl
  · have hac : a = c := by tauto
    rw [Res.check_of hab, Res.ok_bind, Res.check_of_not (by simpa using hac)]; rfl

/-- **C58 is false for points on a line.** Three points on a line (the last two may coincide) are accepted
as long as the first differs from the others, the normal is zero, and no point is inside. -/
theorem C58_collinear_false (a d : Fin 3 → ℝ) (hd : d ≠ 0) (u v : ℝ) (hu : u ≠ 0) (hv : v ≠ 0) :
    ∃ hp, HalfPlane.ofPoints Real.sqrt a (fun i => a i + u * d i) (fun i => a i + v * d i) = .ok hp ∧
      hp.normal = 0 ∧ ∀ x, ¬ Inside hp x := by
  have hne : ∀ w : ℝ, w ≠ 0 → a ≠ fun i => a i + w * d i := by
    intro w hw h
    apply hd
    funext i
    have := congrFun h i
    simp only [left_eq_add, mul_eq_zero] at this
    rcases this with h' | h'
    · exact absurd h' hw
    · exact h'
  have hx : cross3 (fun i => (a i + u * d i) - a i) (fun i => (a i + v * d i) - a i) = 0 := by
    funext i
    fin_cases i <;> simp [cross3] <;> ring
  have hn : normalized3 Real.sqrt (0 : Fin 3 → ℝ) = 0 := by
    unfold normalized3
    rw [if_neg (by simp [dot3])]
  refine ⟨⟨a, 0⟩, ?_, rfl, ?_⟩
  · unfold HalfPlane.ofPoints
    rw [Res.check_of (hne u hu), Res.ok_bind, Res.check_of (hne v hv), Res.ok_bind, hx, hn]
    rfl
  · intro x hx'
    unfold Inside at hx'
    simp at hx'

/-- The points (0,0,1), (1,0,1), (0,1,1) are not on a line. -/
example : cross3 (fun i => (![1, 0, 1] : Fin 3 → ℝ) i - ![0, 0, 1] i)
    (fun i => (![0, 1, 1] : Fin 3 → ℝ) i - ![0, 0, 1] i) ≠ 0 := by
  intro h
  have := congrFun h 2
  simp [cross3] at this

example : (![1, 2, 3] : Fin 3 → ℝ) ≠ 0 ∧ (1 : ℝ) ≠ 0 ∧ (2 : ℝ) ≠ 0 :=
  ⟨fun h => by simpa using congrFun h 0, by norm_num, by norm_num⟩

end Verif
