import Verif.Props.Visualization

/-
Properties C95 to C98: groups of markers, drawing by time, drawing of vertices, numbers of markers.
-/
namespace Verif

open Spec
open scoped Quaternion

set_option linter.unusedSectionVars false

/-! ### C95 groups of markers -/

/-- **C95.** `getMarkers(out, s, append)` keeps what the array held exactly when asked to append, and adds the
markers of the group in order with positions and sizes multiplied by `s`. -/
theorem C95_getMarkers (g out : List (Marker ℝ)) (s : ℝ) (append : Bool) :
    ∃ ms, getMarkers g out s append = (if append then out else []) ++ ms ∧
      List.Forall₂ (fun e m => m = { e with
        position := ⟨s * e.position.x, s * e.position.y, s * e.position.z⟩
        scale := ⟨s * e.scale.x, s * e.scale.y, s * e.scale.z⟩ }) g ms := by
  have key : ∀ e : Marker ℝ, (if s = 1 then e else e.magnify s) = { e with
        position := ⟨s * e.position.x, s * e.position.y, s * e.position.z⟩
        scale := ⟨s * e.scale.x, s * e.scale.y, s * e.scale.z⟩ } := by
    intro e
    split_ifs with h
    · subst h; simp
    · simp only [Marker.magnify, mul_comm]
  refine ⟨g.map fun e => if s = 1 then e else e.magnify s, ?_, ?_⟩
  · unfold getMarkers
    cases append
    · by_cases h : s = 1
      · simp [h]
      · simp only [h, and_false, if_false, ne_eq, not_false_eq_true, and_self, if_true]
        rw [foldl_append_map (fun e : Marker ℝ => e.magnify s)]
        simp
    · simp only [Bool.true_eq_false, false_and, if_false, if_true]
      rw [foldl_append_map (fun e : Marker ℝ => if s = 1 then e else e.magnify s)]
  · rw [List.forall₂_map_right_iff]
    exact List.forall₂_same.mpr fun e _ => key e

/-- A quaternion product with a factor that is not zero determines the other factor. -/
theorem mul_orientation_inj {q q' o : Quat ℝ} (ho : o ≠ ⟨0, 0, 0, 0⟩) (h : q.mul o = q'.mul o) : q = q' := by
  apply quat_inj
  have h1 := congrArg quat h
  rw [quat_mul, quat_mul] at h1
  have h0 : quat o ≠ 0 := by
    intro hz
    apply ho
    apply quat_inj
    rw [hz]
    apply Quaternion.ext <;> simp
  exact mul_right_cancel₀ h0 h1

/-- **C95**, partial. The simple hexacopter turns with the vehicle: with different orientations of the vehicle
every part of it has different orientations. The full statement is for both forms (`C95_mesh_false`). -/
theorem C95_vehicle_partial {m : Marker ℝ} (hm : m ∈ hexacopter Real.sqrt true) (t t' : Vec3 ℝ) {q q' : Quat ℝ}
    (hq : q ≠ q') : (transformMarker t q m).orientation ≠ (transformMarker t' q' m).orientation := by
  have ho : m.orientation ≠ ⟨0, 0, 0, 0⟩ := by
    have h2 : (0 : ℝ) < √2 := by positivity
    simp only [hexacopter, setFrameLocked, if_true, List.map_append, List.map_cons, List.map_nil, List.mem_append,
      List.mem_cons, List.not_mem_nil, or_false] at hm
    rcases hm with (rfl | rfl | rfl | rfl | rfl | rfl) | (rfl | rfl | rfl) <;>
      simp [hexRotor, hexArm, Quat.mk.injEq, h2.ne']
  exact fun h => hq (mul_orientation_inj ho h)

/-- **C95**, what is missing: the meshes of the other form of the hexacopter have the orientation 0, and keep it
however the vehicle is turned. -/
theorem C95_mesh_false : ¬ ∀ (simple : Bool) (m : Marker ℝ), m ∈ hexacopter Real.sqrt simple →
    ∀ (t t' : Vec3 ℝ) (q q' : Quat ℝ), UnitQuat q → UnitQuat q' → q ≠ q' →
    (transformMarker t q m).orientation ≠ (transformMarker t' q' m).orientation := by
  intro h
  refine h false ((setFrameLocked true [hexMesh 7 "package://mav_visualization/meshes/firefly_carbon.dae"
    ⟨3 / 10, 3 / 10, 3 / 10, 1⟩]).head (by simp [setFrameLocked])) ?_ ⟨0, 0, 0⟩ ⟨0, 0, 0⟩ ⟨1, 0, 0, 0⟩ ⟨0, 1, 0, 0⟩
    (by norm_num [UnitQuat]) (by norm_num [UnitQuat]) (by simp) ?_
  · simp [hexacopter, setFrameLocked]
  · simp [transformMarker, setFrameLocked, hexMesh, Quat.mul, Marker.new]

/-- Moving written out. -/
theorem moved_formula (t v : Vec3 ℝ) (q : Quat ℝ) : Moved t q v
    ⟨t.x + (q.w ^ 2 + q.x ^ 2 - q.y ^ 2 - q.z ^ 2) * v.x + 2 * (q.x * q.y - q.w * q.z) * v.y +
        2 * (q.x * q.z + q.w * q.y) * v.z,
      t.y + 2 * (q.x * q.y + q.w * q.z) * v.x + (q.w ^ 2 - q.x ^ 2 + q.y ^ 2 - q.z ^ 2) * v.y +
        2 * (q.y * q.z - q.w * q.x) * v.z,
      t.z + 2 * (q.x * q.z - q.w * q.y) * v.x + 2 * (q.y * q.z + q.w * q.x) * v.y +
        (q.w ^ 2 - q.x ^ 2 - q.y ^ 2 + q.z ^ 2) * v.z⟩ := by
  unfold Moved
  apply Quaternion.ext <;> simp <;> ring

/-- **C95 (the hexacopter).** The first six parts are flat discs of 0.2 m in the plane of the vehicle, no two of
them overlap, and in the simple form each of them is at an end of one of the three bars (to a millimetre). -/
theorem C95_hexacopter :
    (∀ simple, ∀ i j, i < 6 → j < 6 → ∀ a b, (hexacopter Real.sqrt simple)[i]? = some a →
      (hexacopter Real.sqrt simple)[j]? = some b →
      a.type = .cylinder ∧ a.scale.x = 1 / 5 ∧ a.scale.y = 1 / 5 ∧ a.position.z = 0 ∧
      a.orientation = ⟨1, 0, 0, 0⟩ ∧ (i ≠ j → 1 / 5 < dist3 a.position b.position)) ∧
    (∀ i < 6, ∀ a, (hexacopter Real.sqrt true)[i]? = some a → ∃ j, 6 ≤ j ∧ j < 9 ∧ ∃ b,
      (hexacopter Real.sqrt true)[j]? = some b ∧ b.type = .cube ∧ ∃ side : ℝ, (side = 1 ∨ side = -1) ∧ ∃ e,
        Moved b.position b.orientation ⟨side * b.scale.x / 2, 0, 0⟩ e ∧
        (e.x - a.position.x) ^ 2 + (e.y - a.position.y) ^ 2 ≤ (1 / 1000) ^ 2 ∧ |e.z| ≤ 2 / 100) := by
  have h2 := Real.sq_sqrt (show (0 : ℝ) ≤ 2 by norm_num)
  have h2' : √2 / 2 * (√2 / 2) = 1 / 2 := by nlinarith
  constructor
  · intro simple i j hi hj a b ha hb
    have hd : ∀ x y : ℝ, 1 / 25 < y → 1 / 5 < √(0 + y) := by
      intro _ y hy
      rw [zero_add]
      apply Real.lt_sqrt_of_sq_lt
      norm_num
      linarith
    cases simple <;> interval_cases i <;> interval_cases j <;>
      simp only [hexacopter, setFrameLocked, Bool.false_eq_true, if_false, if_true, List.map_append, List.map_cons,
        List.map_nil, List.cons_append, List.nil_append, List.getElem?_cons_zero, List.getElem?_cons_succ,
        Option.some.injEq] at ha hb <;>
      subst ha <;> subst hb <;>
      refine ⟨rfl, rfl, rfl, rfl, rfl, fun h => ?_⟩ <;>
      first
      | exact absurd rfl h
      | (simp only [dist3, hexRotor]
         apply Real.lt_sqrt_of_sq_lt
         norm_num)
  · intro i hi a ha
    have fin : ∀ (j : ℕ) (id : ℤ) (w z : ℝ) (side : ℝ), 6 ≤ j → j < 9 →
        (hexacopter Real.sqrt true)[j]? = some { hexArm id w z with frameLocked := true } → (side = 1 ∨ side = -1) →
        ((w ^ 2 - z ^ 2) * (side * (11 / 25) / 2) - a.position.x) ^ 2 +
          (2 * (w * z) * (side * (11 / 25) / 2) - a.position.y) ^ 2 ≤ (1 / 1000) ^ 2 →
        ∃ j, 6 ≤ j ∧ j < 9 ∧ ∃ b,
          (hexacopter Real.sqrt true)[j]? = some b ∧ b.type = .cube ∧ ∃ side : ℝ, (side = 1 ∨ side = -1) ∧ ∃ e,
          Moved b.position b.orientation ⟨side * b.scale.x / 2, 0, 0⟩ e ∧
          (e.x - a.position.x) ^ 2 + (e.y - a.position.y) ^ 2 ≤ (1 / 1000) ^ 2 ∧ |e.z| ≤ 2 / 100 := by
      intro j id w z side h6 h9 hj hs hle
      refine ⟨j, h6, h9, _, hj, rfl, side, hs, _, moved_formula _ _ _, ?_, ?_⟩
      · refine le_trans (le_of_eq ?_) hle
        simp only [hexArm]
        ring
      · simp only [hexArm]
        norm_num [abs_of_nonneg, abs_of_nonpos]
    interval_cases i <;>
      simp only [hexacopter, setFrameLocked, if_true, List.map_append, List.map_cons,
        List.map_nil, List.cons_append, List.nil_append, List.getElem?_cons_zero, List.getElem?_cons_succ,
        Option.some.injEq] at ha <;>
      subst ha
    · exact fin 7 8 _ _ 1 (by norm_num) (by norm_num) rfl (by simp) (by norm_num [hexRotor])
    · exact fin 8 9 _ _ 1 (by norm_num) (by norm_num) rfl (by simp) (by norm_num [hexRotor])
    · refine fin 6 7 _ _ 1 (by norm_num) (by norm_num) rfl (by simp) ?_
      simp only [hexRotor, h2', sub_self]
      norm_num
    · refine fin 6 7 _ _ (-1) (by norm_num) (by norm_num) rfl (by simp) ?_
      simp only [hexRotor, h2', sub_self]
      norm_num
    · exact fin 8 9 _ _ (-1) (by norm_num) (by norm_num) rfl (by simp) (by norm_num [hexRotor])
    · exact fin 7 8 _ _ (-1) (by norm_num) (by norm_num) rfl (by simp) (by norm_num [hexRotor])

/-- **C95 (the tripod).** The legs of the tripod (the first five parts) reach from the lower side of the head to
1.35 m below it: their upper ends are within 2 cm of the axis of the head, the lower ends about 0.38 m off.
`c15` is the cosine of 15 degrees to four digits. -/
theorem C95_tripod {c15 : ℝ} (hc : |c15 - 9659 / 10000| ≤ 1 / 10000) (i : ℕ) (hi : i < 5) (m : Marker ℝ)
    (hm : (leica c15)[i]? = some m) :
    ∃ top foot head, (leica c15)[5]? = some head ∧ head.orientation = ⟨1, 0, 0, 0⟩ ∧
      Moved m.position m.orientation ⟨0, 0, m.scale.z / 2⟩ top ∧
      Moved m.position m.orientation ⟨0, 0, -(m.scale.z / 2)⟩ foot ∧
      |top.z - (head.position.z - head.scale.z / 2)| ≤ 1 / 1000 ∧ |foot.z - (top.z - 135 / 100)| ≤ 1 / 1000 ∧
      (top.x - head.position.x) ^ 2 + (top.y - head.position.y) ^ 2 ≤ (2 / 100) ^ 2 ∧
      (37 / 100) ^ 2 ≤ (foot.x - head.position.x) ^ 2 + (foot.y - head.position.y) ^ 2 := by
  have h1 := abs_le.mp hc
  have hpos : 0 < c15 := by linarith [h1.1]
  obtain ⟨l, hl, l1, l2⟩ : ∃ l, 27 / 20 / c15 / 2 = l ∧ 6987 / 10000 ≤ l ∧ l ≤ 6990 / 10000 := by
    refine ⟨_, rfl, ?_, ?_⟩
    · rw [div_div, le_div_iff₀ (by linarith)]; linarith [h1.2]
    · rw [div_div, div_le_iff₀ (by linarith)]; linarith [h1.1]
  refine ⟨_, _, _, rfl, rfl, moved_formula _ _ _, moved_formula _ _ _, ?_⟩
  interval_cases i <;>
    simp only [leica, List.getElem?_cons_zero, List.getElem?_cons_succ, Option.some.injEq] at hm <;>
    subst hm <;>
    simp only [leicaLeg, hl] <;>
    refine ⟨?_, ?_, ?_, ?_⟩ <;>
    first
    | (rw [abs_le]; constructor <;> linarith)
    | nlinarith

/-- The hypotheses are met: a quarter turn about the vertical axis. -/
example : UnitQuat ⟨√2 / 2, 0, 0, √2 / 2⟩ ∧
    (transformGroup ⟨1, 2, 3⟩ ⟨√2 / 2, 0, 0, √2 / 2⟩ (hexacopter Real.sqrt true)).length = 9 := by
  refine ⟨?_, by simp [transformGroup, hexacopter, setFrameLocked]⟩
  have := Real.sq_sqrt (show (0 : ℝ) ≤ 2 by norm_num)
  simp only [UnitQuat]
  nlinarith

/-! ### C96 drawing by time -/

theorem asUint32_diff {t t0 : ℤ} (h : t0 ≤ t) :
    (((asUint32 t + 2 ^ 32 - asUint32 t0) % 2 ^ 32 : ℕ) : ℤ) = (t - t0) % 2 ^ 32 := by
  unfold asUint32
  have a := Int.emod_nonneg t (show (2 ^ 32 : ℤ) ≠ 0 by norm_num)
  have b := Int.emod_lt_of_pos t (show (0 : ℤ) < 2 ^ 32 by norm_num)
  have c := Int.emod_nonneg t0 (show (2 ^ 32 : ℤ) ≠ 0 by norm_num)
  have d := Int.emod_lt_of_pos t0 (show (0 : ℤ) < 2 ^ 32 by norm_num)
  omega

/-- What the loop keeps, when the last point kept was at `t0` and the last point seen at `tp`. -/
theorem filterByTime_ok (d : ℕ) (l : List (TPoint ℝ)) :
    ∀ (t0 tp : ℤ), t0 ≤ tp → (∀ p ∈ l, tp ≤ p.timeNs) → (l.map TPoint.timeNs).Pairwise (· ≤ ·) →
    (filterByTime d l (asUint32 t0)).Sublist l ∧
    (t0 :: (filterByTime d l (asUint32 t0)).map TPoint.timeNs).Pairwise (fun a b => (d : ℤ) ≤ b - a) ∧
    ((tp = t0 ∨ tp - t0 < d) → (tp :: l.map TPoint.timeNs).IsChain (fun a b => b - a + (d : ℤ) ≤ 2 ^ 32) →
      ∀ p ∈ l, p ∈ filterByTime d l (asUint32 t0) ∨
        ∃ t ∈ t0 :: (filterByTime d l (asUint32 t0)).map TPoint.timeNs, t ≤ p.timeNs ∧ p.timeNs - t < d) := by
  induction l with
  | nil => intro t0 tp _ _ _; simp [filterByTime]
  | cons p l ih =>
    intro t0 tp h1 h2 h3
    have hp := h2 p (by simp)
    rw [List.map_cons, List.pairwise_cons] at h3
    have hl : ∀ q ∈ l, p.timeNs ≤ q.timeNs := fun q hq => h3.1 _ (List.mem_map_of_mem hq)
    have e := asUint32_diff (h1.trans hp)
    have g0 : 0 ≤ p.timeNs - t0 := by omega
    unfold filterByTime
    dsimp only
    by_cases hd : (asUint32 p.timeNs + 2 ^ 32 - asUint32 t0) % 2 ^ 32 ≥ d
    · rw [if_pos hd]
      have hd' : (d : ℤ) ≤ p.timeNs - t0 := by
        have : (d : ℤ) ≤ (p.timeNs - t0) % 2 ^ 32 := by rw [← e]; exact_mod_cast hd
        omega
      obtain ⟨i1, i2, i3⟩ := ih p.timeNs p.timeNs le_rfl hl h3.2
      refine ⟨i1.cons_cons p, ?_, ?_⟩
      · rw [List.map_cons, List.pairwise_cons]
        refine ⟨?_, i2⟩
        intro b hb
        rcases List.mem_cons.mp hb with rfl | hb
        · exact hd'
        · have := (List.pairwise_cons.mp i2).1 b hb
          omega
      · intro _ hc q hq
        rcases List.mem_cons.mp hq with rfl | hq
        · exact Or.inl (by simp)
        · rcases i3 (Or.inl rfl) (by rw [List.map_cons] at hc; exact hc.tail) q hq with h | ⟨t, ht, h⟩
          · exact Or.inl (List.mem_cons_of_mem _ h)
          · exact Or.inr ⟨t, by rw [List.map_cons]; exact List.mem_cons_of_mem _ ht, h⟩
    · rw [if_neg hd]
      obtain ⟨i1, i2, i3⟩ := ih t0 p.timeNs (h1.trans hp) hl h3.2
      refine ⟨i1.cons p, i2, ?_⟩
      intro htp hc q hq
      rw [List.map_cons, List.isChain_cons_cons] at hc
      have hlt : p.timeNs - t0 < d := by
        have h5 : (p.timeNs - t0) % 2 ^ 32 < d := by rw [← e]; exact_mod_cast not_le.mp hd
        have h6 : p.timeNs - t0 < 2 ^ 32 := by
          have := hc.1
          rcases htp with rfl | h
          · by_contra h7
            have h8 : p.timeNs - tp = 2 ^ 32 ∧ d = 0 := by omega
            have := h8.2
            omega
          · omega
        rw [Int.emod_eq_of_lt g0 h6] at h5
        exact h5
      rcases List.mem_cons.mp hq with rfl | hq
      · exact Or.inr ⟨t0, by simp, by omega, hlt⟩
      · exact i3 (Or.inr hlt) hc.2 q hq

/-- **C96**, partial. `drawMavSampledTrajectorybyTime` for at least two points that begin at time 0 and are in
the order of their times, and `dt` below 4.29 seconds (rounded down to nanoseconds): the line and the markers
are for the first point, some points in between, and the last one. The first ones are at least `dt` apart in
time. As long as there is no gap of more than four seconds, every point that is left out is less than `dt` after
one of those. Missing from the full statement: the last point (`C96_last_false`), other times of the first
point (`C96_start_false`), fewer points (`C96_empty_false`, `C96_single`), larger `dt` (`C96_long_false`). -/
theorem C96_spacing_partial {conv : TPoint ℝ → Vec3 ℝ} (hconv : ∀ p, conv p = p.position) (now : ℝ)
    (first last : TPoint ℝ) (inner : List (TPoint ℝ))
    (hu : ∀ p ∈ first :: inner ++ [last], UnitQuat p.orientation)
    (h0 : first.timeNs = 0) (hs : ((first :: inner).map TPoint.timeNs).Pairwise (· ≤ ·))
    (dt : ℝ) (hdt : 0 ≤ dt) (hbig : dt * 10 ^ 9 < 2 ^ 32) (frame : String) :
    ∃ drawn blocks strip marks,
      drawSampledByTime Real.sqrt conv now (first :: inner ++ [last]) dt frame =
        .ok (List.flatten blocks ++ [strip]) ∧
      Shown frame now (List.flatten blocks ++ [strip]) ∧
      Line "path" ((first :: drawn ++ [last]).map TPoint.position) strip ∧
      List.Forall₂ (fun i ms => ∃ p, (first :: drawn ++ [last])[i]? = some p ∧ DrawnAt [] p ms) marks blocks ∧
      Spaced 0 ((first :: drawn ++ [last]).map TPoint.position) marks ∧
      drawn.Sublist inner ∧
      (first :: drawn).Pairwise (fun p q => ⌊dt * 10 ^ 9⌋ ≤ q.timeNs - p.timeNs) ∧
      (((first :: inner).map TPoint.timeNs).IsChain (fun a b => b - a + ⌊dt * 10 ^ 9⌋ ≤ 2 ^ 32) →
        ∀ p ∈ inner, p ∈ drawn ∨
          ∃ q ∈ first :: drawn, q.timeNs ≤ p.timeNs ∧ p.timeNs - q.timeNs < ⌊dt * 10 ^ 9⌋) := by
  have hx : 0 ≤ dt * 10 ^ 9 := by positivity
  have hf : 0 ≤ ⌊dt * 10 ^ 9⌋ := Int.floor_nonneg.mpr hx
  have hn : ((⌊dt * 10 ^ 9⌋.toNat : ℕ) : ℤ) = ⌊dt * 10 ^ 9⌋ := Int.toNat_of_nonneg hf
  rw [List.map_cons, List.pairwise_cons, h0] at hs
  obtain ⟨f1, f2, f3⟩ := filterByTime_ok ⌊dt * 10 ^ 9⌋.toNat inner 0 0 le_rfl
    (fun p hp => hs.1 _ (List.mem_map_of_mem hp)) hs.2
  have hz : asUint32 0 = 0 := rfl
  rw [hz, hn] at f2 f3
  rw [hz] at f1
  set drawn := filterByTime ⌊dt * 10 ^ 9⌋.toNat inner 0 with hdrawn
  have hu' : ∀ p ∈ first :: drawn ++ [last], UnitQuat p.orientation := by
    intro p hp
    apply hu p
    simp only [List.cons_append, List.mem_cons, List.mem_append, List.not_mem_nil, or_false] at hp ⊢
    rcases hp with h | h | h
    · exact Or.inl h
    · exact Or.inr (Or.inl (f1.subset h))
    · exact Or.inr (Or.inr h)
  obtain ⟨ms, marks, blocks, strip, e1, e2, e3, e4, e5, e6, -⟩ :=
    drawSampledWithMarker_ok hconv now (first :: drawn ++ [last]) hu' 0 frame []
  subst e3
  refine ⟨drawn, blocks, strip, marks, ?_, e2, e4, e5, e6, f1, ?_, ?_⟩
  · unfold drawSampledByTime toUint32Ns
    dsimp only
    rw [if_neg (by push Not; exact ⟨by linarith, by exact_mod_cast hbig⟩), Res.ok_bind]
    rw [show Res.at' (first :: inner ++ [last]) 0 = .ok first from rfl, Res.ok_bind]
    rw [Res.at'_of_lt (h := by simp), Res.ok_bind]
    rw [← e1]
    simp [hdrawn]
  · have : ((first :: drawn).map TPoint.timeNs).Pairwise (fun a b => ⌊dt * 10 ^ 9⌋ ≤ b - a) := by
      rw [List.map_cons, h0]; exact f2
    exact List.pairwise_map.mp this
  · intro hc p hp
    rw [List.map_cons, h0] at hc
    rcases f3 (Or.inl rfl) hc p hp with h | ⟨t, ht, h⟩
    · exact Or.inl h
    · refine Or.inr ?_
      rcases List.mem_cons.mp ht with rfl | ht
      · exact ⟨first, by simp, by rw [h0]; exact h⟩
      · obtain ⟨q, hq, rfl⟩ := List.mem_map.mp ht
        exact ⟨q, List.mem_cons_of_mem _ hq, h⟩

/-- The hypotheses are met: points every 100 ms, drawn every 250 ms. -/
example : (∀ p ∈ exPoint 0 0 :: [exPoint 1 100000000, exPoint 2 200000000, exPoint 3 300000000] ++
      [exPoint 4 400000000], UnitQuat p.orientation) ∧
    ((exPoint 0 0 :: [exPoint 1 100000000, exPoint 2 200000000, exPoint 3 300000000]).map
      TPoint.timeNs).Pairwise (· ≤ ·) ∧
    (1 / 4 : ℝ) * 10 ^ 9 < 2 ^ 32 ∧
    ((exPoint 0 0 :: [exPoint 1 100000000, exPoint 2 200000000, exPoint 3 300000000]).map
      TPoint.timeNs).IsChain (fun a b => b - a + 250000000 ≤ 2 ^ 32) ∧
    filterByTime 250000000 [exPoint 1 100000000, exPoint 2 200000000, exPoint 3 300000000] 0 =
      [exPoint 3 300000000] := by
  refine ⟨by simp [exPoint_unit], by simp [exPoint], by norm_num, by simp [exPoint], ?_⟩
  norm_num [filterByTime, asUint32, exPoint, show Int.toNat 100000000 = 100000000 from rfl,
    show Int.toNat 200000000 = 200000000 from rfl, show Int.toNat 300000000 = 300000000 from rfl]

/-- Drawing by time, for a list of points with different positions: the points that are drawn. -/
def DrawnPoint (ms : List (Marker ℝ)) (p : TPoint ℝ) : Prop :=
  ∃ m ∈ ms, m.type = .lineStrip ∧ p.position ∈ m.points

/-- **C96**, what is missing: the last point is drawn even if it is too close. Two points, one nanosecond apart,
`dt` ten nanoseconds. -/
theorem C96_last_false : ¬ ∀ (now : ℝ) (ps : List (TPoint ℝ)), (∀ p ∈ ps, UnitQuat p.orientation) →
    (ps.map TPoint.position).Nodup → (ps.map TPoint.timeNs).Pairwise (· ≤ ·) →
    (∀ p, ps.head? = some p → p.timeNs = 0) → ∀ (dt : ℝ), 0 ≤ dt → ∀ (frame : String) (ms : List (Marker ℝ)),
    drawSampledByTime Real.sqrt TPoint.position now ps dt frame = .ok ms →
    ∀ p ∈ ps, ∀ q ∈ ps, DrawnPoint ms p → DrawnPoint ms q → p.timeNs < q.timeNs →
      dt * 10 ^ 9 ≤ q.timeNs - p.timeNs := by
  intro h
  have hu : ∀ p ∈ exPoint 0 0 :: [] ++ [exPoint 1 1], UnitQuat p.orientation := by simp [exPoint_unit]
  obtain ⟨drawn, blocks, strip, marks, e1, -, e2, -⟩ := C96_spacing_partial (conv := TPoint.position)
    (fun _ => rfl) 0 (exPoint 0 0) (exPoint 1 1) [] hu rfl (by simp) (1 / 10 ^ 8) (by positivity) (by norm_num)
    "world"
  have := h 0 _ hu (by simp [exPoint]) (by simp [exPoint]) (by simp [exPoint]) (1 / 10 ^ 8) (by positivity)
    "world" _ e1 (exPoint 0 0) (by simp) (exPoint 1 1) (by simp)
    ⟨strip, by simp, e2.type, by rw [e2.points]; simp⟩ ⟨strip, by simp, e2.type, by rw [e2.points]; simp⟩
    (by simp [exPoint])
  norm_num [exPoint] at this

/-- **C96**, what is missing: when the first point is not at time 0, the next one may be too close. Points at
5, 6 and 20 ns, `dt` 3 ns: the point at 6 ns is drawn. -/
theorem C96_start_false : ¬ ∀ (now : ℝ) (ps : List (TPoint ℝ)), (∀ p ∈ ps, UnitQuat p.orientation) →
    (ps.map TPoint.position).Nodup → (ps.map TPoint.timeNs).Pairwise (· ≤ ·) →
    ∀ (dt : ℝ), 0 ≤ dt → ∀ (frame : String) (ms : List (Marker ℝ)),
    drawSampledByTime Real.sqrt TPoint.position now ps dt frame = .ok ms →
    -- of all but the last point
    ∀ p ∈ ps.dropLast, ∀ q ∈ ps.dropLast, DrawnPoint ms p → DrawnPoint ms q → p.timeNs < q.timeNs →
      dt * 10 ^ 9 ≤ q.timeNs - p.timeNs := by
  intro h
  have hu : ∀ p ∈ [exPoint 0 5, exPoint 1 6, exPoint 2 20], UnitQuat p.orientation := by simp [exPoint_unit]
  obtain ⟨ms, strip, e1, -, e2⟩ := C93_path (conv := TPoint.position) (fun _ => rfl) 0 _ hu 0 "world" []
  have e : drawSampledByTime Real.sqrt TPoint.position 0 [exPoint 0 5, exPoint 1 6, exPoint 2 20] (3 / 10 ^ 9)
      "world" = .ok (ms ++ [strip]) := by
    rw [← e1]
    unfold drawSampledByTime toUint32Ns
    dsimp only
    rw [show (3 / 10 ^ 9 * 10 ^ 9 : ℝ) = ((3 : ℤ) : ℝ) by norm_num, Int.floor_intCast,
      if_neg (by norm_num), Res.ok_bind]
    rw [show Res.at' [exPoint 0 5, exPoint 1 6, exPoint 2 20] 0 = .ok (exPoint 0 5) from rfl, Res.ok_bind]
    rw [show Res.at' [exPoint 0 5, exPoint 1 6, exPoint 2 20]
      ([exPoint 0 5, exPoint 1 6, exPoint 2 20].length - 1) = .ok (exPoint 2 20) from rfl, Res.ok_bind]
    norm_num [filterByTime, asUint32, exPoint]
  have := h 0 _ hu (by simp [exPoint]) (by simp [exPoint]) (3 / 10 ^ 9) (by positivity)
    "world" _ e (exPoint 0 5) (by simp) (exPoint 1 6) (by simp)
    ⟨strip, by simp, e2.type, by rw [e2.points]; simp⟩ ⟨strip, by simp, e2.type, by rw [e2.points]; simp⟩
    (by simp [exPoint])
  norm_num [exPoint] at this

/-- **C96.** With one point the line goes through it twice. -/
theorem C96_single {conv : TPoint ℝ → Vec3 ℝ} (hconv : ∀ p, conv p = p.position) (now : ℝ) (p : TPoint ℝ)
    (hu : UnitQuat p.orientation) (dt : ℝ) (hdt : 0 ≤ dt) (hbig : dt * 10 ^ 9 < 2 ^ 32) (frame : String) :
    ∃ ms strip, drawSampledByTime Real.sqrt conv now [p] dt frame = .ok (ms ++ [strip]) ∧
      Shown frame now (ms ++ [strip]) ∧ Line "path" [p.position, p.position] strip := by
  obtain ⟨ms, strip, e1, e2, e3⟩ := C93_path hconv now [p, p] (by simp [hu]) 0 frame []
  refine ⟨ms, strip, ?_, e2, e3⟩
  have hx : 0 ≤ dt * 10 ^ 9 := by positivity
  unfold drawSampledByTime toUint32Ns
  dsimp only
  rw [if_neg (by push Not; exact ⟨by linarith, by exact_mod_cast hbig⟩), Res.ok_bind]
  rw [show Res.at' [p] 0 = .ok p from rfl, Res.ok_bind,
    show Res.at' [p] ([p].length - 1) = .ok p from rfl, Res.ok_bind]
  exact e1

/-- **C96**, what is missing: without points the behaviour is undefined. -/
theorem C96_empty_false : ¬ ∀ (now : ℝ) (ps : List (TPoint ℝ)), (∀ p ∈ ps, UnitQuat p.orientation) →
    ∀ (frame : String), ∃ ms, drawSampledByTime Real.sqrt TPoint.position now ps (1 / 10) frame = .ok ms := by
  intro h
  obtain ⟨ms, h⟩ := h 0 [] (by simp) "world"
  unfold drawSampledByTime toUint32Ns at h
  dsimp only at h
  rw [if_neg (by norm_num), Res.ok_bind] at h
  rw [show Res.at' ([] : List (TPoint ℝ)) 0 = .ub from rfl] at h
  simp [bind, Res.bind] at h

/-- **C96**, what is missing: with `dt` of five seconds the behaviour is undefined, whatever the points. -/
theorem C96_long_false : ¬ ∀ (now : ℝ) (ps : List (TPoint ℝ)), (∀ p ∈ ps, UnitQuat p.orientation) → ps ≠ [] →
    ∀ (dt : ℝ), 0 ≤ dt → ∀ (frame : String),
    ∃ ms, drawSampledByTime Real.sqrt TPoint.position now ps dt frame = .ok ms := by
  intro h
  obtain ⟨ms, h⟩ := h 0 [exPoint 0 0] (by simp [exPoint_unit]) (by simp) 5 (by norm_num) "world"
  unfold drawSampledByTime toUint32Ns at h
  dsimp only at h
  rw [if_pos (by norm_num)] at h
  simp [bind, Res.bind] at h

/-! ### C97 drawing of vertices -/

theorem drawVerticesLoop_ok (vs : List (Vertex ℝ)) (hD : ∀ v ∈ vs, v.D = 3 ∧ v.WF) :
    ∀ pts, ∃ ps : List (Vec3 ℝ), drawVerticesLoop vs pts = .ok (pts ++ ps, true) ∧
      ps.map (fun p => [p.x, p.y, p.z]) = vs.filterMap (·.getConstraint 0) := by
  induction vs with
  | nil => intro pts; exact ⟨[], by simp [drawVerticesLoop], rfl⟩
  | cons v vs ih =>
    intro pts
    have ih := ih fun w hw => hD w (List.mem_cons_of_mem _ hw)
    obtain ⟨h3, hw⟩ := hD v (by simp)
    unfold drawVerticesLoop
    rw [if_neg (by simpa using h3)]
    cases hc : v.getConstraint 0 with
    | none =>
      obtain ⟨ps, h1, h2⟩ := ih pts
      exact ⟨ps, h1, by rw [List.filterMap_cons, hc, h2]⟩
    | some c =>
      obtain ⟨p, e1, e2⟩ := vec3Of_ok (l := c) (by rw [hw.dims _ (mapFind_mem hc), h3])
      obtain ⟨ps, h1, h2⟩ := ih (pts ++ [p])
      refine ⟨p :: ps, ?_, by rw [List.filterMap_cons, hc, List.map_cons, h2, e2]⟩
      dsimp only
      rw [e1, Res.ok_bind, h1, List.append_assoc, List.singleton_append]

/-- **C97**, partial. `drawVertices` for vertices of dimension 3 and an array that is empty, or whose first
marker has no points and is not moved: afterwards the array is one line through the positions of the vertices that have one, in
order. Missing from the full statement: arrays that are used again (`C97_reuse_false`), vertices of another
dimension (`C97_dimension_false`). -/
theorem C97_vertices_partial (now : ℝ) (vs : List (Vertex ℝ)) (hD : ∀ v ∈ vs, v.D = 3 ∧ v.WF) (frame : String)
    (old : List (Marker ℝ)) (hold : ∀ m, old.head? = some m → m.points = [] ∧ AtOrigin m) :
    ∃ m ps, drawVertices now vs frame old = .ok [m] ∧ Shown frame now [m] ∧ Line "straight_path" ps m ∧
      ps.map (fun p => [p.x, p.y, p.z]) = vs.filterMap (·.getConstraint 0) := by
  obtain ⟨hp, ho⟩ : (old.headD Marker.new).points = [] ∧ AtOrigin (old.headD Marker.new) := by
    cases old with
    | nil => exact ⟨rfl, rfl, Or.inr rfl⟩
    | cons m _ => exact hold m rfl
  obtain ⟨ps, h1, h2⟩ := drawVerticesLoop_ok vs hD []
  refine ⟨?m, ps, ?_, ?_, ?_, h2⟩
  rotate_left
  · unfold drawVertices
    dsimp only
    rw [hp, h1, Res.ok_bind]
    dsimp only [setMarkerProperties, setPropertiesLoop]
    rw [if_pos rfl]
    rfl
  · intro i m hm
    rcases i with _ | i
    · simp only [List.getElem?_cons_zero, Option.some.injEq] at hm
      subst hm
      exact ⟨rfl, rfl, rfl, rfl, rfl⟩
    · simp at hm
  · exact ⟨rfl, rfl, by simp, ho⟩

theorem startVertices_ok (tr : Trajectory ℝ) (h : tr.WF) (hne : tr.segments ≠ []) (Ts : List ℝ) :
    ∀ t, ∃ vs, startVertices tr Ts t = .ok vs ∧ vs.length = Ts.length ∧
      ∀ j (hj : j < vs.length), tr.getVertexAtTime (t + startTime Ts j) 0 = .ok vs[j] := by
  induction Ts with
  | nil => intro t; exact ⟨[], rfl, rfl, by simp⟩
  | cons T Ts ih =>
    intro t
    obtain ⟨w, h1, -⟩ := C20_vertexAtTime tr h hne t 0
    obtain ⟨vs, i1, i2, i3⟩ := ih (t + T)
    refine ⟨w :: vs, ?_, by simp [i2], ?_⟩
    · unfold startVertices
      have h1' : tr.getVertexAtTime t 0 = .ok w := h1
      rw [h1', Res.ok_bind, i1]; rfl
    · intro j hj
      cases j with
      | zero => simpa [startTime] using h1
      | succ j =>
        have := i3 j (by simpa using hj)
        simp only [List.getElem_cons_succ]
        rw [← this]
        congr 1
        simp [startTime, add_assoc]

/-- **C97**, partial. `drawVerticesFromTrajectory` for a trajectory in three dimensions: one line through the
positions at the starts of the segments and at the end. -/
theorem C97_trajectory_partial (now : ℝ) (tr : Trajectory ℝ) (h : tr.WF) (hne : tr.segments ≠ []) (hD : tr.D = 3)
    (frame : String) (old : List (Marker ℝ)) (hold : ∀ m, old.head? = some m → m.points = [] ∧ AtOrigin m) :
    ∃ m ps, drawVerticesFromTrajectory now tr frame old = .ok [m] ∧ Shown frame now [m] ∧
      Line "straight_path" ps m ∧ ps.length = tr.segments.length + 1 ∧
      ∀ (j : ℕ) p, ps[j]? = some p →
        tr.evaluate (startTime tr.getSegmentTimes j) 0 = .ok [p.x, p.y, p.z] := by
  obtain ⟨vs, i1, i2, i3⟩ := startVertices_ok tr h hne tr.getSegmentTimes 0
  obtain ⟨w, g1, -⟩ := C20_vertexAtTime tr h hne tr.maxTime 0
  have g1' : tr.getGoalVertex 0 = .ok w := g1
  have hlen : tr.getSegmentTimes.length = tr.segments.length := by simp [Trajectory.getSegmentTimes]
  have hall : ∀ j (hj : j < (vs ++ [w]).length),
      tr.getVertexAtTime (startTime tr.getSegmentTimes j) 0 = .ok (vs ++ [w])[j] := by
    intro j hj
    by_cases hjv : j < vs.length
    · rw [List.getElem_append_left hjv, ← i3 j hjv, zero_add]
    · have hje : j = tr.getSegmentTimes.length := by
        rw [List.length_append, List.length_singleton] at hj
        omega
      have : startTime tr.getSegmentTimes j = tr.maxTime := by
        rw [startTime, hje, List.take_length, h.total]
      rw [this]
      rw [List.getElem_append_right (by omega)]
      simpa using g1
  have hver : ∀ j (hj : j < (vs ++ [w]).length), (vs ++ [w])[j].D = 3 ∧ (vs ++ [w])[j].WF ∧
      ∃ c, tr.evaluate (startTime tr.getSegmentTimes j) 0 = .ok c ∧ (vs ++ [w])[j].getConstraint 0 = some c := by
    intro j hj
    choose f hf hfl using fun k => C21_evaluate_partial tr h hne (startTime tr.getSegmentTimes j) k
    obtain ⟨w', a1, a2, a3, a4⟩ := getVertexAtTime_ok tr _ f hf hfl 0
    have a1' : tr.getVertexAtTime (startTime tr.getSegmentTimes j) 0 = .ok w' := a1
    rw [hall j hj, Res.ok.injEq] at a1'
    rw [a1']
    refine ⟨by rw [a2, hD], a3, f 0, hf 0, ?_⟩
    rw [a4 0]
    simp
  obtain ⟨m, ps, c1, c2, c3, c4⟩ := C97_vertices_partial now (vs ++ [w]) (by
    intro v hv
    obtain ⟨j, hj, rfl⟩ := List.getElem_of_mem hv
    exact ⟨(hver j hj).1, (hver j hj).2.1⟩) frame old hold
  have hfm : (vs ++ [w]).filterMap (·.getConstraint 0) = (vs ++ [w]).map fun v => (v.getConstraint 0).getD [] := by
    rw [← List.filterMap_eq_map]
    apply List.filterMap_congr
    intro v hv
    obtain ⟨j, hj, rfl⟩ := List.getElem_of_mem hv
    obtain ⟨-, -, c, -, hc⟩ := hver j hj
    simp [hc]
  rw [hfm] at c4
  have hl := congrArg List.length c4
  simp only [List.length_map, List.length_append, List.length_singleton] at hl
  refine ⟨m, ps, ?_, c2, c3, by omega, ?_⟩
  · unfold drawVerticesFromTrajectory
    rw [if_neg (by intro h0; rw [h0] at hlen; simp at hlen; exact hne (List.length_eq_zero_iff.mp hlen.symm)),
      i1, Res.ok_bind, g1', Res.ok_bind, c1]
  · intro j p hp
    have hjp : j < ps.length := (List.getElem?_eq_some_iff.mp hp).1
    have hj : j < (vs ++ [w]).length := by rw [List.length_append, List.length_singleton]; omega
    obtain ⟨-, -, c, hc1, hc2⟩ := hver j hj
    have := congrArg (fun l => l[j]?) c4
    simp only [List.getElem?_map, hp, Option.map_some, List.getElem?_eq_getElem hj, hc2, Option.getD_some,
      Option.some.injEq] at this
    rw [hc1, this]

/-- A vertex of dimension 3 with a position. -/
def exSpot (x y z : ℝ) : Vertex ℝ := ⟨3, [(0, [x, y, z])]⟩

theorem exSpot_wf (x y z : ℝ) : (exSpot x y z).WF := by
  constructor <;> simp [exSpot]

/-- The hypotheses are met: two vertices with a position and one without. -/
example : (∀ v ∈ [exSpot 0 0 0, ⟨3, []⟩, exSpot 1 2 3], v.D = 3 ∧ v.WF) ∧
    [exSpot 0 0 0, ⟨3, []⟩, exSpot 1 2 3].filterMap (·.getConstraint 0) = [[0, 0, 0], [1, 2, 3]] := by
  refine ⟨?_, ?_⟩
  · simp only [List.mem_cons, List.not_mem_nil, or_false, forall_eq_or_imp, forall_eq]
    exact ⟨⟨rfl, exSpot_wf _ _ _⟩, ⟨trivial, vertex_new_WF 3⟩, rfl, exSpot_wf _ _ _⟩
  · rfl

example : exDraw.WF ∧ exDraw.segments ≠ [] ∧ exDraw.D = 3 := ⟨exDraw_wf, by simp [exDraw], rfl⟩

/-- **C97**, what is missing: when the array is used for a second drawing, the line of the first one is still
there. -/
theorem C97_reuse_false : ¬ ∀ (now : ℝ) (vs vs' : List (Vertex ℝ)), (∀ v ∈ vs, v.D = 3 ∧ v.WF) →
    (∀ v ∈ vs', v.D = 3 ∧ v.WF) → ∀ (frame : String) (ms ms' : List (Marker ℝ)),
    drawVertices now vs frame [] = .ok ms → drawVertices now vs' frame ms = .ok ms' →
    ∀ m ∈ ms', m.points.map (fun p => [p.x, p.y, p.z]) = vs'.filterMap (·.getConstraint 0) := by
  intro h
  have hw : ∀ v ∈ [exSpot 1 2 3], v.D = 3 ∧ v.WF := by
    simp only [List.mem_singleton, forall_eq]
    exact ⟨rfl, exSpot_wf _ _ _⟩
  obtain ⟨m, ps, e1, -, e2, e3⟩ := C97_vertices_partial 0 [exSpot 1 2 3] hw "world" [] (by simp)
  have e4 : drawVertices 0 [exSpot 1 2 3] "world" [m] = .ok (setMarkerProperties ⟨"world", 0⟩ 0 0
      [{ m with type := .lineStrip, color := ⟨0, 1, 0, 1⟩, scale := { m.scale with x := 1 / 100 },
                ns := "straight_path", points := ps ++ [⟨1, 2, 3⟩] }]) := by
    simp [drawVertices, drawVerticesLoop, exSpot, Vertex.getConstraint, mapFind, vec3Of, e2.points, bind, Res.bind,
      pure]
  have := h 0 _ _ hw hw "world" _ _ e1 e4
  have := congrArg List.length (this _ (List.mem_singleton.mpr rfl))
  have e5 := congrArg List.length e3
  simp only [List.map_append, List.length_append, List.length_map, List.length_singleton] at this e5
  change ps.length + 1 = 1 at this
  change ps.length = 1 at e5
  omega

/-- **C97**, what is missing: with a vertex of another dimension the function returns early; the array then holds
a line without a frame, so that it cannot be shown. The positions of a trajectory with yaw are of this kind. -/
theorem C97_dimension_false : ¬ ∀ (now : ℝ) (vs : List (Vertex ℝ)), (∀ v ∈ vs, 3 ≤ v.D ∧ v.WF) →
    ∀ (frame : String) (ms : List (Marker ℝ)), drawVertices now vs frame [] = .ok ms → Shown frame now ms := by
  intro h
  have hw : ∀ v ∈ [(⟨4, [(0, [1, 2, 3, 4])]⟩ : Vertex ℝ)], 3 ≤ v.D ∧ v.WF := by
    simp only [List.mem_singleton, forall_eq]
    exact ⟨by norm_num, by constructor <;> simp⟩
  have e : drawVertices (0 : ℝ) [⟨4, [(0, [1, 2, 3, 4])]⟩] "world" [] =
      .ok [{ (Marker.new : Marker ℝ) with type := .lineStrip, color := ⟨0, 1, 0, 1⟩, scale := ⟨1 / 100, 0, 0⟩,
                                          ns := "straight_path" }] := by
    simp [drawVertices, drawVerticesLoop, bind, Res.bind, pure, Marker.new]
  have := h 0 _ hw "world" _ e 0 _ rfl
  simp [Marker.new] at this

/-- A trajectory in space with yaw: straight along the first axis for a second. -/
noncomputable def exYaw : Trajectory ℝ :=
  ⟨4, 2, 1, [⟨[⟨[0, 4]⟩, ⟨[0, 0]⟩, ⟨[1, 0]⟩, ⟨[0, 0]⟩], 1, 2⟩]⟩

theorem exYaw_wf : exYaw.WF := by
  refine ⟨?_, ?_, ?_, ?_, ?_⟩
  · simp [exYaw, Segment.D]
  · simp [exYaw]
  · norm_num [exYaw, Trajectory.getSegmentTimes]
  · intro s hs
    simp only [exYaw, List.mem_cons, List.not_mem_nil, or_false] at hs
    subst hs
    exact ⟨by simp [Poly.N], by simp⟩
  · simp [exYaw]

/-- **C97**, what is missing, for trajectories: for a trajectory with yaw nothing is drawn. -/
theorem C97_yaw_false : ¬ ∀ (now : ℝ) (tr : Trajectory ℝ), tr.WF → tr.segments ≠ [] → 3 ≤ tr.D →
    ∀ (frame : String) (ms : List (Marker ℝ)), drawVerticesFromTrajectory now tr frame [] = .ok ms →
    ∃ m ∈ ms, m.header.frameId = frame ∧ m.points ≠ [] := by
  intro h
  have hne : exYaw.segments ≠ [] := by simp [exYaw]
  obtain ⟨vs, i1, i2, i3⟩ := startVertices_ok exYaw exYaw_wf hne exYaw.getSegmentTimes 0
  obtain ⟨w, g1, -⟩ := C20_vertexAtTime exYaw exYaw_wf hne exYaw.maxTime 0
  have g1' : exYaw.getGoalVertex 0 = .ok w := g1
  obtain ⟨v, vs, rfl⟩ : ∃ v vs', vs = v :: vs' := by
    cases vs with
    | nil => simp [exYaw, Trajectory.getSegmentTimes] at i2
    | cons v vs => exact ⟨v, vs, rfl⟩
  have hv : v.D = 4 := by
    obtain ⟨v', e1, e2, -⟩ := C20_vertexAtTime exYaw exYaw_wf hne (0 + startTime exYaw.getSegmentTimes 0) 0
    have e1' := (i3 0 (by simp)).symm.trans e1
    simp only [List.getElem_cons_zero, Res.ok.injEq] at e1'
    rw [e1', e2]
    rfl
  have e : drawVerticesFromTrajectory 0 exYaw "world" [] =
      .ok [{ (Marker.new : Marker ℝ) with type := .lineStrip, color := ⟨0, 1, 0, 1⟩, scale := ⟨1 / 100, 0, 0⟩,
                                          ns := "straight_path" }] := by
    unfold drawVerticesFromTrajectory
    rw [if_neg (by simp [exYaw, Trajectory.getSegmentTimes]), i1, Res.ok_bind, g1', Res.ok_bind]
    simp [drawVertices, drawVerticesLoop, hv, bind, Res.bind, pure, Marker.new]
  obtain ⟨m, hm, h1, -⟩ := h 0 exYaw exYaw_wf hne (by norm_num [exYaw]) "world" _ e
  simp only [List.mem_singleton] at hm
  subst hm
  simp [Marker.new] at h1

/-! ### C98 numbers of markers -/

/-- **C98.** In an array that can be shown no two markers have the same namespace and number. -/
theorem C98_array {frame : String} {now : ℝ} {ms : List (Marker ℝ)} (h : Shown frame now ms) :
    (ms.map fun m => (m.ns, m.id)).Nodup := by
  rw [List.nodup_iff_injective_getElem]
  intro i j hij
  simp only [List.getElem_map, Prod.mk.injEq] at hij
  have hi : i.1 < ms.length := by simpa using i.2
  have hj : j.1 < ms.length := by simpa using j.2
  have a := (h i ms[i.1] (List.getElem?_eq_getElem hi)).2.2.2.2
  have b := (h j ms[j.1] (List.getElem?_eq_getElem hj)).2.2.2.2
  apply Fin.ext
  have := hij.2
  omega

/-- **C98.** The markers of every array that is drawn get the numbers 0, 1, 2, ... and so differ, whatever the
numbers and namespaces of the markers were. -/
theorem C98_drawn (hd : Header ℝ) (lifetime : ℝ) (action : ℤ) (ms : List (Marker ℝ)) :
    (setMarkerProperties hd lifetime action ms).map (·.id) = (List.range ms.length).map (fun i : ℕ => (i : ℤ)) ∧
      ((setMarkerProperties hd lifetime action ms).map fun m => (m.ns, m.id)).Nodup := by
  have h1 : (setMarkerProperties hd lifetime action ms).map (·.id) = (List.range ms.length).map (fun i : ℕ => (i : ℤ)) := by
    refine List.ext_getElem? fun i => ?_
    unfold setMarkerProperties
    rw [List.getElem?_map, setPropertiesLoop_get, List.getElem?_map, Option.map_map]
    by_cases hi : i < ms.length
    · rw [List.getElem?_eq_getElem hi, List.getElem?_range hi]
      simp
    · rw [List.getElem?_eq_none (by omega), List.getElem?_eq_none (by simp; omega)]
      rfl
  refine ⟨h1, ?_⟩
  have h2 : ((setMarkerProperties hd lifetime action ms).map (·.id)).Nodup := by
    rw [h1]
    exact List.nodup_range.map Nat.cast_injective
  rw [List.Nodup, List.pairwise_map] at h2 ⊢
  exact h2.imp fun hne he => hne (Prod.mk.injEq _ _ _ _ ▸ he).2

/-- **C98.** Neither have two markers of a hexacopter, in both forms. -/
theorem C98_hexacopter_partial (simple : Bool) :
    ((hexacopter Real.sqrt simple).map fun m => (m.ns, m.id)).Nodup := by
  cases simple <;> simp [hexacopter, setFrameLocked, hexRotor, hexArm, hexMesh]

/-- **C98.** Moving a group and setting its namespace, header, action, lifetime and frame lock keeps the numbers
different. -/
theorem C98_kept {g : List (Marker ℝ)} (h : (g.map (·.id)).Nodup) (t : Vec3 ℝ) (q : Quat ℝ) (ns : String)
    (hd : Header ℝ) (a : ℤ) (lt : ℝ) (b : Bool) :
    ∀ g' ∈ [transformGroup t q g, setNamespace ns g, setHeader hd g, setHeaderAndNamespace hd ns g, setAction a g,
      setLifetime lt g, setFrameLocked b g], (g'.map fun m => (m.ns, m.id)).Nodup := by
  intro g' hg'
  have key : g'.map (·.id) = g.map (·.id) := by
    simp only [List.mem_cons, List.not_mem_nil, or_false] at hg'
    rcases hg' with rfl | rfl | rfl | rfl | rfl | rfl | rfl <;>
      simp only [transformGroup, setNamespace, setHeader, setHeaderAndNamespace, setAction, setLifetime,
        setFrameLocked, List.map_map] <;> rfl
  rw [← key] at h
  rw [List.Nodup, List.pairwise_map] at h ⊢
  exact h.imp fun hne he => hne (Prod.mk.injEq _ _ _ _ ▸ he).2

/-- **C98**, what is missing: the markers of the laser tracker do not have different numbers. Its first leg and
its second leg share a number, so that only one of them is shown at a time. -/
theorem C98_leica_false (c15 : ℝ) : ¬ ((leica c15).map fun m => (m.ns, m.id)).Nodup ∧
    ∃ m ∈ leica c15, ∃ m' ∈ leica c15, m.ns = m'.ns ∧ m.id = m'.id ∧ m.position ≠ m'.position := by
  refine ⟨by simp [leica, leicaLeg], leicaLeg c15 1 ⟨9914 / 10000, 0, -1305 / 10000, 0⟩ (1 / 5) 0, by simp [leica],
    leicaLeg c15 1 ⟨4957 / 10000, 1130 / 10000, -653 / 10000, 8586 / 10000⟩ (-1 / 10) (17 / 100), by simp [leica],
    rfl, rfl, ?_⟩
  simp [leicaLeg]
  norm_num

example : Shown "world" 0 (setMarkerProperties ⟨"world", 0⟩ 0 0 (hexacopter Real.sqrt true)) ∧
    ((hexacopter Real.sqrt true).map (·.id)).Nodup :=
  ⟨shown_setMarkerProperties _ _ _, by simp [hexacopter, setFrameLocked, hexRotor, hexArm]⟩

end Verif
