import Verif.Spec.Visualization
import Verif.Proofs.Io

/-
Lemmas for drawing.
-/
namespace Verif

open Spec
open scoped Quaternion

set_option linter.unusedSectionVars false

/-! ### Quaternions -/

@[simp] theorem quat_re (q : Quat ℝ) : (quat q).re = q.w := rfl
@[simp] theorem quat_imI (q : Quat ℝ) : (quat q).imI = q.x := rfl
@[simp] theorem quat_imJ (q : Quat ℝ) : (quat q).imJ = q.y := rfl
@[simp] theorem quat_imK (q : Quat ℝ) : (quat q).imK = q.z := rfl
@[simp] theorem pureQuat_re (v : Vec3 ℝ) : (pureQuat v).re = 0 := rfl
@[simp] theorem pureQuat_imI (v : Vec3 ℝ) : (pureQuat v).imI = v.x := rfl
@[simp] theorem pureQuat_imJ (v : Vec3 ℝ) : (pureQuat v).imJ = v.y := rfl
@[simp] theorem pureQuat_imK (v : Vec3 ℝ) : (pureQuat v).imK = v.z := rfl

theorem moved_rotate (t : Vec3 ℝ) {q : Quat ℝ} (hq : UnitQuat q) (v : Vec3 ℝ) :
    Moved t q v ((q.rotate v).add t) := by
  unfold UnitQuat at hq
  have hw : q.w * q.w + q.x * q.x + q.y * q.y + q.z * q.z - 1 = 0 := by nlinarith
  unfold Moved Quat.rotate Vec3.add Vec3.smul Vec3.cross
  apply Quaternion.ext
  · simp; ring
  · simp
    linear_combination (-v.x) * hw
  · simp
    linear_combination (-v.y) * hw
  · simp
    linear_combination (-v.z) * hw

theorem quat_mul (a b : Quat ℝ) : quat (a.mul b) = quat a * quat b := by
  unfold Quat.mul
  apply Quaternion.ext <;> simp <;> ring

theorem rotate_axis (q : Quat ℝ) (s : ℝ) :
    (q.rotate ⟨1, 0, 0⟩).smul s = q.rotate ⟨s, 0, 0⟩ ∧ (q.rotate ⟨0, 1, 0⟩).smul s = q.rotate ⟨0, s, 0⟩ ∧
    (q.rotate ⟨0, 0, 1⟩).smul s = q.rotate ⟨0, 0, s⟩ := by
  unfold Quat.rotate Vec3.add Vec3.smul Vec3.cross
  refine ⟨?_, ?_, ?_⟩ <;> simp only [Vec3.mk.injEq] <;> refine ⟨?_, ?_, ?_⟩ <;> ring

theorem pureQuat_add (a b : Vec3 ℝ) : pureQuat (a.add b) = pureQuat a + pureQuat b := by
  unfold Vec3.add
  apply Quaternion.ext <;> simp

theorem zero_add3 (p : Vec3 ℝ) : (Vec3.zero : Vec3 ℝ).add p = p := by
  unfold Vec3.zero Vec3.add
  simp

theorem norm_sub (a b : Vec3 ℝ) : (a.sub b).norm Real.sqrt = dist3 a b := by
  unfold Vec3.norm Vec3.sub dist3
  simp only [pow_two]

theorem dist3_nonneg (a b : Vec3 ℝ) : 0 ≤ dist3 a b := Real.sqrt_nonneg _

theorem pathLength_nonneg (ps : List (Vec3 ℝ)) (i j : ℕ) : 0 ≤ pathLength ps i j :=
  Finset.sum_nonneg fun _ _ => dist3_nonneg _ _

theorem pathLength_cons (p : Vec3 ℝ) (ps : List (Vec3 ℝ)) (i j : ℕ) :
    pathLength (p :: ps) (i + 1) (j + 1) = pathLength ps i j := by
  unfold pathLength
  rw [← Finset.sum_Ico_add' (fun m => dist3 ((p :: ps).getD m ⟨0, 0, 0⟩) ((p :: ps).getD (m + 1) ⟨0, 0, 0⟩)) i j 1]
  rfl

theorem pathLength_zero (p q : Vec3 ℝ) (ps : List (Vec3 ℝ)) (j : ℕ) :
    pathLength (p :: q :: ps) 0 (j + 1) = dist3 p q + pathLength (q :: ps) 0 j := by
  rw [← pathLength_cons p (q :: ps) 0 j]
  unfold pathLength
  rw [Finset.sum_eq_sum_Ico_succ_bot (by omega)]
  rfl

theorem pathLength_split (ps : List (Vec3 ℝ)) {i j k : ℕ} (h1 : i ≤ j) (h2 : j ≤ k) :
    pathLength ps i k = pathLength ps i j + pathLength ps j k := by
  unfold pathLength
  rw [Finset.sum_Ico_consecutive _ h1 h2]

/-! ### Marker groups -/

theorem foldl_append_map {α : Type} (f : α → α) (g out : List α) :
    g.foldl (fun o m => o ++ [f m]) out = out ++ g.map f := by
  induction g generalizing out with
  | nil => simp
  | cons a g ih => simp [ih]

theorem getMarkers_append (g out : List (Marker ℝ)) : getMarkers g out 1 true = out ++ g := by
  unfold getMarkers
  simp only [Bool.true_eq_false, false_and, if_false, if_true]
  rw [foldl_append_map (fun m => m)]
  simp

theorem movedMarker_transform (t : Vec3 ℝ) {q : Quat ℝ} (hq : UnitQuat q) (e : Marker ℝ) :
    MovedMarker t q e (transformMarker t q e) where
  position := moved_rotate t hq e.position
  orientation := quat_mul _ _
  ns := rfl
  type := rfl
  scale := rfl
  color := rfl
  points := rfl
  colors := rfl
  mesh := rfl
  frameLocked := rfl

theorem drawPose_ok {conv : TPoint ℝ → Vec3 ℝ} (hconv : ∀ p, conv p = p.position) (extra : List (Marker ℝ))
    {p : TPoint ℝ} (hp : UnitQuat p.orientation) (out : List (Marker ℝ)) :
    ∃ ms, drawPose conv extra p out = .ok (out ++ ms) ∧ DrawnAt extra p ms := by
  obtain ⟨a1, a2, a3⟩ := rotate_axis p.orientation (3 / 10)
  refine ⟨?_, ?_, ?_⟩
  rotate_left
  · unfold drawPose
    have e1 : positionDerivativeToString 2 = .ok "acceleration" := by decide
    have e2 : positionDerivativeToString 1 = .ok "velocity" := by decide
    rw [e1, Res.ok_bind, e2, Res.ok_bind]
    dsimp only
    rw [getMarkers_append]
    unfold appendMarkers drawAxesArrows
    rw [foldl_append_map, hconv, a1, a2, a3, zero_add3]
    simp only [List.append_assoc, Res.pure_eq]
    rfl
  · refine ⟨_, _, _, _, _, _, _, _, _, _, _, rfl, moved_rotate _ hp _, ⟨rfl, rfl, rfl, rfl, Or.inr rfl⟩, moved_rotate _ hp _,
      ⟨rfl, rfl, rfl, rfl, Or.inr rfl⟩, moved_rotate _ hp _, ⟨rfl, rfl, rfl, rfl, Or.inr rfl⟩, pureQuat_add _ _, ⟨rfl, rfl, rfl, rfl, Or.inr rfl⟩,
      pureQuat_add _ _, ⟨rfl, rfl, rfl, rfl, Or.inr rfl⟩, ?_⟩
    refine List.forall₂_map_right_iff (f := transformMarker p.position p.orientation) (l := extra)
      (u := extra) |>.mpr ?_
    exact List.forall₂_same.mpr fun e _ => movedMarker_transform _ hp e

/-! ### The loop over the points -/

theorem drawLoop_ok {conv : TPoint ℝ → Vec3 ℝ} (hconv : ∀ p, conv p = p.position) (extra : List (Marker ℝ))
    (distance : ℝ) (ps : List (TPoint ℝ)) (hu : ∀ p ∈ ps, UnitQuat p.orientation) :
    ∀ (acc : ℝ) (last : Vec3 ℝ) (out : List (Marker ℝ)) (line : List (Vec3 ℝ)), 0 ≤ acc →
    ∃ (marks : List ℕ) (blocks : List (List (Marker ℝ))),
      drawLoop Real.sqrt conv extra distance ps acc last out line =
        .ok (out ++ blocks.flatten, line ++ ps.map TPoint.position) ∧
      List.Forall₂ (fun i ms => ∃ p, ps[i]? = some p ∧ DrawnAt extra p ms) marks blocks ∧
      Spaced distance (ps.map TPoint.position) marks ∧
      (∀ j ∈ marks, distance < acc + pathLength (last :: ps.map TPoint.position) 0 (j + 1)) ∧
      (∀ j < ps.length, distance < acc + pathLength (last :: ps.map TPoint.position) 0 (j + 1) →
        ∃ k ∈ marks, k ≤ j) := by
  induction ps with
  | nil =>
    intro acc last out line _
    refine ⟨[], [], by simp [drawLoop], .nil, ⟨by simp, by simp, by simp, by simp⟩, by simp, by simp⟩
  | cons p ps ih =>
    intro acc last out line hacc
    have hu' : ∀ p ∈ ps, UnitQuat p.orientation := fun r hr => hu r (List.mem_cons_of_mem _ hr)
    set acc' := acc + (last.sub p.position).norm Real.sqrt with hacc'
    have hacc'' : acc' = acc + dist3 last p.position := by rw [hacc', norm_sub]
    have hd0 := dist3_nonneg last p.position
    have hlen : ∀ j, acc + pathLength (last :: (p :: ps).map TPoint.position) 0 (j + 1) =
        acc' + pathLength (p.position :: ps.map TPoint.position) 0 j := by
      intro j
      rw [List.map_cons, pathLength_zero, hacc'']
      ring
    have hshift : ∀ i j, pathLength ((p :: ps).map TPoint.position) (i + 1) (j + 1) =
        pathLength (ps.map TPoint.position) i j := fun i j => pathLength_cons _ _ _ _
    by_cases hc : acc' > distance
    · obtain ⟨ms, hms, hat⟩ := drawPose_ok hconv extra (hu p (by simp)) out
      obtain ⟨marks, blocks, h1, h2, h3, h4, h5⟩ :=
        ih hu' 0 p.position (out ++ ms) (line ++ [p.position]) le_rfl
      refine ⟨0 :: marks.map (· + 1), ms :: blocks, ?_, ?_, ⟨?_, ?_, ?_, ?_⟩, ?_, ?_⟩
      · unfold drawLoop
        simp only [← hacc', if_pos hc]
        rw [hms, Res.ok_bind, h1]
        simp
      · refine .cons ⟨p, rfl, hat⟩ ?_
        rw [List.forall₂_map_left_iff]
        exact h2
      · rw [List.pairwise_cons]
        refine ⟨by simp, ?_⟩
        rw [List.pairwise_map]
        exact h3.ascending.imp (by intro a b h; omega)
      · intro i hi
        rcases List.mem_cons.mp hi with rfl | hi
        · simp
        · obtain ⟨i', hi', rfl⟩ := List.mem_map.mp hi
          have := h3.inRange i' hi'
          simpa using this
      · intro i hi j hj hij
        rcases List.mem_cons.mp hj with rfl | hj
        · omega
        obtain ⟨j', hj', rfl⟩ := List.mem_map.mp hj
        rcases List.mem_cons.mp hi with rfl | hi
        · have := h4 j' hj'
          rw [zero_add] at this
          exact this
        · obtain ⟨i', hi', rfl⟩ := List.mem_map.mp hi
          rw [hshift]
          exact h3.apart i' hi' j' hj' (by omega)
      · intro i hi j hij hj hd
        obtain ⟨j, rfl⟩ : ∃ j', j = j' + 1 := ⟨j - 1, by omega⟩
        have hj' : j < ps.length := by simpa using hj
        rcases List.mem_cons.mp hi with rfl | hi
        · obtain ⟨k, hk, hkj⟩ := h5 j hj' (by rw [zero_add]; exact hd)
          exact ⟨k + 1, List.mem_cons_of_mem _ (List.mem_map.mpr ⟨k, hk, rfl⟩), by omega, by omega⟩
        · obtain ⟨i', hi', rfl⟩ := List.mem_map.mp hi
          rw [hshift] at hd
          obtain ⟨k, hk, h6, h7⟩ := h3.dense i' hi' j (by omega) (by simpa using hj') hd
          exact ⟨k + 1, List.mem_cons_of_mem _ (List.mem_map.mpr ⟨k, hk, rfl⟩), by omega, by omega⟩
      · intro j _
        rw [hlen]
        have := pathLength_nonneg (p.position :: ps.map TPoint.position) 0 j
        linarith
      · intro j _ _
        exact ⟨0, by simp, by omega⟩
    · obtain ⟨marks, blocks, h1, h2, h3, h4, h5⟩ :=
        ih hu' acc' p.position out (line ++ [p.position]) (by rw [hacc'']; linarith)
      refine ⟨marks.map (· + 1), blocks, ?_, ?_, ⟨?_, ?_, ?_, ?_⟩, ?_, ?_⟩
      · unfold drawLoop
        simp only [← hacc', if_neg hc]
        rw [h1]
        simp
      · rw [List.forall₂_map_left_iff]
        exact h2
      · rw [List.pairwise_map]
        exact h3.ascending.imp (by intro a b h; omega)
      · intro i hi
        obtain ⟨i', hi', rfl⟩ := List.mem_map.mp hi
        have := h3.inRange i' hi'
        simpa using this
      · intro i hi j hj hij
        obtain ⟨i', hi', rfl⟩ := List.mem_map.mp hi
        obtain ⟨j', hj', rfl⟩ := List.mem_map.mp hj
        rw [hshift]
        exact h3.apart i' hi' j' hj' (by omega)
      · intro i hi j hij hj hd
        obtain ⟨j, rfl⟩ : ∃ j', j = j' + 1 := ⟨j - 1, by omega⟩
        have hj' : j < ps.length := by simpa using hj
        obtain ⟨i', hi', rfl⟩ := List.mem_map.mp hi
        rw [hshift] at hd
        obtain ⟨k, hk, h6, h7⟩ := h3.dense i' hi' j (by omega) (by simpa using hj') hd
        exact ⟨k + 1, List.mem_map.mpr ⟨k, hk, rfl⟩, by omega, by omega⟩
      · intro j hj
        obtain ⟨j', hj', rfl⟩ := List.mem_map.mp hj
        rw [hlen]
        exact h4 j' hj'
      · intro j hj hd
        rw [hlen] at hd
        rcases j with _ | j
        · unfold pathLength at hd
          simp only [Finset.Ico_self, Finset.sum_empty, add_zero] at hd
          exact absurd hd hc
        · obtain ⟨k, hk, hkj⟩ := h5 j (by simpa using hj) hd
          exact ⟨k + 1, List.mem_map.mpr ⟨k, hk, rfl⟩, by omega⟩

/-! ### Properties of all markers -/

theorem setPropertiesLoop_get (h : Header ℝ) (lt : ℝ) (a : ℤ) (ms : List (Marker ℝ)) (c : ℤ) (i : ℕ) :
    (setPropertiesLoop h lt a c ms)[i]? =
      ms[i]?.map fun m => { m with header := h, action := a, id := c + i, lifetime := lt } := by
  induction ms generalizing c i with
  | nil => simp [setPropertiesLoop]
  | cons m ms ih =>
    unfold setPropertiesLoop
    cases i with
    | zero => simp
    | succ i =>
      simp only [List.getElem?_cons_succ]
      rw [ih]
      congr 1
      funext m
      congr 1
      push_cast
      ring

theorem shown_setMarkerProperties (frame : String) (now : ℝ) (ms : List (Marker ℝ)) :
    Shown frame now (setMarkerProperties ⟨frame, now⟩ 0 0 ms) := by
  intro i m hm
  unfold setMarkerProperties at hm
  rw [setPropertiesLoop_get, Option.map_eq_some_iff] at hm
  obtain ⟨m', -, rfl⟩ := hm
  exact ⟨rfl, rfl, rfl, rfl, by simp⟩

theorem setPropertiesLoop_append (h : Header ℝ) (lt : ℝ) (a : ℤ) (l l' : List (Marker ℝ)) (c : ℤ) :
    setPropertiesLoop h lt a c (l ++ l') =
      setPropertiesLoop h lt a c l ++ setPropertiesLoop h lt a (c + l.length) l' := by
  induction l generalizing c with
  | nil => simp [setPropertiesLoop]
  | cons m l ih =>
    simp only [List.cons_append, setPropertiesLoop, ih, List.length_cons]
    congr 3
    push_cast
    ring

theorem setPropertiesLoop_forall₂ {R : Marker ℝ → Marker ℝ → Prop} (h : Header ℝ) (lt : ℝ) (a : ℤ)
    (hR : ∀ e m c, R e m → R e { m with header := h, action := a, id := c, lifetime := lt })
    {l l' : List (Marker ℝ)} (hl : List.Forall₂ R l l') (c : ℤ) :
    List.Forall₂ R l (setPropertiesLoop h lt a c l') := by
  induction hl generalizing c with
  | nil => exact .nil
  | cons h1 _ ih => exact .cons (hR _ _ _ h1) (ih _)

theorem drawnAt_setProperties (h : Header ℝ) (lt : ℝ) (a : ℤ) (c : ℤ) {extra : List (Marker ℝ)} {p : TPoint ℝ}
    {ms : List (Marker ℝ)} (hd : DrawnAt extra p ms) : DrawnAt extra p (setPropertiesLoop h lt a c ms) := by
  obtain ⟨x, y, z, ac, v, rest, px, py, pz, pa, pv, rfl, m1, a1, m2, a2, m3, a3, m4, a4, m5, a5, hr⟩ := hd
  refine ⟨_, _, _, _, _, _, px, py, pz, pa, pv, rfl, m1, ⟨a1.ns, a1.type, a1.points, a1.origin⟩, m2,
    ⟨a2.ns, a2.type, a2.points, a2.origin⟩, m3, ⟨a3.ns, a3.type, a3.points, a3.origin⟩, m4, ⟨a4.ns, a4.type, a4.points, a4.origin⟩, m5,
    ⟨a5.ns, a5.type, a5.points, a5.origin⟩, ?_⟩
  refine setPropertiesLoop_forall₂ h lt a ?_ hr _
  intro e m c hm
  exact ⟨hm.1, hm.2, hm.3, hm.4, hm.5, hm.6, hm.7, hm.8, hm.9, hm.10⟩

theorem blocks_setProperties (h : Header ℝ) (lt : ℝ) (a : ℤ) {extra : List (Marker ℝ)} {ps : List (TPoint ℝ)}
    {marks : List ℕ} {blocks : List (List (Marker ℝ))}
    (hb : List.Forall₂ (fun i ms => ∃ p, ps[i]? = some p ∧ DrawnAt extra p ms) marks blocks) (c : ℤ) :
    ∃ blocks', setPropertiesLoop h lt a c blocks.flatten = blocks'.flatten ∧
      List.Forall₂ (fun i ms => ∃ p, ps[i]? = some p ∧ DrawnAt extra p ms) marks blocks' := by
  induction hb generalizing c with
  | nil => exact ⟨[], rfl, .nil⟩
  | cons h1 _ ih =>
    obtain ⟨p, hp, hd⟩ := h1
    rename_i i ms marks' blocks' _
    obtain ⟨b', hb', hf⟩ := ih (c + ms.length)
    refine ⟨setPropertiesLoop h lt a c ms :: b', ?_, .cons ⟨p, hp, drawnAt_setProperties h lt a c hd⟩ hf⟩
    rw [List.flatten_cons, setPropertiesLoop_append, hb', List.flatten_cons]

/-- What `drawMavSampledTrajectoryWithMavMarker` draws. -/
theorem drawSampledWithMarker_ok {conv : TPoint ℝ → Vec3 ℝ} (hconv : ∀ p, conv p = p.position) (now : ℝ)
    (ps : List (TPoint ℝ)) (hu : ∀ p ∈ ps, UnitQuat p.orientation) (distance : ℝ) (frame : String)
    (extra : List (Marker ℝ)) :
    ∃ ms marks blocks strip, drawSampledWithMarker Real.sqrt conv now ps distance frame extra = .ok ms ∧
      Shown frame now ms ∧ ms = List.flatten blocks ++ [strip] ∧
      Line "path" (ps.map TPoint.position) strip ∧
      List.Forall₂ (fun i ms => ∃ p, ps[i]? = some p ∧ DrawnAt extra p ms) marks blocks ∧
      Spaced distance (ps.map TPoint.position) marks ∧
      (∀ j ∈ marks, distance < pathLength (⟨0, 0, 0⟩ :: ps.map TPoint.position) 0 (j + 1)) ∧
      (∀ j < ps.length, distance < pathLength (⟨0, 0, 0⟩ :: ps.map TPoint.position) 0 (j + 1) →
        ∃ k ∈ marks, k ≤ j) := by
  obtain ⟨marks, blocks, h1, h2, h3, h4, h5⟩ := drawLoop_ok hconv extra distance ps hu 0 .zero [] [] le_rfl
  obtain ⟨blocks', hb, hb'⟩ := blocks_setProperties ⟨frame, now⟩ 0 0 h2 0
  simp only [zero_add, List.nil_append] at h1 h4 h5
  refine ⟨?ms, marks, blocks', ?strip, ?a, ?b, ?c, ?d, hb', h3, h4, h5⟩
  case a =>
    unfold drawSampledWithMarker
    rw [h1, Res.ok_bind]
    rfl
  case b => exact shown_setMarkerProperties _ _ _
  case c =>
    unfold setMarkerProperties
    rw [setPropertiesLoop_append, hb]
    rfl
  case d => exact ⟨rfl, rfl, rfl, rfl, Or.inr rfl⟩

end Verif
