import Verif.Proofs.VisualizationShapes

/-
Property C105: drawn axes, arrows and covariances.
-/
namespace Verif

open Spec

/-! ### C105 single drawn shapes -/

/-- **C105 (axes).** The marker of `drawAxes` shows three lines from the given position, in red, green and blue,
along the axes of the frame turned by the given orientation and of the given length; whatever the marker held
before. -/
theorem C105_axes (p : Vec3 ℝ) {q : Quat ℝ} (hq : UnitQuat q) (scale width : ℝ) (m : Marker ℝ) :
    ∃ px py pz, Moved p q ⟨scale, 0, 0⟩ px ∧ Moved p q ⟨0, scale, 0⟩ py ∧ Moved p q ⟨0, 0, scale⟩ pz ∧
      (drawAxes p q scale width m).points.length = 6 ∧
      ShowsLine (drawAxes p q scale width m) 0 p px ⟨1, 0, 0, 1⟩ ∧
      ShowsLine (drawAxes p q scale width m) 1 p py ⟨0, 1, 0, 1⟩ ∧
      ShowsLine (drawAxes p q scale width m) 2 p pz ⟨0, 0, 1, 1⟩ := by
  have h0 := unitQuat_ne_zero hq
  have ho := moved_zero p q
  refine ⟨_, _, _, moved_rotate p hq _, moved_rotate p hq _, moved_rotate p hq _, rfl, ?_, ?_, ?_⟩
  · refine ⟨rfl, rfl, _, _, rfl, rfl, Or.inr ⟨h0, ho⟩, Or.inr ⟨h0, ?_⟩, rfl, rfl⟩
    simp only [drawAxes, one_mul]
    exact moved_rotate p hq _
  · refine ⟨rfl, rfl, _, _, rfl, rfl, Or.inr ⟨h0, ho⟩, Or.inr ⟨h0, ?_⟩, rfl, rfl⟩
    simp only [drawAxes, one_mul]
    exact moved_rotate p hq _
  · refine ⟨rfl, rfl, _, _, rfl, rfl, Or.inr ⟨h0, ho⟩, Or.inr ⟨h0, ?_⟩, rfl, rfl⟩
    simp only [drawAxes, one_mul]
    exact moved_rotate p hq _

/-- **C105 (covariance).** The marker of `drawCovariance3D` shows exactly the points that are at most `n`
standard deviations from the mean, for every covariance matrix, also a singular one, and whatever the marker held
before. -/
theorem C105_covariance {eig : Mat3 ℝ → Vec3 ℝ × Mat3 ℝ} (he : IsEigenSolver eig) {toQuat : Mat3 ℝ → Quat ℝ}
    (ht : IsToQuat toQuat) (mu : Vec3 ℝ) {cov : Mat3 ℝ} (hc : Covariance cov) (c : Color ℝ) {n : ℝ} (hn : 0 < n)
    (m : Marker ℝ) (x : Vec3 ℝ) :
    InSphere (drawCovariance3D Real.sqrt eig toQuat mu cov c n m) x ↔ InEllipsoid n mu cov x := by
  have hsym : cov.symmetrize = cov := by
    obtain ⟨⟨a, b, d⟩, ⟨e, f, g⟩, ⟨h, i, j⟩⟩ := cov
    obtain ⟨h1, h2, h3, _⟩ := hc
    simp only at h1 h2 h3
    subst h1 h2 h3
    simp only [Mat3.symmetrize, Mat3.mk.injEq, Vec3.mk.injEq]
    refine ⟨⟨?_, ?_, ?_⟩, ⟨?_, ?_, ?_⟩, ?_, ?_, ?_⟩ <;> ring
  obtain ⟨ho, e0, e1, e2⟩ := he cov hc.xy hc.xz hc.yz
  set r := eig cov with hr
  have hrot := rotation_cross ho
  have e2' := eigen_cross ho e2
  have p0 := smul_nonneg_eigen hc ho.n0 e0
  have p1 := smul_nonneg_eigen hc ho.n1 e1
  have p2 := smul_nonneg_eigen hc ho.n2 e2
  rw [inEllipsoid_iff hrot.1 p0 p1 p2 e0 e1 e2' hn]
  obtain ⟨hu, hm⟩ := ht _ hrot
  have hne := unitQuat_ne_zero hu
  have hs : (drawCovariance3D Real.sqrt eig toQuat mu cov c n m).scale =
      ⟨√r.1.x * n * 2, √r.1.y * n * 2, √r.1.z * n * 2⟩ := by
    simp only [drawCovariance3D, hsym, Vec3.smul, ← hr]
  have hq : (drawCovariance3D Real.sqrt eig toQuat mu cov c n m).orientation =
      toQuat { r.2 with c2 := r.2.c0.cross r.2.c1 } := by
    simp only [drawCovariance3D, hsym, ← hr]
  have hp : (drawCovariance3D Real.sqrt eig toQuat mu cov c n m).position = mu := rfl
  unfold InSphere Placed
  rw [hs, hq, hp]
  constructor
  · rintro ⟨_, u, hu1, h | ⟨_, h⟩⟩
    · exact absurd h.1 hne
    · refine ⟨u, hu1, ?_⟩
      have h' := moved_unique h (moved_shift (hm _) mu)
      rw [h']
      simp only [add_sub_cancel_right]
      congr 2 <;> ring
  · rintro ⟨u, hu1, h⟩
    refine ⟨rfl, u, hu1, Or.inr ⟨hne, ?_⟩⟩
    have h' := moved_shift (hm ⟨√r.1.x * n * 2 / 2 * u.x, √r.1.y * n * 2 / 2 * u.y, √r.1.z * n * 2 / 2 * u.z⟩) mu
    convert h' using 1
    rw [show (⟨√r.1.x * n * 2 / 2 * u.x, √r.1.y * n * 2 / 2 * u.y, √r.1.z * n * 2 / 2 * u.z⟩ : Vec3 ℝ) =
      ⟨n * √r.1.x * u.x, n * √r.1.y * u.y, n * √r.1.z * u.z⟩ by congr 1 <;> ring, h]
    cases x
    simp

/-- **C105 (arrows)**, partial: an arrow given by position, orientation and length, drawn into a marker without
points, is shown from the position along the first axis of the turned frame. Missing: markers that have been used
before, see `C105_arrow_reuse_false`. -/
theorem C105_arrow_partial (p : Vec3 ℝ) {q : Quat ℝ} (hq : UnitQuat q) (c : Color ℝ) (length diameter : ℝ)
    (m : Marker ℝ) (hm : m.points = []) :
    ∃ e, Moved p q ⟨length, 0, 0⟩ e ∧
      ShowsArrow (drawArrowPositionOrientation p q c length diameter m) p e ∧
      (drawArrowPositionOrientation p q c length diameter m).color = c := by
  have h0 := unitQuat_ne_zero hq
  have ho := moved_zero p q
  exact ⟨_, moved_rotate p hq _, ⟨rfl, Or.inl ⟨hm, Or.inr ⟨h0, ho⟩, Or.inr ⟨h0, moved_rotate p hq _⟩⟩⟩, rfl⟩

/-- **C105 (arrows)**, partial: an arrow between two points, drawn into a marker whose pose has not been set, is
shown between these points. Missing: markers that have been used before, see `C105_points_reuse_false`. -/
theorem C105_arrow_points_partial (a b : Vec3 ℝ) (c : Color ℝ) (diameter : ℝ) (m : Marker ℝ) (hm : AtOrigin m) :
    ShowsArrow (drawArrowPoints a b c diameter m) a b ∧ (drawArrowPoints a b c diameter m).color = c := by
  have key : ∀ v, Placed (drawArrowPoints a b c diameter m) v v := by
    intro v
    obtain ⟨h1, h2 | h2⟩ := hm
    · right
      simp only [drawArrowPoints]
      rw [h1, h2]
      refine ⟨by simp, ?_⟩
      unfold Moved
      apply Quaternion.ext <;> simp
    · left
      simp only [drawArrowPoints]
      rw [h1, h2]
      simp
  exact ⟨⟨rfl, Or.inr ⟨a, b, rfl, key a, key b⟩⟩, rfl⟩

/-- **C105 (arrows)** is false for markers that have been used: the points of the arrow drawn before stay, and are
what is shown. -/
theorem C105_arrow_reuse_false : ¬ ∀ (p : Vec3 ℝ) (q : Quat ℝ) (c : Color ℝ) (length diameter : ℝ) (m : Marker ℝ),
    UnitQuat q → ∀ e, Moved p q ⟨length, 0, 0⟩ e →
      ShowsArrow (drawArrowPositionOrientation p q c length diameter m) p e := by
  intro h
  have hm : Moved ⟨0, 0, 0⟩ ⟨1, 0, 0, 0⟩ ⟨1, 0, 0⟩ ⟨1, 0, 0⟩ := by
    unfold Moved
    apply Quaternion.ext <;> simp
  have h1 := h ⟨0, 0, 0⟩ ⟨1, 0, 0, 0⟩ ⟨0, 0, 0, 1⟩ 1 1
    (drawArrowPoints ⟨0, 0, 0⟩ ⟨0, 5, 0⟩ ⟨0, 0, 0, 1⟩ 1 .new) (by norm_num [UnitQuat]) ⟨1, 0, 0⟩ hm
  obtain ⟨_, ⟨h2, _⟩ | ⟨a, b, h2, _, h3⟩⟩ := h1
  · simp [drawArrowPositionOrientation, drawArrowPoints] at h2
  · simp only [drawArrowPositionOrientation, drawArrowPoints, List.cons.injEq, and_true] at h2
    obtain ⟨rfl, rfl⟩ := h2
    rcases h3 with ⟨h3, _⟩ | ⟨_, h3⟩
    · simp [drawArrowPositionOrientation] at h3
    · have h4 : Moved ⟨0, 0, 0⟩ ⟨1, 0, 0, 0⟩ ⟨0, 5, 0⟩ ⟨0, 5, 0⟩ := by
        unfold Moved
        apply Quaternion.ext <;> simp
      have := moved_unique h3 h4
      simp at this

/-- **C105 (arrows)** is false for markers that have been used: the pose of what was drawn before stays, and moves
the arrow. -/
theorem C105_points_reuse_false : ¬ ∀ (a b : Vec3 ℝ) (c : Color ℝ) (diameter : ℝ) (m : Marker ℝ),
    ShowsArrow (drawArrowPoints a b c diameter m) a b := by
  intro h
  have h1 := h ⟨0, 0, 0⟩ ⟨1, 0, 0⟩ ⟨0, 0, 0, 1⟩ 1
    (drawArrowPositionOrientation ⟨0, 0, 7⟩ ⟨1, 0, 0, 0⟩ ⟨0, 0, 0, 1⟩ 1 1 .new)
  obtain ⟨_, ⟨h2, _⟩ | ⟨a, b, h2, h3, _⟩⟩ := h1
  · simp [drawArrowPoints] at h2
  · simp only [drawArrowPoints, List.cons.injEq, and_true] at h2
    obtain ⟨rfl, rfl⟩ := h2
    rcases h3 with ⟨h3, _⟩ | ⟨_, h3⟩
    · simp [drawArrowPositionOrientation, drawArrowPoints] at h3
    · have h4 : Moved ⟨0, 0, 7⟩ ⟨1, 0, 0, 0⟩ ⟨0, 0, 0⟩ ⟨0, 0, 7⟩ := by
        unfold Moved
        apply Quaternion.ext <;> simp
      have := moved_unique h3 h4
      simp at this

/-! ### the hypotheses are met -/

example : (∃ eig, IsEigenSolver eig) ∧ ∃ toQuat, IsToQuat toQuat := ⟨exists_eigenSolver, exists_toQuat⟩

/-- A covariance with correlated coordinates. -/
example : Covariance ⟨⟨2, 1, 0⟩, ⟨1, 2, 0⟩, ⟨0, 0, 3⟩⟩ ∧ InEllipsoid 1 ⟨0, 0, 0⟩ ⟨⟨2, 1, 0⟩, ⟨1, 2, 0⟩, ⟨0, 0, 3⟩⟩ ⟨1, 1, 0⟩ ∧
    ¬ InEllipsoid 1 ⟨0, 0, 0⟩ ⟨⟨2, 1, 0⟩, ⟨1, 2, 0⟩, ⟨0, 0, 3⟩⟩ ⟨1, -1, 0⟩ := by
  refine ⟨⟨rfl, rfl, rfl, fun v => ?_⟩, ⟨⟨1 / 3, 1 / 3, 0⟩, by norm_num [app3], by norm_num [dot3]⟩, ?_⟩
  · simp only [dot3, app3]
    nlinarith [sq_nonneg (v.x + v.y), sq_nonneg v.x, sq_nonneg v.y, sq_nonneg v.z]
  · rintro ⟨w, h1, h2⟩
    simp only [app3, Vec3.mk.injEq] at h1
    obtain ⟨a, b, _⟩ := h1
    simp only [dot3] at h2
    nlinarith

example : UnitQuat ⟨3 / 5, 0, 0, 4 / 5⟩ ∧ AtOrigin (.new : Marker ℝ) ∧ (.new : Marker ℝ).points = [] :=
  ⟨by norm_num [UnitQuat], ⟨rfl, Or.inr rfl⟩, rfl⟩

end Verif
