import Mathlib.LinearAlgebra.Matrix.NonsingularInverse
import Mathlib.Analysis.Matrix.Spectrum
import Verif.Spec.VisualizationShapes
import Verif.Proofs.Visualization

/-
Lemmas for single drawn shapes: rotations as matrices and quaternions, ellipsoids.
-/
namespace Verif

open Spec
open scoped Quaternion

theorem rows_of_columns {v : Mat3 ℝ} (h : Orthonormal3 v) :
    (v.c0.x * v.c0.x + v.c1.x * v.c1.x + v.c2.x * v.c2.x = 1 ∧
     v.c0.y * v.c0.y + v.c1.y * v.c1.y + v.c2.y * v.c2.y = 1 ∧
     v.c0.z * v.c0.z + v.c1.z * v.c1.z + v.c2.z * v.c2.z = 1) ∧
    v.c0.x * v.c0.y + v.c1.x * v.c1.y + v.c2.x * v.c2.y = 0 ∧
    v.c0.x * v.c0.z + v.c1.x * v.c1.z + v.c2.x * v.c2.z = 0 ∧
    v.c0.y * v.c0.z + v.c1.y * v.c1.z + v.c2.y * v.c2.z = 0 := by
  obtain ⟨⟨a, b, c⟩, ⟨d, e, f⟩, ⟨g, i, j⟩⟩ := v
  obtain ⟨h0, h1, h2, h3, h4, h5⟩ := h
  simp only [dot3] at *
  have hm : (!![a, b, c; d, e, f; g, i, j] : Matrix (Fin 3) (Fin 3) ℝ) * !![a, d, g; b, e, i; c, f, j] = 1 := by
    ext p q
    fin_cases p <;> fin_cases q <;> simp [Matrix.mul_apply, Fin.sum_univ_three] <;> linarith
  have hm' := mul_eq_one_comm.mp hm
  have key : ∀ p q, (!![a, d, g; b, e, i; c, f, j] * !![a, b, c; d, e, f; g, i, j] : Matrix (Fin 3) (Fin 3) ℝ) p q =
      (1 : Matrix (Fin 3) (Fin 3) ℝ) p q := fun p q => by rw [hm']
  refine ⟨⟨?_, ?_, ?_⟩, ?_, ?_, ?_⟩
  · simpa [Matrix.mul_apply, Fin.sum_univ_three] using key 0 0
  · simpa [Matrix.mul_apply, Fin.sum_univ_three] using key 1 1
  · simpa [Matrix.mul_apply, Fin.sum_univ_three] using key 2 2
  · simpa [Matrix.mul_apply, Fin.sum_univ_three] using key 0 1
  · simpa [Matrix.mul_apply, Fin.sum_univ_three] using key 0 2
  · simpa [Matrix.mul_apply, Fin.sum_univ_three] using key 1 2

/-- A vector in an orthonormal basis. -/
theorem expand3 {v : Mat3 ℝ} (h : Orthonormal3 v) (w : Vec3 ℝ) :
    app3 v ⟨dot3 w v.c0, dot3 w v.c1, dot3 w v.c2⟩ = w := by
  obtain ⟨⟨r1, r2, r3⟩, r4, r5, r6⟩ := rows_of_columns h
  obtain ⟨x, y, z⟩ := w
  simp only [app3, dot3, Vec3.mk.injEq]
  refine ⟨?_, ?_, ?_⟩
  · linear_combination x * r1 + y * r4 + z * r5
  · linear_combination x * r4 + y * r2 + z * r6
  · linear_combination x * r5 + y * r6 + z * r3

/-- Completing two orthonormal vectors by their cross product. -/
theorem rotation_cross {v : Mat3 ℝ} (h : Orthonormal3 v) :
    Rotation3 { v with c2 := v.c0.cross v.c1 } := by
  obtain ⟨h0, h1, h2, h3, h4, h5⟩ := h
  obtain ⟨⟨a, b, c⟩, ⟨d, e, f⟩, ⟨g, i, j⟩⟩ := v
  simp only [dot3] at *
  refine ⟨⟨h0, h1, ?_, h3, ?_, ?_⟩, rfl⟩ <;> simp only [dot3, Vec3.cross]
  · linear_combination h0 * (d * d + e * e + f * f) + h1 - (a * d + b * e + c * f) * h3
  · ring
  · ring

/-- The third eigenvector may be replaced by the cross product of the others. -/
theorem eigen_cross {a v : Mat3 ℝ} (h : Orthonormal3 v) {l : ℝ} (he : app3 a v.c2 = Vec3.smul l v.c2) :
    app3 a (v.c0.cross v.c1) = Vec3.smul l (v.c0.cross v.c1) := by
  have hr := rotation_cross h
  have hx := expand3 hr.1 v.c2
  have h4 := h.d02
  have h5 := h.d12
  have h2 := h.n2
  simp only at hx
  set s := dot3 v.c2 (v.c0.cross v.c1) with hs
  set k := v.c0.cross v.c1 with hk
  rw [show dot3 v.c2 v.c0 = 0 by rw [← h4]; simp only [dot3]; ring,
    show dot3 v.c2 v.c1 = 0 by rw [← h5]; simp only [dot3]; ring] at hx
  have hx1 : v.c2 = Vec3.smul s k := by
    rw [← hx]
    simp [app3, Vec3.smul]
  have hkk : dot3 k k = 1 := hr.1.n2
  have hss : s * s = 1 := by
    rw [hx1] at h2
    simp only [dot3, Vec3.smul] at h2 hkk
    linear_combination h2 - s * s * hkk
  rw [hx1] at he
  simp only [app3, Vec3.smul, Vec3.mk.injEq] at he ⊢
  obtain ⟨e1, e2, e3⟩ := he
  refine ⟨?_, ?_, ?_⟩
  · linear_combination s * e1 + (k.x * l - (a.c0.x * k.x + a.c1.x * k.y + a.c2.x * k.z)) * hss
  · linear_combination s * e2 + (k.y * l - (a.c0.y * k.x + a.c1.y * k.y + a.c2.y * k.z)) * hss
  · linear_combination s * e3 + (k.z * l - (a.c0.z * k.x + a.c1.z * k.y + a.c2.z * k.z)) * hss

theorem smul_nonneg_eigen {a : Mat3 ℝ} (ha : Covariance a) {c : Vec3 ℝ} (hc : dot3 c c = 1) {l : ℝ}
    (he : app3 a c = Vec3.smul l c) : 0 ≤ l := by
  have := ha.nonneg c
  rw [he] at this
  simp only [dot3, Vec3.smul] at this hc
  have h2 : l = c.x * (c.x * l) + c.y * (c.y * l) + c.z * (c.z * l) := by linear_combination -l * hc
  rwa [h2]

/-- A symmetric matrix in the basis of its eigenvectors. -/
theorem app3_basis {a v : Mat3 ℝ} {l0 l1 l2 : ℝ} (h0 : app3 a v.c0 = Vec3.smul l0 v.c0)
    (h1 : app3 a v.c1 = Vec3.smul l1 v.c1) (h2 : app3 a v.c2 = Vec3.smul l2 v.c2) (y : Vec3 ℝ) :
    app3 a (app3 v y) = app3 v ⟨l0 * y.x, l1 * y.y, l2 * y.z⟩ := by
  simp only [app3, Vec3.smul, Vec3.mk.injEq] at *
  obtain ⟨a1, a2, a3⟩ := h0
  obtain ⟨b1, b2, b3⟩ := h1
  obtain ⟨c1, c2, c3⟩ := h2
  refine ⟨?_, ?_, ?_⟩
  · linear_combination y.x * a1 + y.y * b1 + y.z * c1
  · linear_combination y.x * a2 + y.y * b2 + y.z * c2
  · linear_combination y.x * a3 + y.y * b3 + y.z * c3

/-- Scalar products in an orthonormal basis. -/
theorem dot3_basis {v : Mat3 ℝ} (h : Orthonormal3 v) (y z : Vec3 ℝ) : dot3 (app3 v y) (app3 v z) = dot3 y z := by
  obtain ⟨h0, h1, h2, h3, h4, h5⟩ := h
  simp only [dot3, app3] at *
  linear_combination y.x * z.x * h0 + y.y * z.y * h1 + y.z * z.z * h2 + (y.x * z.y + y.y * z.x) * h3 +
    (y.x * z.z + y.z * z.x) * h4 + (y.y * z.z + y.z * z.y) * h5

/-- The ellipsoid of a matrix with orthonormal eigenvectors is the ball stretched by the roots of the
eigenvalues. -/
theorem inEllipsoid_iff {a v : Mat3 ℝ} (h : Orthonormal3 v) {l0 l1 l2 : ℝ} (p0 : 0 ≤ l0) (p1 : 0 ≤ l1) (p2 : 0 ≤ l2)
    (h0 : app3 a v.c0 = Vec3.smul l0 v.c0) (h1 : app3 a v.c1 = Vec3.smul l1 v.c1)
    (h2 : app3 a v.c2 = Vec3.smul l2 v.c2) {n : ℝ} (hn : 0 < n) (mu x : Vec3 ℝ) :
    InEllipsoid n mu a x ↔ ∃ u : Vec3 ℝ, u.x ^ 2 + u.y ^ 2 + u.z ^ 2 ≤ 1 ∧
      app3 v ⟨n * √l0 * u.x, n * √l1 * u.y, n * √l2 * u.z⟩ = ⟨x.x - mu.x, x.y - mu.y, x.z - mu.z⟩ := by
  set d : Vec3 ℝ := ⟨x.x - mu.x, x.y - mu.y, x.z - mu.z⟩ with hd
  have s0 := Real.mul_self_sqrt p0
  have s1 := Real.mul_self_sqrt p1
  have s2 := Real.mul_self_sqrt p2
  unfold InEllipsoid
  rw [← hd]
  constructor
  · rintro ⟨w, hw, hle⟩
    set y : Vec3 ℝ := ⟨dot3 w v.c0, dot3 w v.c1, dot3 w v.c2⟩ with hy
    have hwy : app3 v y = w := expand3 h w
    have hdy : app3 v ⟨l0 * y.x, l1 * y.y, l2 * y.z⟩ = d := by rw [← app3_basis h0 h1 h2, hwy, hw]
    refine ⟨⟨√l0 * y.x / n, √l1 * y.y / n, √l2 * y.z / n⟩, ?_, ?_⟩
    · rw [← hwy, ← hdy, dot3_basis h] at hle
      simp only [dot3] at hle
      have : (√l0 * y.x / n) ^ 2 + (√l1 * y.y / n) ^ 2 + (√l2 * y.z / n) ^ 2 =
          (y.x * (l0 * y.x) + y.y * (l1 * y.y) + y.z * (l2 * y.z)) / n ^ 2 := by
        field_simp
        linear_combination y.x ^ 2 * s0 + y.y ^ 2 * s1 + y.z ^ 2 * s2
      simp only
      rw [this, div_le_one (by positivity)]
      exact hle
    · rw [← hdy]
      congr 2
      · field_simp
        linear_combination y.x * s0
      · field_simp
        linear_combination y.y * s1
      · field_simp
        linear_combination y.z * s2
  · rintro ⟨u, hu, hx⟩
    have key : ∀ l b : ℝ, 0 ≤ l → √l * √l = l → ∃ y, l * y = n * √l * b ∧ y * (l * y) ≤ n ^ 2 * b ^ 2 := by
      intro l b hl hs
      rcases hl.eq_or_lt with rfl | hl
      · exact ⟨0, by simp, by simp; positivity⟩
      · have hr : 0 < √l := Real.sqrt_pos.mpr hl
        refine ⟨n * b / √l, ?_, ?_⟩
        · field_simp
          linear_combination -b * hs
        · have : n * b / √l * (l * (n * b / √l)) = n ^ 2 * b ^ 2 := by
            field_simp
            linear_combination -b ^ 2 * hs
          exact this.le
    obtain ⟨y0, e0, q0⟩ := key l0 u.x p0 s0
    obtain ⟨y1, e1, q1⟩ := key l1 u.y p1 s1
    obtain ⟨y2, e2, q2⟩ := key l2 u.z p2 s2
    have hA : app3 a (app3 v ⟨y0, y1, y2⟩) = d := by
      rw [app3_basis h0 h1 h2]
      simp only
      rw [e0, e1, e2, hx]
    refine ⟨app3 v ⟨y0, y1, y2⟩, hA, ?_⟩
    rw [← hA, app3_basis h0 h1 h2, dot3_basis h]
    simp only [dot3]
    nlinarith [mul_le_mul_of_nonneg_left hu (sq_nonneg n)]

/-! ### the assumptions about Eigen can be met -/

/-- Every rotation matrix belongs to a unit quaternion. -/
theorem exists_quat {v : Mat3 ℝ} (h : Rotation3 v) :
    ∃ q : Quat ℝ, UnitQuat q ∧ ∀ x, Moved ⟨0, 0, 0⟩ q x (app3 v x) := by
  obtain ⟨⟨r1, r2, r3⟩, r4, r5, r6⟩ := rows_of_columns h.1
  obtain ⟨⟨h0, h1, h2, h3, h4, h5⟩, hc⟩ := h
  obtain ⟨⟨a, b, c⟩, ⟨d, e, f⟩, ⟨g, i, j⟩⟩ := v
  simp only [dot3, Vec3.cross, Vec3.mk.injEq] at *
  obtain ⟨k1, k2, k3⟩ := hc
  -- the other cofactors
  have k4 : a = e * j - f * i := by
    linear_combination (exp := 1) a * h1 * 0 + (e * k3 - f * k2) * (-1) + a * (-1) * h1 + d * h3
  have k5 : b = f * g - d * j := by
    linear_combination (f * k1 - d * k3) * (-1) - b * h1 + e * h3
  have k6 : c = d * i - e * g := by
    linear_combination (d * k2 - e * k1) * (-1) - c * h1 + f * h3
  have k7 : d = i * c - j * b := by
    linear_combination (c * k2 - b * k3) * (-1) - d * h0 + a * h3
  have k8 : e = j * a - g * c := by
    linear_combination (a * k3 - c * k1) * (-1) - e * h0 + b * h3
  have k9 : f = g * b - i * a := by
    linear_combination (b * k1 - a * k2) * (-1) - f * h0 + c * h3
  -- four times the products of the components of the quaternion
  have main : ∀ Kww Kxx Kyy Kzz Kwx Kwy Kwz Kxy Kxz Kyz : ℝ, Kww = 1 + a + e + j → Kxx = 1 + a - e - j →
      Kyy = 1 - a + e - j → Kzz = 1 - a - e + j → Kwx = f - i → Kwy = g - c → Kwz = b - d → Kxy = b + d →
      Kxz = g + c → Kyz = f + i → (∃ w x y z : ℝ, 4 * (w * w) = Kww ∧ 4 * (x * x) = Kxx ∧ 4 * (y * y) = Kyy ∧
        4 * (z * z) = Kzz ∧ 4 * (w * x) = Kwx ∧ 4 * (w * y) = Kwy ∧ 4 * (w * z) = Kwz ∧ 4 * (x * y) = Kxy ∧
        4 * (x * z) = Kxz ∧ 4 * (y * z) = Kyz) := by
    intro Kww Kxx Kyy Kzz Kwx Kwy Kwz Kxy Kxz Kyz eww exx eyy ezz ewx ewy ewz exy exz eyz
    have one : ∀ p : ℝ, 0 < p → (2 * √p) * (2 * √p) = 4 * p ∧ 0 < 2 * √p := fun p hp => by
      refine ⟨?_, by positivity⟩
      have := Real.mul_self_sqrt hp.le
      linear_combination 4 * this
    have fin : ∀ p u v k : ℝ, 0 < p → u * v = p * k → 4 * (u / (2 * √p) * (v / (2 * √p))) = k := by
      intro p u v k hp huv
      obtain ⟨q1, q2⟩ := one p hp
      rw [div_mul_div_comm, q1, huv]
      field_simp
    rcases lt_or_ge 0 Kww with hp | hw
    · refine ⟨Kww / (2 * √Kww), Kwx / (2 * √Kww), Kwy / (2 * √Kww), Kwz / (2 * √Kww), ?_, ?_, ?_, ?_, ?_, ?_, ?_, ?_,
        ?_, ?_⟩ <;> apply fin _ _ _ _ hp <;> subst_vars <;> linarith
    rcases lt_or_ge 0 Kxx with hp | hx
    · refine ⟨Kwx / (2 * √Kxx), Kxx / (2 * √Kxx), Kxy / (2 * √Kxx), Kxz / (2 * √Kxx), ?_, ?_, ?_, ?_, ?_, ?_, ?_, ?_,
        ?_, ?_⟩ <;> apply fin _ _ _ _ hp <;> subst_vars <;> linarith
    rcases lt_or_ge 0 Kyy with hp | hy
    · refine ⟨Kwy / (2 * √Kyy), Kxy / (2 * √Kyy), Kyy / (2 * √Kyy), Kyz / (2 * √Kyy), ?_, ?_, ?_, ?_, ?_, ?_, ?_, ?_,
        ?_, ?_⟩ <;> apply fin _ _ _ _ hp <;> subst_vars <;> linarith
    rcases lt_or_ge 0 Kzz with hp | hz
    · refine ⟨Kwz / (2 * √Kzz), Kxz / (2 * √Kzz), Kyz / (2 * √Kzz), Kzz / (2 * √Kzz), ?_, ?_, ?_, ?_, ?_, ?_, ?_, ?_,
        ?_, ?_⟩ <;> apply fin _ _ _ _ hp <;> subst_vars <;> linarith
    linarith
  obtain ⟨w, x, y, z, e1, e2, e3, e4, e5, e6, e7, e8, e9, e10⟩ := main _ _ _ _ _ _ _ _ _ _ rfl rfl rfl rfl rfl rfl rfl
    rfl rfl rfl
  refine ⟨⟨w, x, y, z⟩, ?_, fun t => ?_⟩
  · simp only [UnitQuat]
    linarith
  · unfold Moved
    apply Quaternion.ext
    · simp
      ring
    · simp [app3]
      linear_combination (-t.x / 4) * (e1 + e2 - e3 - e4) - t.y / 2 * (e8 - e7) - t.z / 2 * (e9 + e6)
    · simp [app3]
      linear_combination (-t.x / 2) * (e8 + e7) - t.y / 4 * (e1 - e2 + e3 - e4) - t.z / 2 * (e10 - e5)
    · simp [app3]
      linear_combination (-t.x / 2) * (e9 - e6) - t.y / 2 * (e10 + e5) - t.z / 4 * (e1 - e2 - e3 + e4)

/-- A solver for eigenvalues as assumed exists. -/
theorem exists_eigenSolver : ∃ eig, IsEigenSolver eig := by
  have key : ∀ a : Mat3 ℝ, ∃ r : Vec3 ℝ × Mat3 ℝ, a.c0.y = a.c1.x → a.c0.z = a.c2.x → a.c1.z = a.c2.y →
      Orthonormal3 r.2 ∧ app3 a r.2.c0 = Vec3.smul r.1.x r.2.c0 ∧
      app3 a r.2.c1 = Vec3.smul r.1.y r.2.c1 ∧ app3 a r.2.c2 = Vec3.smul r.1.z r.2.c2 := by
    intro a
    by_cases hs : a.c0.y = a.c1.x ∧ a.c0.z = a.c2.x ∧ a.c1.z = a.c2.y
    · obtain ⟨s1, s2, s3⟩ := hs
      set A : Matrix (Fin 3) (Fin 3) ℝ := !![a.c0.x, a.c1.x, a.c2.x; a.c0.y, a.c1.y, a.c2.y; a.c0.z, a.c1.z, a.c2.z]
        with hA
      have hH : A.IsHermitian := by
        ext p q
        fin_cases p <;> fin_cases q <;> simp [A, Matrix.conjTranspose_apply, s1, s2, s3]
      set b := hH.eigenvectorBasis with hb
      have horth : ∀ p q : Fin 3, b p 0 * b q 0 + b p 1 * b q 1 + b p 2 * b q 2 = if p = q then 1 else 0 := by
        intro p q
        have := orthonormal_iff_ite.mp b.orthonormal q p
        simp only [PiLp.inner_apply, Fin.sum_univ_three] at this
        simp only [RCLike.inner_apply, conj_trivial] at this
        rw [this]
        simp [eq_comm]
      have heig : ∀ p : Fin 3, A.mulVec (b p) = hH.eigenvalues p • (b p).ofLp := fun p => hH.mulVec_eigenvectorBasis p
      have hcol : ∀ p : Fin 3, app3 a ⟨b p 0, b p 1, b p 2⟩ = Vec3.smul (hH.eigenvalues p) ⟨b p 0, b p 1, b p 2⟩ := by
        intro p
        have h0 := congrFun (heig p) 0
        have h1 := congrFun (heig p) 1
        have h2 := congrFun (heig p) 2
        simp [A, Matrix.mulVec, dotProduct, Fin.sum_univ_three] at h0 h1 h2
        simp only [app3, Vec3.smul, Vec3.mk.injEq]
        refine ⟨?_, ?_, ?_⟩ <;> linarith
      refine ⟨(⟨hH.eigenvalues 0, hH.eigenvalues 1, hH.eigenvalues 2⟩,
        ⟨⟨b 0 0, b 0 1, b 0 2⟩, ⟨b 1 0, b 1 1, b 1 2⟩, ⟨b 2 0, b 2 1, b 2 2⟩⟩), fun _ _ _ => ⟨?_, hcol 0, hcol 1, hcol 2⟩⟩
      constructor <;> simp only [dot3] <;> rw [horth] <;> simp
    · exact ⟨(⟨0, 0, 0⟩, ⟨⟨0, 0, 0⟩, ⟨0, 0, 0⟩, ⟨0, 0, 0⟩⟩), fun h1 h2 h3 => absurd ⟨h1, h2, h3⟩ hs⟩
  choose f hf using key
  exact ⟨f, hf⟩

/-- A conversion to quaternions as assumed exists. -/
theorem exists_toQuat : ∃ toQuat, IsToQuat toQuat := by
  have key : ∀ v : Mat3 ℝ, ∃ q : Quat ℝ, Rotation3 v → UnitQuat q ∧ ∀ x, Moved ⟨0, 0, 0⟩ q x (app3 v x) := by
    intro v
    by_cases h : Rotation3 v
    · obtain ⟨q, hq⟩ := exists_quat h
      exact ⟨q, fun _ => hq⟩
    · exact ⟨⟨1, 0, 0, 0⟩, fun h' => absurd h' h⟩
  choose f hf using key
  exact ⟨f, hf⟩

theorem unitQuat_ne_zero {q : Quat ℝ} (hq : UnitQuat q) : q ≠ ⟨0, 0, 0, 0⟩ := by
  rintro rfl
  norm_num [UnitQuat] at hq

/-- Moving is a function. -/
theorem moved_unique {t v a b : Vec3 ℝ} {q : Quat ℝ} (ha : Moved t q v a) (hb : Moved t q v b) : a = b := by
  unfold Moved at ha hb
  have h : pureQuat a = pureQuat b := ha.trans hb.symm
  cases a; cases b
  have h1 := congrArg QuaternionAlgebra.imI h
  have h2 := congrArg QuaternionAlgebra.imJ h
  have h3 := congrArg QuaternionAlgebra.imK h
  simp only [pureQuat_imI, pureQuat_imJ, pureQuat_imK] at h1 h2 h3
  simp [h1, h2, h3]

/-- Turning and then shifting. -/
theorem moved_shift {q : Quat ℝ} {v a : Vec3 ℝ} (h : Moved ⟨0, 0, 0⟩ q v a) (t : Vec3 ℝ) :
    Moved t q v ⟨a.x + t.x, a.y + t.y, a.z + t.z⟩ := by
  unfold Moved at *
  have h0 : pureQuat (⟨0, 0, 0⟩ : Vec3 ℝ) = 0 := by apply Quaternion.ext <;> simp
  rw [h0, add_zero] at h
  rw [← h]
  apply Quaternion.ext <;> simp

theorem moved_zero (p : Vec3 ℝ) (q : Quat ℝ) : Moved p q ⟨0, 0, 0⟩ p := by
  unfold Moved
  have h0 : pureQuat (⟨0, 0, 0⟩ : Vec3 ℝ) = 0 := by apply Quaternion.ext <;> simp
  rw [h0]
  simp

end Verif
