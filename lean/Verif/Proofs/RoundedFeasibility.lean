import Verif.Model.RoundedFeasibility
import Verif.Spec.RoundedFeasibility
import Verif.Proofs.RoundedMagnitude
import Verif.Proofs.FeasibilityApprox

/- Helper lemmas: the recursive feasibility check with rounded numbers. -/
set_option linter.unusedSectionVars false

namespace Verif

open Polynomial Spec Set

variable {rnd : ℝ → ℝ} {u : ℝ}

/-! #### extrema from roots -/

/-- The extrema selected from any list of numbers; with numbers that cover the sign changes of the derivative nothing is missed. -/
theorem selectRoots_near (h : Rounding rnd u) (p : Poly (Fl rnd)) (hN : p.N ≤ 22) (k : ℕ) (hk : k < p.N) (hk2 : k + 1 < 22)
    {a b : Fl rnd} (hab : a.val ≤ b.val) (T : ℝ) (ha : |a.val| ≤ T) (hb : |b.val| ≤ T) (E : ℝ)
    (hE : ((1 + u) ^ (2 * p.N) - 1) * derivAt ((vals p.coeffs).map abs) k T ≤ E)
    (hfin : derivAt ((vals p.coeffs).map abs) k T + E < dblMax) (z : List (Fl rnd × Fl rnd)) :
    ∃ m M : Fl rnd × Fl rnd, p.selectMinMaxFromRootsG (flLib rnd) a b k z = .ok (some (m, M)) ∧
      m.1.val ∈ Icc a.val b.val ∧ M.1.val ∈ Icc a.val b.val ∧
      |m.2.val - derivAt (vals p.coeffs) k m.1.val| ≤ E ∧ |M.2.val - derivAt (vals p.coeffs) k M.1.val| ≤ E ∧
      m.2.val ≤ M.2.val ∧
      (m.2.val - E ≤ derivAt (vals p.coeffs) k a.val ∧ derivAt (vals p.coeffs) k a.val ≤ M.2.val + E) ∧
      ∀ ε B c, 0 ≤ ε → p.getCoefficients ((k : ℤ) + 1) = .ok c → CoversOn ε a.val b.val (flReal z) (ofCoeffs (vals c)) →
        (1 + u) ^ (2 * p.N) * derivAt ((vals p.coeffs).map abs) (k + 2) T ≤ B →
        ∀ t ∈ Icc a.val b.val, m.2.val - (3 * E + B * ε ^ 2) ≤ derivAt (vals p.coeffs) k t ∧
          derivAt (vals p.coeffs) k t ≤ M.2.val + (3 * E + B * ε ^ 2) := by
  have hu := rounding_nonneg h
  have hγ : 0 ≤ (1 + u) ^ (2 * p.N) - 1 := by
    have := one_le_pow₀ (n := 2 * p.N) (by linarith : (1 : ℝ) ≤ 1 + u)
    linarith
  have hT : ∀ t ∈ Icc a.val b.val, |t| ≤ T := by
    intro t ht
    rw [abs_le] at ha hb ⊢
    exact ⟨by linarith [ha.1, ht.1], by linarith [hb.2, ht.2]⟩
  have hev : ∀ t : Fl rnd, t.val ∈ Icc a.val b.val → ∃ v, p.evaluate t k = .ok v ∧
      |v.val - derivAt (vals p.coeffs) k t.val| ≤ E := by
    intro t ht
    obtain ⟨v, h1, h2⟩ := C99_error h p hN t k
    rw [iteratedDeriv_curve, iteratedDeriv_curve] at h2
    refine ⟨v, h1, h2.trans (le_trans ?_ hE)⟩
    exact mul_le_mul_of_nonneg_left (abs_derivAt_le (vals p.coeffs) k (hT _ ht)).2.1 hγ
  choose! val hval1 hval2 using hev
  obtain ⟨cand, hcand, hmem⟩ := candidatesG_some hab z
  have hin : ∀ x ∈ a :: b :: cand, x.val ∈ Icc a.val b.val := by
    intro x hx
    rcases List.mem_cons.mp hx with rfl | hx
    · exact ⟨le_rfl, hab⟩
    · rcases List.mem_cons.mp hx with rfl | hx
      · exact ⟨hab, le_rfl⟩
      · exact ⟨((hmem x).mp hx).1, ((hmem x).mp hx).2.1⟩
  have hmap : ((a :: b :: cand).mapM fun t => do
      let v ← p.evaluate t k
      pure (t, v)) = Res.ok ((a :: b :: cand).map fun t => (t, val t)) := by
    apply Res.mapM_ok
    intro t ht
    rw [hval1 t (hin t ht), Res.ok_bind, Res.pure_eq]
  set tvs := (a :: b :: cand).map fun t => (t, val t) with htvs
  have hres : p.selectMinMaxFromRootsG (flLib rnd) a b k z =
      .ok (some (tvs.foldl minMaxStepG ((a, ⟨dblMax⟩), (a, -⟨dblMax⟩)))) := by
    unfold Poly.selectMinMaxFromRootsG
    have hcand' : candidatesG (flLib rnd).abs (flLib rnd).eps a b z = some (a :: b :: cand) := hcand
    rw [hcand']
    dsimp only
    unfold Poly.selectMinMaxFromCandidatesG
    dsimp only
    rw [hmap, Res.ok_bind]
    rfl
  obtain ⟨⟨h1, h2, h3⟩, ⟨h4, h5, h6⟩⟩ := foldl_minMaxStepG tvs (a, ⟨dblMax⟩) (a, -⟨dblMax⟩)
  set r := tvs.foldl minMaxStepG ((a, ⟨dblMax⟩), (a, -⟨dblMax⟩)) with hr
  have hmema : (a, val a) ∈ tvs := by simp [htvs]
  have ha0 : |(val a).val| < dblMax := by
    have q1 := hval2 a ⟨le_rfl, hab⟩
    have q2 := (abs_derivAt_le (vals p.coeffs) k (hT a.val ⟨le_rfl, hab⟩)).1
    have q3 : |(val a).val| ≤ |(val a).val - derivAt (vals p.coeffs) k a.val| + |derivAt (vals p.coeffs) k a.val| := by
      have := abs_add_le ((val a).val - derivAt (vals p.coeffs) k a.val) (derivAt (vals p.coeffs) k a.val)
      rwa [sub_add_cancel] at this
    linarith
  have ha1 := abs_lt.mp ha0
  have m3 : r.1 ∈ tvs := by
    rcases h3 with h3 | h3
    · have := h2 _ hmema
      rw [h3] at this
      exact absurd this (not_le.mpr ha1.2)
    · exact h3
  have m6 : r.2 ∈ tvs := by
    rcases h6 with h6 | h6
    · have := h5 _ hmema
      rw [h6] at this
      exact absurd this (not_le.mpr ha1.1)
    · exact h6
  obtain ⟨x, hx, hx'⟩ := List.mem_map.mp m3
  obtain ⟨y, hy, hy'⟩ := List.mem_map.mp m6
  have la := h2 _ hmema
  have ua := h5 _ hmema
  have na := abs_le.mp (hval2 a ⟨le_rfl, hab⟩)
  dsimp only at la ua
  refine ⟨r.1, r.2, hres, ?_, ?_, ?_, ?_, la.trans ua, ⟨by linarith [na.2], by linarith [na.1]⟩, ?_⟩
  · rw [← hx']; exact hin x hx
  · rw [← hy']; exact hin y hy
  · rw [← hx']; exact hval2 x (hin x hx)
  · rw [← hy']; exact hval2 y (hin y hy)
  · intro ε B c hε hc hcovers hB t ht
    obtain ⟨c2, c', hc2, hclose, hder⟩ := getCoefficients_rounded h p k hk hN hk2
    rw [hc] at hc2
    obtain rfl : c = c2 := Res.ok.inj hc2
    set P := derivative^[k] (ofCoeffs c') with hP
    have hPd : derivative P = ofCoeffs (vals c) := by rw [hder, hP, Function.iterate_succ_apply']
    set S := (a :: b :: cand).map Fl.val with hS
    have hcov : CoversOn ε a.val b.val (flReal z) (derivative P) := by rw [hPd]; exact hcovers
    have hRS : ∀ r ∈ flReal z, r ∈ Icc a.val b.val → r ∈ S := flReal_cand hmem
    have haS : a.val ∈ S := by simp [hS]
    have hbS : b.val ∈ S := by simp [hS]
    have hdd : derivative (derivative P) = derivative^[k + 2] (ofCoeffs c') := by
      rw [hP, Function.iterate_succ_apply', Function.iterate_succ_apply']
    have hPnear : ∀ s ∈ Icc a.val b.val, |P.eval s - derivAt (vals p.coeffs) k s| ≤ E := by
      intro s hs
      have q := derivAt_close (d := k) hclose s
      unfold derivAt at q ⊢
      refine q.trans (le_trans ?_ hE)
      exact mul_le_mul_of_nonneg_left (abs_derivAt_le (vals p.coeffs) k (hT _ hs)).2.1 hγ
    have hB' : ∀ s ∈ Icc a.val b.val, |(derivative (derivative P)).eval s| ≤ B := by
      intro s hs
      rw [hdd]
      have q := derivAt_close (d := k + 2) hclose s
      obtain ⟨q1, q2, q3⟩ := abs_derivAt_le (vals p.coeffs) (k + 2) (hT _ hs)
      have q4 := q.trans (mul_le_mul_of_nonneg_left q2 hγ)
      have q5 : |derivAt c' (k + 2) s| ≤ |derivAt c' (k + 2) s - derivAt (vals p.coeffs) (k + 2) s| +
          |derivAt (vals p.coeffs) (k + 2) s| := by
        have := abs_add_le (derivAt c' (k + 2) s - derivAt (vals p.coeffs) (k + 2) s) (derivAt (vals p.coeffs) (k + 2) s)
        rwa [sub_add_cancel] at this
      change |derivAt c' (k + 2) s| ≤ B
      linarith
    obtain ⟨x1, hx1, e1, s1, hs1, g1, d1, f1⟩ := near_max_on P hab hε (flReal z) S haS hbS hcov hRS
    obtain ⟨x2, hx2, e2, s2, hs2, g2, d2, f2⟩ := near_min_on P hab hε (flReal z) S haS hbS hcov hRS
    have o1 := abs_le.mp (second_order P hx1 g1 d1 f1 hB')
    have o2 := abs_le.mp (second_order P hx2 g2 d2 f2 hB')
    obtain ⟨w1, hw1, rfl⟩ := List.mem_map.mp hs1
    obtain ⟨w2, hw2, rfl⟩ := List.mem_map.mp hs2
    have v1 := h5 _ (List.mem_map.mpr ⟨w1, hw1, rfl⟩)
    have v2 := h2 _ (List.mem_map.mpr ⟨w2, hw2, rfl⟩)
    have n1 := abs_le.mp (hval2 w1 g1)
    have n2 := abs_le.mp (hval2 w2 g2)
    have i1 := abs_le.mp (hPnear _ g1)
    have i2 := abs_le.mp (hPnear _ g2)
    have i3 := abs_le.mp (hPnear t ht)
    have e1 := e1 t ht
    have e2 := e2 t ht
    dsimp only at v1 v2
    constructor
    · linarith [n2.2, i2.1, i3.2, o2.2]
    · linarith [n1.1, i1.2, i3.1, o1.1]

/-! #### one axis -/

theorem axisReal_eq (s : Segment (Fl rnd)) (k i : ℕ) (t : ℝ) (hi : i < s.D) :
    axisVal (realSeg s) k i t = derivAt (vals (s.polys[i]'hi).coeffs) k t := realPolys_value s k t hi

theorem axisSize_eq (s : Segment (Fl rnd)) (k i : ℕ) (T : ℝ) (hi : i < s.D) :
    axisSize s k i T = derivAt ((vals (s.polys[i]'hi).coeffs).map abs) k T := by
  unfold axisSize valuesAt
  have hi' : i < s.polys.length := hi
  rw [List.map_map, List.getD_eq_getElem?_getD, List.getElem?_map, List.getElem?_eq_getElem hi', Option.map_some,
    Option.getD_some, Function.comp_apply, iteratedDeriv_curve]
  rfl

theorem axisReal_le (s : Segment (Fl rnd)) (k i : ℕ) {t T : ℝ} (hi : i < s.D) (ht : |t| ≤ T) :
    |axisVal (realSeg s) k i t| ≤ axisSize s k i T := by
  rw [axisReal_eq s k i t hi, axisSize_eq s k i T hi]
  exact (abs_derivAt_le _ k ht).1

/-- The roots that the code found for derivative `k` of the first three dimensions. -/
def RootsForG (rc : RootCall (Fl rnd)) (s : Segment (Fl rnd)) (k : ℕ) (roots : List (List (Fl rnd × Fl rnd))) : Prop :=
  roots.length = 3 ∧ ∀ i, (hi : i < roots.length) → (hD : i < s.D) →
    ∃ c r, (s.polys[i]'hD).getCoefficients (k : ℤ) = .ok c ∧ rc c = .ok r ∧ roots[i] = r.2

/-- What is known of the reported extrema of a function. -/
structure NearFl (Good : ℝ → ℝ → Prop) (E : ℝ) (f : ℝ → ℝ) (a b : ℝ) (m : Fl rnd × Fl rnd) : Prop where
  minAt : ∃ t ∈ Icc a b, |m.1.val - f t| ≤ E
  maxAt : ∃ t ∈ Icc a b, |m.2.val - f t| ≤ E
  le : m.1.val ≤ m.2.val
  bound : ∀ t δ, Good t δ → m.1.val - δ ≤ f t ∧ f t ≤ m.2.val + δ

/-- Times at which something is known: the left end, with the error of the evaluation, and with an accurate root finder all
times. -/
def GoodFl (A : Prop) (E η a b : ℝ) (t δ : ℝ) : Prop := (t = a ∧ δ = E) ∨ (A ∧ t ∈ Icc a b ∧ δ = 3 * E + η)

theorem approxCall_covers {ε a b a' b' : ℝ} {rc : RootCall (Fl rnd)} (hrc : ApproxCall ε a b rc) (ha : a ≤ a') (hb : b' ≤ b)
    {c : List (Fl rnd)} {r : Bool × List (Fl rnd × Fl rnd)} (hr : rc c = .ok r) :
    CoversOn ε a' b' (flReal r.2) (ofCoeffs (vals c)) := by
  intro x y hx hxy hy hs
  obtain ⟨z, hz, z1, z2, z3⟩ := hrc c r hr x y (ha.trans hx) hxy (hy.trans hb) hs
  exact ⟨z.1.val, List.mem_map.mpr ⟨z, List.mem_filter.mpr ⟨hz, by simpa using z1⟩, rfl⟩, z2, z3⟩

section
variable (h : Rounding rnd u) (dot : Dot (Fl rnd)) (rc : RootCall (Fl rnd)) (s : Segment (Fl rnd)) (hs : s.WF)
  (hN : 4 ≤ s.N) (g : Fin 3 → Fl rnd) (E B : ℕ → ℝ) (F : ℝ) (he : FeasErrors u s g E B F)
include h hs hN he

theorem axisMinMaxG_near (hD : 3 ≤ s.D) (k : ℕ) (hk : k ≤ 3) (roots : List (List (Fl rnd × Fl rnd)))
    (hr : RootsForG rc s (k + 1) roots) (i : ℕ) (hi : i < 3) {a b : Fl rnd} (ha : 0 ≤ a.val) (hab : a.val ≤ b.val)
    (hb : b.val ≤ s.time.val) (ε : ℝ) (A : Prop) (hA : A → 0 ≤ ε ∧ ApproxCall ε 0 s.time.val rc) :
    ∃ m, axisMinMaxG (flFeasLib rnd dot) s k roots a b i = .ok m ∧
      NearFl (GoodFl A (E k) (B (k + 2) * ε ^ 2) a.val b.val) (E k) (axisVal (realSeg s) k i) a.val b.val m := by
  have hiD : i < s.D := by omega
  have hir : i < roots.length := by rw [hr.1]; exact hi
  obtain ⟨c, r, hc, hrc, hroot⟩ := hr.2 i hir hiD
  set p := s.polys[i]'hiD with hp
  have hpN : p.N = s.N := hs.polysN p (List.getElem_mem _)
  have hsm := hs.small
  have e1 := he.eval k hk i hiD
  have e2 := he.second k hk i hiD
  have e3 := he.finite k hk i hiD
  rw [axisSize_eq s _ i _ hiD] at e1 e2 e3
  obtain ⟨m, M, q1, q2, q3, q4, q5, q6, q7, q8⟩ := selectRoots_near h p (by omega) k (by omega) (by omega) hab s.time.val
    (by rw [abs_of_nonneg ha]; linarith) (by rw [abs_of_nonneg (ha.trans hab)]; exact hb) (E k) (by rw [hpN]; exact e1) e3
    roots[i]
  have hf : ∀ t, axisVal (realSeg s) k i t = derivAt (vals p.coeffs) k t := fun t => axisReal_eq s k i t hiD
  refine ⟨(m.2, M.2), ?_, ⟨m.1.val, q2, ?_⟩, ⟨M.1.val, q3, ?_⟩, q6, ?_⟩
  · unfold axisMinMaxG
    rw [segment_get_ok s i hiD, Res.ok_bind, Res.at'_of_lt hir, Res.ok_bind]
    have q1' : (s.polys[i]'hiD).selectMinMaxFromRootsG (flFeasLib rnd dot).toMagLib a b (k : ℤ) roots[i] = .ok (some (m, M)) := q1
    rw [q1', Res.ok_bind]
    rfl
  · rw [hf]; exact q4
  · rw [hf]; exact q5
  · rintro t δ (⟨rfl, rfl⟩ | ⟨hA', ht, rfl⟩)
    · rw [hf]; exact q7
    · obtain ⟨hε, hap⟩ := hA hA'
      rw [hf]
      refine q8 ε (B (k + 2)) c hε (by simpa using hc) ?_ (by rw [hpN]; exact e2) t ht
      rw [hroot]
      exact approxCall_covers hap ha hb hrc

/-- The extrema of one component of acceleration plus gravity. -/
theorem thrustAxis_near (hD : 3 ≤ s.D) (i : Fin 3) {a b : Fl rnd} (ha : 0 ≤ a.val)
    (hb : b.val ≤ s.time.val) (η : ℝ) (A : Prop) (m : Fl rnd × Fl rnd)
    (hm : NearFl (GoodFl A (E 2) η a.val b.val) (E 2) (axisVal (realSeg s) 2 i) a.val b.val m) :
    NearFl (GoodFl A F η a.val b.val) F (fun t => axisVal (realSeg s) 2 i t + (g i).val) a.val b.val
      (m.1 + g i, m.2 + g i) := by
  have hu := rounding_nonneg h
  have hiD : (i : ℕ) < s.D := by omega
  have hF := he.thrust i
  have hsize : ∀ x : Fl rnd, (∃ t ∈ Icc a.val b.val, |x.val - axisVal (realSeg s) 2 i t| ≤ E 2) →
      |(x + g i).val - (x.val + (g i).val)| ≤ F - E 2 := by
    rintro x ⟨t, ht, hx⟩
    have h1 := axisReal_le s 2 i (T := s.time.val) hiD
      (by rw [abs_of_nonneg (ha.trans ht.1)]; exact ht.2.trans hb : |t| ≤ s.time.val)
    have h2 : |x.val| ≤ axisSize s 2 i s.time.val + E 2 := by
      have := abs_add_le (x.val - axisVal (realSeg s) 2 i t) (axisVal (realSeg s) 2 i t)
      rw [sub_add_cancel] at this
      linarith
    have h3 := h.rel (x.val + (g i).val)
    have h4 := abs_add_le x.val (g i).val
    have h5 : u * |x.val + (g i).val| ≤ u * (axisSize s 2 i s.time.val + E 2 + |(g i).val|) :=
      mul_le_mul_of_nonneg_left (by linarith) hu
    change |rnd (x.val + (g i).val) - (x.val + (g i).val)| ≤ F - E 2
    linarith
  have h1 := hsize m.1 hm.minAt
  have h2 := hsize m.2 hm.maxAt
  have hR : 0 ≤ F - E 2 := (abs_nonneg _).trans h1
  have h1' := abs_le.mp h1
  have h2' := abs_le.mp h2
  refine ⟨?_, ?_, h.mono (by linarith [hm.le]), ?_⟩
  · obtain ⟨t, ht, hx⟩ := hm.minAt
    have := abs_le.mp hx
    exact ⟨t, ht, abs_le.mpr ⟨by dsimp only; linarith [h1'.1], by dsimp only; linarith [h1'.2]⟩⟩
  · obtain ⟨t, ht, hx⟩ := hm.maxAt
    have := abs_le.mp hx
    exact ⟨t, ht, abs_le.mpr ⟨by dsimp only; linarith [h2'.1], by dsimp only; linarith [h2'.2]⟩⟩
  · rintro t δ (⟨rfl, rfl⟩ | ⟨hA', ht, rfl⟩)
    · have := hm.bound _ (E 2) (Or.inl ⟨rfl, rfl⟩)
      dsimp only
      constructor <;> linarith [h1'.2, h2'.1]
    · have := hm.bound t (3 * E 2 + η) (Or.inr ⟨hA', ht, rfl⟩)
      dsimp only
      constructor <;> linarith [h1'.2, h2'.1]

end

/-! #### sums of squares -/

/-- `acc` is the sum `Q` of `j` squares, added up one after the other. -/
structure AccOf (u : ℝ) (j : ℕ) (acc : Fl rnd) (Q : ℝ) : Prop where
  nonneg : 0 ≤ Q
  lower : (1 - u) ^ (j + 1) * Q ≤ acc.val
  upper : acc.val ≤ (1 + u) ^ (j + 1) * Q

theorem accOf_zero : AccOf u 0 (0 : Fl rnd) 0 := ⟨le_rfl, by simp; rfl, by simp; rfl⟩

theorem AccOf.step (h : Rounding rnd u) (hu1 : u ≤ 1) {j : ℕ} {acc y : Fl rnd} {Q q : ℝ} (ha : AccOf u j acc Q) (hq : 0 ≤ q)
    (h1 : (1 - u) * q ≤ y.val) (h2 : y.val ≤ (1 + u) * q) : AccOf u (j + 1) (acc + y) (Q + q) := by
  have hu := rounding_nonneg h
  have hl : (1 - u) ^ (j + 1) * (Q + q) ≤ acc.val + y.val := by
    have : (1 - u) ^ (j + 1) * q ≤ (1 - u) * q := by
      apply mul_le_mul_of_nonneg_right _ hq
      exact pow_le_of_le_one (by linarith) (by linarith) (by omega)
    linarith [ha.lower, mul_add ((1 - u) ^ (j + 1)) Q q]
  have hr : acc.val + y.val ≤ (1 + u) ^ (j + 1) * (Q + q) := by
    have : (1 + u) * q ≤ (1 + u) ^ (j + 1) * q := by
      apply mul_le_mul_of_nonneg_right _ hq
      exact le_self_pow₀ (by linarith) (by omega)
    linarith [ha.upper, mul_add ((1 + u) ^ (j + 1)) Q q]
  have hQq : 0 ≤ Q + q := add_nonneg ha.nonneg hq
  have h0 : 0 ≤ acc.val + y.val := le_trans (mul_nonneg (pow_nonneg (by linarith) _) hQq) hl
  have hrel := abs_le.mp (h.rel (acc.val + y.val))
  rw [abs_of_nonneg h0] at hrel
  refine ⟨hQq, ?_, ?_⟩
  · change _ ≤ rnd (acc.val + y.val)
    rw [pow_succ (1 - u) (j + 1), mul_comm ((1 - u) ^ (j + 1)), mul_assoc]
    have := mul_le_mul_of_nonneg_left hl (by linarith : 0 ≤ 1 - u)
    linarith [hrel.1]
  · change rnd (acc.val + y.val) ≤ _
    rw [pow_succ (1 + u) (j + 1), mul_comm ((1 + u) ^ (j + 1)), mul_assoc]
    have := mul_le_mul_of_nonneg_left hr (by linarith : 0 ≤ 1 + u)
    linarith [hrel.2]

theorem pow2_bounds (h : Rounding rnd u) (x : Fl rnd) :
    (1 - u) * x.val ^ 2 ≤ ((flLib rnd).pow2 x).val ∧ ((flLib rnd).pow2 x).val ≤ (1 + u) * x.val ^ 2 := by
  have hrel := abs_le.mp (h.rel (x.val * x.val))
  rw [abs_of_nonneg (mul_self_nonneg _)] at hrel
  change (1 - u) * x.val ^ 2 ≤ rnd (x.val * x.val) ∧ rnd (x.val * x.val) ≤ (1 + u) * x.val ^ 2
  rw [pow_two]
  constructor <;> linarith [hrel.1, hrel.2]

theorem stdMaxVal_val (a b : Fl rnd) : (stdMaxVal a b).val = max a.val b.val := by
  unfold stdMaxVal
  by_cases hab : a < b
  · rw [if_pos hab]
    exact (max_eq_right (le_of_lt (show a.val < b.val from hab))).symm
  · rw [if_neg hab]
    exact (max_eq_left (not_lt.mp (show ¬ a.val < b.val from hab))).symm

theorem stdMinVal_val (a b : Fl rnd) : (stdMinVal a b).val = min a.val b.val := by
  unfold stdMinVal
  by_cases hab : b < a
  · rw [if_pos hab]
    exact (min_eq_right (le_of_lt (show b.val < a.val from hab))).symm
  · rw [if_neg hab]
    exact (min_eq_left (not_lt.mp (show ¬ b.val < a.val from hab))).symm

theorem maxAbsG_val (dot : Dot (Fl rnd)) (a b : Fl rnd) : (maxAbsG (flFeasLib rnd dot) a b).val = max |a.val| |b.val| :=
  stdMaxVal_val _ _

/-- Rounding keeps the sign. -/
theorem rnd_neg_iff (h : Rounding rnd u) (hu1 : u < 1) (x : ℝ) : rnd x < 0 ↔ x < 0 := by
  constructor
  · intro hx
    by_contra hc
    have := h.mono (not_lt.mp hc)
    rw [rnd_zero h] at this
    linarith
  · intro hx
    have := abs_le.mp (h.rel x)
    rw [abs_of_neg hx] at this
    have h2 : 0 < (1 - u) * (-x) := mul_pos (by linarith) (by linarith)
    linarith [this.2]

theorem lowerTermG_bounds (h : Rounding rnd u) (hu1 : u < 1) (dot : Dot (Fl rnd)) (lo hi : Fl rnd) :
    ∃ q, 0 ≤ q ∧ q = (if lo.val * hi.val < 0 then 0 else min |lo.val| |hi.val| ^ 2) ∧
      (1 - u) * q ≤ (lowerTermG (flFeasLib rnd dot) lo hi).val ∧ (lowerTermG (flFeasLib rnd dot) lo hi).val ≤ (1 + u) * q := by
  refine ⟨_, ?_, rfl, ?_⟩
  · split_ifs
    · exact le_rfl
    · positivity
  · unfold lowerTermG
    have hiff : lo * hi < 0 ↔ lo.val * hi.val < 0 := rnd_neg_iff h hu1 _
    by_cases hc : lo.val * hi.val < 0
    · rw [if_pos hc, if_pos (hiff.mpr hc), mul_zero, mul_zero]
      exact ⟨le_rfl, le_rfl⟩
    · rw [if_neg hc, if_neg (fun hx => hc (hiff.mp hx))]
      have := pow2_bounds h (stdMinVal (Fl.abs lo) (Fl.abs hi))
      rw [stdMinVal_val] at this
      exact this

/-! #### the loops -/

theorem velocityLoopG_near (h : Rounding rnd u) (hu1 : u < 1) (dot : Dot (Fl rnd)) (Good : ℝ → ℝ → Prop) (E : ℝ)
    (s : Segment (Fl rnd)) {a b lim : Fl rnd} (roots : List (List (Fl rnd × Fl rnd))) (is : List ℕ)
    (hm : ∀ i ∈ is, ∃ m, axisMinMaxG (flFeasLib rnd dot) s 1 roots a b i = .ok m ∧
      NearFl Good E (axisVal (realSeg s) 1 i) a.val b.val m) (acc : Fl rnd) (j : ℕ) (Q : ℝ) (hacc : AccOf u j acc Q) :
    (velocityLoopG (flFeasLib rnd dot) s lim roots a b is acc = .ok (.inl .velocity) ∧
      ∃ i ∈ is, ∃ t ∈ Icc a.val b.val, lim.val < |axisVal (realSeg s) 1 i t| + E) ∨
    ∃ r Q', velocityLoopG (flFeasLib rnd dot) s lim roots a b is acc = .ok (.inr r) ∧ AccOf u (j + is.length) r Q' ∧
      ∀ t δ, Good t δ → Q + (is.map fun i => max (|axisVal (realSeg s) 1 i t| - δ) 0 ^ 2).sum ≤ Q' := by
  induction is generalizing acc j Q with
  | nil => right; exact ⟨acc, Q, rfl, hacc, by simp⟩
  | cons i is ih =>
    obtain ⟨m, hm', hmm⟩ := hm i (by simp)
    have e : velocityLoopG (flFeasLib rnd dot) s lim roots a b (i :: is) acc = (do
        let m ← axisMinMaxG (flFeasLib rnd dot) s 1 roots a b i
        (if stdMaxVal ((flLib rnd).pow2 m.1) ((flLib rnd).pow2 m.2) > (flLib rnd).pow2 lim then pure (.inl .velocity)
        else velocityLoopG (flFeasLib rnd dot) s lim roots a b is
          (acc + (flLib rnd).pow2 (maxAbsG (flFeasLib rnd dot) m.1 m.2)) : Res (Verdict ⊕ Fl rnd))) := rfl
    rw [e, hm', Res.ok_bind]
    have hsq : ∀ x : Fl rnd, ((flLib rnd).pow2 lim).val < ((flLib rnd).pow2 x).val → |lim.val| < |x.val| := by
      intro x hx
      by_contra hc
      have h1 : x.val * x.val ≤ lim.val * lim.val := by
        rw [← abs_mul_abs_self x.val, ← abs_mul_abs_self lim.val]
        exact mul_self_le_mul_self (abs_nonneg _) (not_lt.mp hc)
      exact absurd hx (not_lt.mpr (h.mono h1))
    have hviol : ∀ x : Fl rnd, (∃ t ∈ Icc a.val b.val, |x.val - axisVal (realSeg s) 1 i t| ≤ E) →
        ((flLib rnd).pow2 lim).val < ((flLib rnd).pow2 x).val →
        ∃ t ∈ Icc a.val b.val, lim.val < |axisVal (realSeg s) 1 i t| + E := by
      rintro x ⟨t, ht, hx⟩ hlt
      refine ⟨t, ht, ?_⟩
      have h1 := hsq x hlt
      have h2 := abs_add_le (x.val - axisVal (realSeg s) 1 i t) (axisVal (realSeg s) 1 i t)
      rw [sub_add_cancel] at h2
      linarith [le_abs_self lim.val]
    by_cases hc : stdMaxVal ((flLib rnd).pow2 m.1) ((flLib rnd).pow2 m.2) > (flLib rnd).pow2 lim
    · left
      rw [if_pos hc]
      refine ⟨rfl, i, by simp, ?_⟩
      have hc' : ((flLib rnd).pow2 lim).val < (stdMaxVal ((flLib rnd).pow2 m.1) ((flLib rnd).pow2 m.2)).val := hc
      rw [stdMaxVal_val] at hc'
      rcases lt_max_iff.mp hc' with hc' | hc'
      · exact hviol _ hmm.minAt hc'
      · exact hviol _ hmm.maxAt hc'
    · rw [if_neg hc]
      have hp := pow2_bounds h (maxAbsG (flFeasLib rnd dot) m.1 m.2)
      rw [maxAbsG_val] at hp
      rcases ih (fun j hj => hm j (by simp [hj])) _ (j + 1) _ (hacc.step h hu1.le (by positivity) hp.1 hp.2) with
        ⟨h1, j, hj, t, ht, h2⟩ | ⟨r, Q', h1, h2, h3⟩
      · left; exact ⟨h1, j, by simp [hj], t, ht, h2⟩
      · right
        refine ⟨r, Q', h1, by rw [List.length_cons]; convert h2 using 1; omega, ?_⟩
        intro t δ ht
        have := h3 t δ ht
        have hsq := near_sq_le (m := (m.1.val, m.2.val)) (hmm.bound t δ ht).1 (hmm.bound t δ ht).2
        rw [List.map_cons, List.sum_cons]
        dsimp only at hsq
        linarith

theorem jerkLoopG_near (h : Rounding rnd u) (hu1 : u < 1) (dot : Dot (Fl rnd)) (Good : ℝ → ℝ → Prop) (E : ℝ)
    (s : Segment (Fl rnd)) {a b : Fl rnd} (roots : List (List (Fl rnd × Fl rnd))) (is : List ℕ)
    (hm : ∀ i ∈ is, ∃ m, axisMinMaxG (flFeasLib rnd dot) s 3 roots a b i = .ok m ∧
      NearFl Good E (axisVal (realSeg s) 3 i) a.val b.val m) (acc : Fl rnd) (j : ℕ) (Q : ℝ) (hacc : AccOf u j acc Q) :
    ∃ r Q', jerkLoopG (flFeasLib rnd dot) s roots a b is acc = .ok r ∧ AccOf u (j + is.length) r Q' ∧
      ∀ t δ, Good t δ → Q + (is.map fun i => max (|axisVal (realSeg s) 3 i t| - δ) 0 ^ 2).sum ≤ Q' := by
  induction is generalizing acc j Q with
  | nil => exact ⟨acc, Q, rfl, hacc, by simp⟩
  | cons i is ih =>
    obtain ⟨m, hm', hmm⟩ := hm i (by simp)
    have e : jerkLoopG (flFeasLib rnd dot) s roots a b (i :: is) acc = (do
        let m ← axisMinMaxG (flFeasLib rnd dot) s 3 roots a b i
        jerkLoopG (flFeasLib rnd dot) s roots a b is
          (acc + (flLib rnd).pow2 (maxAbsG (flFeasLib rnd dot) m.1 m.2))) := rfl
    rw [e, hm', Res.ok_bind]
    have hp := pow2_bounds h (maxAbsG (flFeasLib rnd dot) m.1 m.2)
    rw [maxAbsG_val] at hp
    obtain ⟨r, Q', h1, h2, h3⟩ := ih (fun j hj => hm j (by simp [hj])) _ (j + 1) _
      (hacc.step h hu1.le (by positivity) hp.1 hp.2)
    refine ⟨r, Q', h1, by rw [List.length_cons]; convert h2 using 1; omega, ?_⟩
    intro t δ ht
    have := h3 t δ ht
    have hsq := near_sq_le (m := (m.1.val, m.2.val)) (hmm.bound t δ ht).1 (hmm.bound t δ ht).2
    rw [List.map_cons, List.sum_cons]
    dsimp only at hsq
    linarith

theorem limitSuchThatG_true {K : Type} {ic : InputConstraints K} {type : ℤ} {p : K → Bool} :
    limitSuchThatG ic type p = true ↔ ∃ l, ic.getConstraint type = some l ∧ p l = true := by
  unfold limitSuchThatG
  cases ic.getConstraint type <;> simp

theorem thrustLoopG_near (h : Rounding rnd u) (hu1 : u < 1) (dot : Dot (Fl rnd)) (Good : ℝ → ℝ → Prop)
    (hG : ∀ t δ, Good t δ → 0 ≤ δ) (F : ℝ) (s : Segment (Fl rnd)) {a b : Fl rnd}
    (ic : InputConstraints (Fl rnd)) (g : Fin 3 → Fl rnd) (roots : List (List (Fl rnd × Fl rnd)))
    (hm : ∀ i : Fin 3, ∃ m, axisMinMaxG (flFeasLib rnd dot) s 2 roots a b i = .ok m ∧
      NearFl Good F (fun t => axisVal (realSeg s) 2 i t + (g i).val) a.val b.val (m.1 + g i, m.2 + g i))
    (is : List (Fin 3)) (acc : Fl rnd × Fl rnd) (j : ℕ) (P Q : ℝ) (h1 : AccOf u j acc.1 P) (h2 : AccOf u j acc.2 Q) :
    (thrustLoopG (flFeasLib rnd dot) ic g s roots a b is acc = .ok (.inl .thrustHigh) ∧
      ∃ l, ic.getConstraint kFMax = some l ∧ ∃ i ∈ is, ∃ t ∈ Icc a.val b.val,
        l.val < |axisVal (realSeg s) 2 (i : Fin 3) t + (g i).val| + F) ∨
    ∃ r P' Q', thrustLoopG (flFeasLib rnd dot) ic g s roots a b is acc = .ok (.inr r) ∧
      AccOf u (j + is.length) r.1 P' ∧ AccOf u (j + is.length) r.2 Q' ∧
      ∀ t δ, Good t δ →
        P' ≤ P + (is.map fun i : Fin 3 => (|axisVal (realSeg s) 2 i t + (g i).val| + δ) ^ 2).sum ∧
        Q + (is.map fun i : Fin 3 => max (|axisVal (realSeg s) 2 i t + (g i).val| - δ) 0 ^ 2).sum ≤ Q' := by
  induction is generalizing acc j P Q with
  | nil => right; exact ⟨acc, P, Q, rfl, h1, h2, by simp⟩
  | cons i is ih =>
    obtain ⟨m, hm', hmm⟩ := hm i
    set lo := m.1 + g i with hlo
    set hi := m.2 + g i with hhi
    have e : thrustLoopG (flFeasLib rnd dot) ic g s roots a b (i :: is) acc =
        if limitSuchThatG ic kFMax fun lim => maxAbsG (flFeasLib rnd dot) lo hi > lim then .ok (.inl .thrustHigh)
        else thrustLoopG (flFeasLib rnd dot) ic g s roots a b is (acc.1 + lowerTermG (flFeasLib rnd dot) lo hi,
          acc.2 + (flLib rnd).pow2 (maxAbsG (flFeasLib rnd dot) lo hi)) := by
      rw [hlo, hhi]
      simp only [thrustLoopG, hm', Res.ok_bind, Res.pure_eq]
      rfl
    rw [e]
    by_cases hc : limitSuchThatG ic kFMax fun lim => maxAbsG (flFeasLib rnd dot) lo hi > lim
    · left
      rw [if_pos hc]
      refine ⟨rfl, ?_⟩
      obtain ⟨l, hl, hlt⟩ := limitSuchThatG_true.mp hc
      refine ⟨l, hl, i, by simp, ?_⟩
      have hlt' : l.val < (maxAbsG (flFeasLib rnd dot) lo hi).val := by
        have : l < maxAbsG (flFeasLib rnd dot) lo hi := by simpa using hlt
        exact this
      rw [maxAbsG_val] at hlt'
      have key : ∀ x : Fl rnd, (∃ t ∈ Icc a.val b.val, |x.val - (axisVal (realSeg s) 2 i t + (g i).val)| ≤ F) →
          l.val < |x.val| → ∃ t ∈ Icc a.val b.val, l.val < |axisVal (realSeg s) 2 i t + (g i).val| + F := by
        rintro x ⟨t, ht, hx⟩ hlx
        refine ⟨t, ht, ?_⟩
        have := abs_add_le (x.val - (axisVal (realSeg s) 2 i t + (g i).val)) (axisVal (realSeg s) 2 i t + (g i).val)
        rw [sub_add_cancel] at this
        linarith
      rcases lt_max_iff.mp hlt' with hx | hx
      · exact key _ hmm.minAt hx
      · exact key _ hmm.maxAt hx
    · rw [if_neg hc]
      obtain ⟨q, hq0, hq, hq1, hq2⟩ := lowerTermG_bounds h hu1 dot lo hi
      have hp := pow2_bounds h (maxAbsG (flFeasLib rnd dot) lo hi)
      rw [maxAbsG_val] at hp
      rcases ih (acc.1 + lowerTermG (flFeasLib rnd dot) lo hi, acc.2 + (flLib rnd).pow2 (maxAbsG (flFeasLib rnd dot) lo hi))
          (j + 1) _ _ (h1.step h hu1.le hq0 hq1 hq2) (h2.step h hu1.le (by positivity) hp.1 hp.2) with
        ⟨r1, l, hl, j, hj, t, ht, r2⟩ | ⟨r, P', Q', r1, r2, r3, r4⟩
      · left; exact ⟨r1, l, hl, j, by simp [hj], t, ht, r2⟩
      · right
        refine ⟨r, P', Q', r1, by rw [List.length_cons]; convert r2 using 1; omega,
          by rw [List.length_cons]; convert r3 using 1; omega, ?_⟩
        intro t δ ht
        obtain ⟨h3, h4⟩ := r4 t δ ht
        obtain ⟨b1, b2⟩ := hmm.bound t δ ht
        dsimp only at b1 b2
        have hsq := near_sq_le (m := (lo.val, hi.val)) b1 b2
        have hlow := near_min_sq_le (hG t δ ht) hmm.le b1 b2
        rw [← hq] at hlow
        rw [List.map_cons, List.sum_cons, List.map_cons, List.sum_cons]
        dsimp only at hsq
        constructor <;> linarith

end Verif
