import Verif.Props.RoundedMagnitude

/- Helper lemmas for the scaling to limits with rounded numbers. -/
set_option linter.unusedSectionVars false

namespace Verif

open Polynomial Spec Set

variable {rnd : ℝ → ℝ} {u : ℝ}

/-- The coefficients of `p'` are those of `p` divided by powers of `σ`, up to relative errors. -/
def ScaledP (u : ℝ) (m : ℕ) (σ : ℝ) (p p' : Poly (Fl rnd)) : Prop :=
  p'.N = p.N ∧ ∀ j, ∃ θ, |θ| ≤ (1 + u) ^ m - 1 ∧ (p'.coeffs.getD j 0).val = (p.coeffs.getD j 0).val / σ ^ j * (1 + θ)

/-- All polynomials of a segment, and its duration. -/
structure ScaledS (u : ℝ) (m : ℕ) (σ : ℝ) (s s' : Segment (Fl rnd)) : Prop where
  coeffs : s'.N = s.N
  time : ∃ θ, |θ| ≤ (1 + u) ^ m - 1 ∧ s'.time.val = σ * s.time.val * (1 + θ)
  polys : List.Forall₂ (ScaledP u m σ) s.polys s'.polys

theorem ScaledP.refl (hu : 0 ≤ u) (m : ℕ) (p : Poly (Fl rnd)) : ScaledP u m 1 p p :=
  ⟨rfl, fun j => ⟨0, factor_zero hu m, by simp⟩⟩

theorem ScaledS.refl (hu : 0 ≤ u) (m : ℕ) (s : Segment (Fl rnd)) : ScaledS u m 1 s s := by
  refine ⟨rfl, ⟨0, factor_zero hu m, by simp⟩, ?_⟩
  rw [List.forall₂_same]
  exact fun p _ => ScaledP.refl hu m p

theorem ScaledP.trans (hu : 0 ≤ u) {m n : ℕ} {σ τ : ℝ} {p q r : Poly (Fl rnd)} (h1 : ScaledP u m σ p q)
    (h2 : ScaledP u n τ q r) : ScaledP u (m + n) (σ * τ) p r := by
  refine ⟨h2.1.trans h1.1, fun j => ?_⟩
  obtain ⟨θ1, a1, b1⟩ := h1.2 j
  obtain ⟨θ2, a2, b2⟩ := h2.2 j
  obtain ⟨θ, e, b⟩ := factor_mul hu a1 a2
  refine ⟨θ, b, ?_⟩
  rw [b2, b1, ← e, mul_pow, div_eq_mul_inv, div_eq_mul_inv, div_eq_mul_inv, mul_inv]
  ring

theorem forall₂_trans {α : Type} {R S U : α → α → Prop} (h : ∀ a b c, R a b → S b c → U a c) {l1 l2 l3 : List α}
    (h1 : List.Forall₂ R l1 l2) (h2 : List.Forall₂ S l2 l3) : List.Forall₂ U l1 l3 := by
  induction h1 generalizing l3 with
  | nil => cases h2; exact List.Forall₂.nil
  | cons r _ ih =>
    cases h2 with
    | cons s t => exact List.Forall₂.cons (h _ _ _ r s) (ih t)

theorem ScaledS.trans (hu : 0 ≤ u) {m n : ℕ} {σ τ : ℝ} {p q r : Segment (Fl rnd)} (h1 : ScaledS u m σ p q)
    (h2 : ScaledS u n τ q r) : ScaledS u (m + n) (σ * τ) p r := by
  refine ⟨h2.coeffs.trans h1.coeffs, ?_, forall₂_trans (R := ScaledP u m σ) (S := ScaledP u n τ)
    (U := ScaledP u (m + n) (σ * τ)) (fun _ _ _ a b => ScaledP.trans hu a b) h1.polys h2.polys⟩
  obtain ⟨θ1, a1, b1⟩ := h1.time
  obtain ⟨θ2, a2, b2⟩ := h2.time
  obtain ⟨θ, e, b⟩ := factor_mul hu a1 a2
  refine ⟨θ, b, ?_⟩
  rw [b2, b1, ← e]
  ring

theorem scaleInTime_N (p : Poly (Fl rnd)) (b : Fl rnd) : (p.scaleInTime b).N = p.N := by
  have hlen : ∀ (l : List (Fl rnd)) (s : Fl rnd), (scaleLoop b s l).length = l.length := by
    intro l
    induction l with
    | nil => intro s; rfl
    | cons c l ih => intro s; simp [scaleLoop, ih]
  exact hlen _ _

theorem factor_pow (hu : 0 ≤ u) {δ : ℝ} (h : |δ| ≤ (1 + u) ^ 1 - 1) (j : ℕ) :
    ∃ θ, |θ| ≤ (1 + u) ^ j - 1 ∧ (1 + δ) ^ j = 1 + θ := by
  induction j with
  | zero => exact ⟨0, factor_zero hu _, by simp⟩
  | succ j ih =>
    obtain ⟨θ, h1, h2⟩ := ih
    obtain ⟨ζ, e, b⟩ := factor_mul hu h1 h
    exact ⟨ζ, b, by rw [pow_succ, h2, e]⟩

theorem scaleInTime_scaled (h : Rounding rnd u) (p : Poly (Fl rnd)) (σ : Fl rnd) :
    ScaledP u (2 * p.N) σ.val p (p.scaleInTime (1 / σ)) := by
  have hu := rounding_nonneg h
  refine ⟨scaleInTime_N p _, fun j => ?_⟩
  by_cases hj : j < p.coeffs.length
  · obtain ⟨y, θ, g1, g2, g3⟩ := scaleLoop_rounded h (1 / σ) p.coeffs 0 1 ⟨0, factor_zero hu _, by
      change (1 : ℝ) = _
      simp⟩ j p.coeffs[j] (List.getElem?_eq_getElem hj)
    obtain ⟨δ, e1, b1⟩ := rnd_factor h (1 / σ.val)
    obtain ⟨ζ, z1, z2⟩ := factor_pow hu b1 j
    obtain ⟨η, e, b⟩ := factor_mul hu z1 g2
    refine ⟨η, factor_mono hu (by unfold Poly.N; omega) b, ?_⟩
    have hb : (1 / σ : Fl rnd).val = 1 / σ.val * (1 + δ) := e1
    rw [List.getD_eq_getElem?_getD, List.getD_eq_getElem?_getD, List.getElem?_eq_getElem hj, Option.getD_some]
    unfold Poly.scaleInTime
    dsimp only
    rw [g1, Option.getD_some, g3, zero_add, hb, mul_pow, z2, ← e, one_div, inv_pow]
    ring
  · have h1 : (p.scaleInTime (1 / σ)).coeffs.length ≤ j := by
      have := scaleInTime_N p (1 / σ)
      unfold Poly.N at this
      omega
    refine ⟨0, factor_zero hu _, ?_⟩
    rw [List.getD_eq_getElem?_getD, List.getD_eq_getElem?_getD, List.getElem?_eq_none h1,
      List.getElem?_eq_none (not_lt.mp hj)]
    change (0 : ℝ) = 0 / _ * _
    simp

theorem scaleTime_scaled (h : Rounding rnd u) (s : Segment (Fl rnd)) (hs : s.WF) (hN : 0 < s.N) (σ : Fl rnd) :
    ScaledS u (2 * s.N) σ.val s (s.scaleTime σ) := by
  have hu := rounding_nonneg h
  refine ⟨rfl, ?_, ?_⟩
  · obtain ⟨δ, e1, b1⟩ := rnd_factor h (s.time.val * σ.val)
    refine ⟨δ, factor_mono hu (by omega) b1, ?_⟩
    change rnd (s.time.val * σ.val) = _
    rw [e1]
    ring
  · change List.Forall₂ _ s.polys (s.polys.map fun p => p.scaleInTime (1 / σ))
    rw [List.forall₂_map_right_iff, List.forall₂_same]
    intro p hp
    rw [← hs.polysN p hp]
    exact scaleInTime_scaled h p σ

theorem ScaledS.D_eq {m : ℕ} {σ : ℝ} {s s' : Segment (Fl rnd)} (h : ScaledS u m σ s s') : s'.D = s.D :=
  h.polys.length_eq.symm

theorem ScaledS.wf {m : ℕ} {σ : ℝ} {s s' : Segment (Fl rnd)} (h : ScaledS u m σ s s') (hs : s.WF) : s'.WF := by
  refine ⟨fun p hp => ?_, by rw [h.coeffs]; exact hs.small⟩
  obtain ⟨i, hi, rfl⟩ := List.getElem_of_mem hp
  have hi' : i < s.polys.length := by rw [h.polys.length_eq]; exact hi
  have := (List.forall₂_iff_get.mp h.polys).2 i hi' hi
  rw [h.coeffs, ← hs.polysN _ (List.getElem_mem hi')]
  exact this.1

theorem absValues_getD (s : Segment (Fl rnd)) (k : ℕ) (T : ℝ) {d : ℕ} (hd : d < s.polys.length) :
    (valuesAt (s.polys.map fun p => ⟨(vals p.coeffs).map abs⟩) k T).getD d 0 =
      derivAt ((vals s.polys[d].coeffs).map abs) k T := by
  unfold valuesAt
  rw [List.map_map, List.getD_eq_getElem?_getD, List.getElem?_map, List.getElem?_eq_getElem hd, Option.map_some,
    Option.getD_some, Function.comp_apply, iteratedDeriv_curve]

theorem valuesAt_getD_none (ps : List (Poly ℝ)) (k : ℕ) (t : ℝ) {d : ℕ} (hd : ps.length ≤ d) :
    (valuesAt ps k t).getD d 0 = 0 := by
  unfold valuesAt
  rw [List.getD_eq_getElem?_getD, List.getElem?_eq_none (by simpa using hd)]
  rfl

/-- A scaled polynomial, evaluated. -/
theorem ScaledP.derivAt_near {m : ℕ} {σ : ℝ} (hσ : 0 < σ) {p p' : Poly (Fl rnd)} (hp : ScaledP u m σ p p')
    (k : ℕ) (t : ℝ) :
    |derivAt (vals p'.coeffs) k t - derivAt (vals p.coeffs) k (t / σ) / σ ^ k| ≤
      ((1 + u) ^ m - 1) * (derivAt ((vals p.coeffs).map abs) k (|t| / σ) / σ ^ k) ∧
    derivAt ((vals p'.coeffs).map abs) k |t| ≤
      (1 + u) ^ m * (derivAt ((vals p.coeffs).map abs) k (|t| / σ) / σ ^ k) := by
  have hl : (vals p'.coeffs).length = (vals p.coeffs).length := by
    have := hp.1
    unfold Poly.N at this
    simpa [vals] using this
  have hσk : ∀ i, (σ ^ (k + i) : ℝ) ≠ 0 := fun i => (pow_pos hσ _).ne'
  have term : ∀ i x, ∃ θ, |θ| ≤ (1 + u) ^ m - 1 ∧ ((k + i).descFactorial k : ℝ) * (vals p'.coeffs).getD (k + i) 0 * x ^ i =
      ((k + i).descFactorial k : ℝ) * (vals p.coeffs).getD (k + i) 0 * (x / σ) ^ i / σ ^ k * (1 + θ) := by
    intro i x
    obtain ⟨θ, h1, h2⟩ := hp.2 (k + i)
    refine ⟨θ, h1, ?_⟩
    rw [vals_getD, vals_getD, h2, div_pow, pow_add]
    field_simp
  rw [derivAt_eq_sum, derivAt_eq_sum, derivAt_eq_sum, derivAt_eq_sum, List.length_map, List.length_map, hl,
    Finset.sum_div, Finset.sum_div, Finset.mul_sum, Finset.mul_sum, ← Finset.sum_sub_distrib]
  refine ⟨(Finset.abs_sum_le_sum_abs _ _).trans (Finset.sum_le_sum fun i _ => ?_), Finset.sum_le_sum fun i _ => ?_⟩
  · obtain ⟨θ, h1, h2⟩ := term i t
    rw [h2, mul_add, mul_one, add_sub_cancel_left, abs_mul, mul_comm, abs_div, abs_mul, abs_mul, abs_pow, abs_pow,
      Nat.abs_cast, abs_div, abs_of_pos hσ, abs_getD]
    refine mul_le_mul_of_nonneg_right h1 (by positivity)
  · obtain ⟨θ, h1, h2⟩ := term i |t|
    have h3 : ((k + i).descFactorial k : ℝ) * ((vals p'.coeffs).map abs).getD (k + i) 0 * |t| ^ i =
        |((k + i).descFactorial k : ℝ) * (vals p'.coeffs).getD (k + i) 0 * |t| ^ i| := by
      rw [abs_mul, abs_mul, abs_pow, abs_abs, Nat.abs_cast, abs_getD]
    rw [h3, h2, abs_mul, mul_comm, abs_div, abs_mul, abs_mul, abs_pow, abs_pow, Nat.abs_cast, abs_div, abs_abs,
      abs_of_pos hσ, abs_getD]
    refine mul_le_mul_of_nonneg_right ?_ (by positivity)
    have := (abs_add_le 1 θ)
    rw [abs_one] at this
    linarith

theorem ScaledS.slowed {m : ℕ} {σ : ℝ} (hσ : 0 < σ) {s s' : Segment (Fl rnd)} (h : ScaledS u m σ s s') :
    SlowedBy u m σ s s' := by
  refine ⟨h.D_eq, h.coeffs, ?_, fun k t d => ?_⟩
  · obtain ⟨θ, h1, h2⟩ := h.time
    rw [h2]
    exact close_of_factor h1
  · by_cases hd : d < s.polys.length
    · have hd' : d < s'.polys.length := by rw [← h.polys.length_eq]; exact hd
      rw [realPolys_value s' k t hd', realPolys_value s k _ hd, absValues_getD s k _ hd]
      exact (((List.forall₂_iff_get.mp h.polys).2 d hd hd').derivAt_near hσ k t).1
    · have hd' : s'.polys.length ≤ d := by rw [← h.polys.length_eq]; omega
      rw [valuesAt_getD_none _ _ _ (by simpa [realPolys] using hd'),
        valuesAt_getD_none _ _ _ (by simpa [realPolys] using hd), valuesAt_getD_none _ _ _ (by simpa using hd)]
      simp

/-- The magnitude of a scaled segment and its size. -/
theorem ScaledS.magnitude_near {m : ℕ} {σ : ℝ} (hσ : 0 < σ) {s s' : Segment (Fl rnd)} (h : ScaledS u m σ s s')
    (ds : List ℕ) (hds : ∀ d ∈ ds, d < s.D) (k : ℕ) (t : ℝ) :
    |magnitude (realPolys s') ds k t - magnitude (realPolys s) ds k (t / σ) / σ ^ k| ≤
      ((1 + u) ^ m - 1) * (absSize s ds k (|t| / σ) / σ ^ k) ∧
    absSize s' ds k |t| ≤ (1 + u) ^ m * (absSize s ds k (|t| / σ) / σ ^ k) := by
  have hσk : 0 < σ ^ k := pow_pos hσ k
  have hds' : ∀ d ∈ ds, d < s'.D := by rw [h.D_eq]; exact hds
  constructor
  · have e : magnitude (realPolys s) ds k (t / σ) / σ ^ k =
        Real.sqrt (ds.map fun d => ((valuesAt (realPolys s) k (t / σ)).getD d 0 / σ ^ k) ^ 2).sum := by
      have e1 : (ds.map fun d => ((valuesAt (realPolys s) k (t / σ)).getD d 0 / σ ^ k) ^ 2) =
          ds.map fun d => ((1 / σ ^ k) ^ 2) * (valuesAt (realPolys s) k (t / σ)).getD d 0 ^ 2 :=
        List.map_congr_left fun d _ => by ring
      rw [e1, List.sum_map_mul_left, Real.sqrt_mul (by positivity), Real.sqrt_sq (by positivity)]
      unfold magnitude
      ring
    rw [e]
    refine (norm_near _ _ ds).trans ?_
    unfold absSize
    rw [div_eq_mul_inv _ (σ ^ k), ← List.sum_map_mul_right, ← List.sum_map_mul_left]
    refine sum_le_sum_map ds fun d _ => ?_
    have := (h.slowed hσ).values k t d
    rw [← div_eq_mul_inv]
    exact this
  · rw [absSize_eq s' ds hds', absSize_eq s ds hds, div_eq_mul_inv, ← List.sum_map_mul_right, ← List.sum_map_mul_left]
    refine sum_le_sum_map ds fun d hd => ?_
    have hd1 : d < s.polys.length := hds d hd
    have hd' : d < s'.polys.length := by rw [← h.polys.length_eq]; exact hd1
    rw [segVals_abs_getD s' hd', segVals_abs_getD s hd1, ← div_eq_mul_inv]
    exact (((List.forall₂_iff_get.mp h.polys).2 d hd1 hd').derivAt_near hσ k t).2

theorem ScaledP.mono (hu : 0 ≤ u) {m n : ℕ} (hmn : m ≤ n) {σ : ℝ} {p q : Poly (Fl rnd)} (h : ScaledP u m σ p q) :
    ScaledP u n σ p q := by
  refine ⟨h.1, fun j => ?_⟩
  obtain ⟨θ, h1, h2⟩ := h.2 j
  exact ⟨θ, factor_mono hu hmn h1, h2⟩

theorem ScaledS.mono (hu : 0 ≤ u) {m n : ℕ} (hmn : m ≤ n) {σ : ℝ} {s s' : Segment (Fl rnd)} (h : ScaledS u m σ s s') :
    ScaledS u n σ s s' := by
  refine ⟨h.coeffs, ?_, h.polys.imp fun _ _ => ScaledP.mono hu hmn⟩
  obtain ⟨θ, h1, h2⟩ := h.time
  exact ⟨θ, factor_mono hu hmn h1, h2⟩

/-- A scaled segment with what is known of its duration. -/
structure ScaledR (u : ℝ) (m : ℕ) (σ : ℝ) (s s' : Segment (Fl rnd)) : Prop where
  scaled : ScaledS u m σ s s'
  nonneg : 0 ≤ s.time.val → 0 ≤ s'.time.val
  later : 0 ≤ s.time.val → rnd s.time.val = s.time.val → s.time.val ≤ s'.time.val ∧ rnd s'.time.val = s'.time.val

theorem ScaledR.refl (hu : 0 ≤ u) (m : ℕ) (s : Segment (Fl rnd)) : ScaledR u m 1 s s :=
  ⟨ScaledS.refl hu m s, fun h => h, fun _ h => ⟨le_rfl, h⟩⟩

theorem ScaledR.trans (hu : 0 ≤ u) {m n : ℕ} {σ τ : ℝ} {p q r : Segment (Fl rnd)} (h1 : ScaledR u m σ p q)
    (h2 : ScaledR u n τ q r) : ScaledR u (m + n) (σ * τ) p r := by
  refine ⟨h1.scaled.trans hu h2.scaled, fun h => h2.nonneg (h1.nonneg h), fun h0 h => ?_⟩
  obtain ⟨a1, a2⟩ := h1.later h0 h
  obtain ⟨b1, b2⟩ := h2.later (h1.nonneg h0) a2
  exact ⟨a1.trans b1, b2⟩

theorem scaleTime_scaledR (h : Rounding rnd u) (s : Segment (Fl rnd)) (hs : s.WF) (hN : 0 < s.N) (σ : Fl rnd)
    (hσ : 1 ≤ σ.val) : ScaledR u (2 * s.N) σ.val s (s.scaleTime σ) := by
  refine ⟨scaleTime_scaled h s hs hN σ, fun h0 => ?_, fun h0 h1 => ⟨?_, h.idem _⟩⟩
  · change 0 ≤ rnd (s.time.val * σ.val)
    rw [← rnd_zero h]
    exact h.mono (by positivity)
  · change s.time.val ≤ rnd (s.time.val * σ.val)
    rw [← h1]
    refine le_trans (h.mono ?_) le_rfl
    rw [h1]
    exact le_mul_of_one_le_right h0 hσ

/-- The hypotheses on a trajectory, a root finder and error bounds. -/
structure MeetOk (u ρ : ℝ) (rf : RootFinder (Fl rnd)) (tr : Trajectory (Fl rnd)) (T A E V Q : ℝ) : Prop where
  ρ0 : 0 ≤ ρ
  hrf : ∀ τ, 0 ≤ τ → ApproxOn (ρ * τ) 0 τ rf
  hne : tr.segments ≠ []
  hwf : ∀ s ∈ tr.segments, s.WF ∧ s.N = tr.N ∧ s.D = tr.D
  hD : 0 < tr.D
  hN : 3 ≤ tr.N
  hT : ∀ s ∈ tr.segments, 0 ≤ s.time.val ∧ (1 + u) ^ (40 * tr.N) * s.time.val ≤ T
  hA : ∀ s ∈ tr.segments, ∀ k, 1 ≤ k → k ≤ 3 → (1 + u) ^ (40 * tr.N) * absSize s (List.range tr.D) k T ≤ A
  hE : ((1 + u) ^ (2 * tr.N) - 1) * A ≤ E
  hV : E + ((1 + u) ^ (tr.D + 2) - 1) * (A + E) ≤ V
  hQ : V + (A * (ρ * T) + 2 * E + Real.sqrt (2 * ((1 + u) ^ (5 * tr.N + 1 + tr.D) - 1) * (A * A) * T)) ≤ Q
  hfin : A + V < dblMax

section
variable {ρ T A E V Q : ℝ} {rf : RootFinder (Fl rnd)} {tr : Trajectory (Fl rnd)}

theorem MeetOk.T0 (h : Rounding rnd u) (m : MeetOk u ρ rf tr T A E V Q) : 0 ≤ T := by
  obtain ⟨s0, hs0⟩ := List.exists_mem_of_ne_nil _ m.hne
  have hu := rounding_nonneg h
  have := m.hT s0 hs0
  exact le_trans (mul_nonneg (by positivity) this.1) this.2

theorem MeetOk.ds {s : Segment (Fl rnd)} (m : MeetOk u ρ rf tr T A E V Q) (hs : s ∈ tr.segments) :
    ∀ d ∈ List.range tr.D, d < s.D := by
  intro d hd
  rw [(m.hwf s hs).2.2]
  exact List.mem_range.mp hd

theorem MeetOk.size_nonneg (h : Rounding rnd u) (m : MeetOk u ρ rf tr T A E V Q) {s : Segment (Fl rnd)}
    (hs : s ∈ tr.segments) (k : ℕ) : 0 ≤ absSize s (List.range tr.D) k T :=
  absSize_nonneg s _ (m.ds hs) k (m.T0 h)

theorem MeetOk.A0 (h : Rounding rnd u) (m : MeetOk u ρ rf tr T A E V Q) : 0 ≤ A := by
  obtain ⟨s0, hs0⟩ := List.exists_mem_of_ne_nil _ m.hne
  have hu := rounding_nonneg h
  refine le_trans ?_ (m.hA s0 hs0 1 le_rfl (by norm_num))
  exact mul_nonneg (by positivity) (m.size_nonneg h hs0 1)

theorem MeetOk.E0 (h : Rounding rnd u) (m : MeetOk u ρ rf tr T A E V Q) : 0 ≤ E :=
  (mul_nonneg (sub_nonneg.mpr (one_le_pow_u h _)) (m.A0 h)).trans m.hE

theorem MeetOk.V0 (h : Rounding rnd u) (m : MeetOk u ρ rf tr T A E V Q) : 0 ≤ V := by
  refine le_trans ?_ m.hV
  exact add_nonneg (m.E0 h) (mul_nonneg (sub_nonneg.mpr (one_le_pow_u h _)) (add_nonneg (m.A0 h) (m.E0 h)))

theorem MeetOk.Q0 (h : Rounding rnd u) (m : MeetOk u ρ rf tr T A E V Q) : 0 ≤ Q := by
  refine le_trans ?_ m.hQ
  have h1 := m.V0 h
  have h2 := m.E0 h
  have h3 := m.A0 h
  have h4 := m.T0 h
  have h5 := m.ρ0
  positivity

/-- The extrema of the scaled trajectory, with the accuracy for the original one. -/
theorem maxVA_scaled (h : Rounding rnd u) (M : MeetOk u ρ rf tr T A E V Q) {m : ℕ} (hm : m ≤ 40 * tr.N) {σ : ℝ}
    (hσ : 1 ≤ σ) (tr' : Trajectory (Fl rnd)) (hD : tr'.D = tr.D) (hN : tr'.N = tr.N)
    (hsc : List.Forall₂ (ScaledR u m σ) tr.segments tr'.segments) :
    ∃ v a : Fl rnd, tr'.maxVelocityAndAccelerationG (flLib rnd) rf = .ok (true, v, a) ∧
      (∀ s ∈ tr'.segments, ∀ t ∈ Icc 0 s.time.val,
        magnitude (realPolys s) (List.range tr.D) 1 t ≤ v.val + Q ∧
        magnitude (realPolys s) (List.range tr.D) 2 t ≤ a.val + Q) ∧
      (∃ s ∈ tr'.segments, ∃ t ∈ Icc 0 s.time.val, |v.val - magnitude (realPolys s) (List.range tr.D) 1 t| ≤ Q) ∧
      (∃ s ∈ tr'.segments, ∃ t ∈ Icc 0 s.time.val, |a.val - magnitude (realPolys s) (List.range tr.D) 2 t| ≤ Q) := by
  have hu := rounding_nonneg h
  have hσ0 : 0 < σ := by linarith
  have hT0 := M.T0 h
  have hA0 := M.A0 h
  have hE0 := M.E0 h
  have hγ : ∀ n, 0 ≤ (1 + u) ^ n - 1 := fun n => sub_nonneg.mpr (one_le_pow_u h n)
  have hpre : ∀ s' ∈ tr'.segments, ∃ s ∈ tr.segments, ScaledR u m σ s s' := by
    intro s' hs'
    obtain ⟨i, hi, rfl⟩ := List.getElem_of_mem hs'
    have hi' : i < tr.segments.length := by rw [hsc.length_eq]; exact hi
    exact ⟨_, List.getElem_mem hi', (List.forall₂_iff_get.mp hsc).2 i hi' hi⟩
  have hAσ : A / σ ≤ A := div_le_self hA0 hσ
  have hAσ0 : 0 ≤ A / σ := by positivity
  have hTs : ∀ s' ∈ tr'.segments, 0 ≤ s'.time.val ∧ s'.time.val ≤ σ * T := by
    intro s' hs'
    obtain ⟨s, hs, r⟩ := hpre s' hs'
    obtain ⟨t0, t1⟩ := M.hT s hs
    refine ⟨r.nonneg t0, ?_⟩
    obtain ⟨θ, a1, a2⟩ := r.scaled.time
    rw [a2, mul_assoc]
    refine mul_le_mul_of_nonneg_left (le_trans ?_ t1) hσ0.le
    rw [mul_comm]
    refine mul_le_mul_of_nonneg_right ?_ t0
    have := pow_le_pow_right₀ (by linarith : 1 ≤ 1 + u) hm
    have := (le_abs_self θ).trans a1
    linarith
  have := C115_maxVelocityAndAcceleration h rf (ε := ρ * (σ * T)) (mul_nonneg M.ρ0 (by positivity)) tr'
    (by
      intro h0
      have := hsc.length_eq
      rw [h0] at this
      exact M.hne (List.length_eq_zero_iff.mp this))
    (by
      intro s' hs'
      obtain ⟨s, hs, r⟩ := hpre s' hs'
      obtain ⟨w1, w2, w3⟩ := M.hwf s hs
      exact ⟨r.scaled.wf w1, by rw [r.scaled.coeffs, w2, hN], by rw [r.scaled.D_eq, w3, hD]⟩)
    (by rw [hD]; exact M.hD) (by rw [hN]; exact M.hN) (σ * T) hTs
    (by
      intro s' hs' c x y hx hxy hy hc
      obtain ⟨t0, t1⟩ := hTs s' hs'
      obtain ⟨z, z1, z2, z3, z4⟩ := M.hrf _ t0 c x y hx hxy hy hc
      have := mul_le_mul_of_nonneg_left t1 M.ρ0
      exact ⟨z, z1, z2, by linarith, by linarith⟩) (A / σ)
    (by
      intro s' hs' k k1 k3
      obtain ⟨s, hs, r⟩ := hpre s' hs'
      rw [hD]
      have e := (r.scaled.magnitude_near hσ0 (List.range tr.D) (M.ds hs) k (σ * T)).2
      rw [abs_of_nonneg (by positivity), mul_div_cancel_left₀ _ hσ0.ne'] at e
      refine e.trans ?_
      rw [← mul_div_assoc]
      have n0 := M.size_nonneg h hs k
      have e1 : (1 + u) ^ m * absSize s (List.range tr.D) k T ≤ A := by
        refine le_trans (mul_le_mul_of_nonneg_right ?_ n0) (M.hA s hs k k1 k3)
        exact pow_le_pow_right₀ (by linarith) hm
      have e2 : σ ≤ σ ^ k := le_self_pow₀ hσ (by omega)
      exact div_le_div₀ hA0 e1 hσ0 e2) E V Q
    (by
      rw [hN]
      exact (mul_le_mul_of_nonneg_left hAσ (hγ _)).trans M.hE)
    (by
      rw [hD]
      have := mul_le_mul_of_nonneg_left (add_le_add_left hAσ E) (hγ (tr.D + 2))
      exact le_trans (by linarith) M.hV)
    (by
      rw [hN, hD]
      refine le_trans ?_ M.hQ
      have e1 : A / σ * (ρ * (σ * T)) = A * (ρ * T) := by field_simp
      have e2 : Real.sqrt (2 * ((1 + u) ^ (5 * tr.N + 1 + tr.D) - 1) * (A / σ * (A / σ)) * (σ * T)) ≤
          Real.sqrt (2 * ((1 + u) ^ (5 * tr.N + 1 + tr.D) - 1) * (A * A) * T) := by
        apply Real.sqrt_le_sqrt
        have e3 : 2 * ((1 + u) ^ (5 * tr.N + 1 + tr.D) - 1) * (A / σ * (A / σ)) * (σ * T) =
            2 * ((1 + u) ^ (5 * tr.N + 1 + tr.D) - 1) * (A * (A / σ)) * T := by field_simp
        rw [e3]
        have := hγ (5 * tr.N + 1 + tr.D)
        gcongr
      rw [e1]
      linarith)
    (by linarith [M.hfin])
  rw [hD] at this
  exact this

theorem stdMaxVal_ge (a b : Fl rnd) : a.val ≤ (stdMaxVal a b).val ∧ b.val ≤ (stdMaxVal a b).val := by
  unfold stdMaxVal
  by_cases hab : a < b
  · rw [if_pos hab]
    exact ⟨le_of_lt hab, le_rfl⟩
  · rw [if_neg hab]
    exact ⟨le_rfl, not_lt.mp hab⟩

theorem rnd_le_imp (h : Rounding rnd u) (hu1 : u < 1) {x L : ℝ} (hL : 0 ≤ L) (hx : rnd x ≤ L) : x ≤ L / (1 - u) := by
  rw [le_div_iff₀ (by linarith)]
  by_cases h0 : 0 ≤ x
  · have := (abs_le.mp (h.rel x)).1
    rw [abs_of_nonneg h0] at this
    linarith
  · exact le_trans (mul_nonpos_of_nonpos_of_nonneg (not_le.mp h0).le (by linarith)) hL

theorem flLim_nonneg (h : Rounding rnd u) : 0 ≤ (flLim rnd).val := by
  have h1 : 0 ≤ rnd (1 / 1000) := by
    rw [← rnd_zero h]
    exact h.mono (by norm_num)
  change 0 ≤ rnd _
  rw [← rnd_zero h]
  exact h.mono (by linarith)

/-- One scaling of an already scaled trajectory. -/
theorem scaleCore_scaled (h : Rounding rnd u) (M : MeetOk u ρ rf tr T A E V Q) {m : ℕ} {σ : ℝ}
    (tr' : Trajectory (Fl rnd))
    (hsc : List.Forall₂ (ScaledR u m σ) tr.segments tr'.segments) (c : Fl rnd) (hc : 1 ≤ c.val) :
    List.Forall₂ (ScaledR u (m + 2 * tr.N) (σ * c.val)) tr.segments (tr'.scaleCore c).segments := by
  have hu := rounding_nonneg h
  change List.Forall₂ _ _ (tr'.segments.map _)
  rw [List.forall₂_map_right_iff]
  rw [List.forall₂_iff_get] at hsc ⊢
  refine ⟨hsc.1, fun i h1 h2 => ?_⟩
  have r := hsc.2 i h1 h2
  have w := M.hwf (tr.segments.get ⟨i, h1⟩) (List.get_mem _ _)
  refine r.trans hu ?_
  have hn : (tr'.segments.get ⟨i, h2⟩).N = tr.N := by rw [r.scaled.coeffs, w.2.1]
  rw [← hn]
  exact scaleTime_scaledR h _ (r.scaled.wf w.1) (by rw [hn]; have := M.hN; omega) c hc

/-- Any run of the loop. -/
theorem scaleToMeetLoopG_ok (h : Rounding rnd u) (hu1 : u < 1) (M : MeetOk u ρ rf tr T A E V Q) (vMax aMax : Fl rnd)
    (hv : 0 < vMax.val) (ha : 0 < aMax.val) :
    ∀ (n j : ℕ) (σ : ℝ) (tr' : Trajectory (Fl rnd)), n + j ≤ 20 → 1 ≤ σ → tr'.D = tr.D → tr'.N = tr.N →
      (tr' = tr ∨ tr'.maxTime = (tr'.segments.map (·.time)).foldl (· + ·) 0) →
      List.Forall₂ (ScaledR u (2 * tr.N * j) σ) tr.segments tr'.segments →
      ∃ b r τ, scaleToMeetLoopG (flLib rnd) (flLim rnd) rf vMax aMax n tr' = .ok (b, r) ∧ 1 ≤ τ ∧
        r.D = tr.D ∧ r.N = tr.N ∧ (r = tr ∨ r.maxTime = (r.segments.map (·.time)).foldl (· + ·) 0) ∧
        List.Forall₂ (ScaledR u (40 * tr.N) τ) tr.segments r.segments ∧
        (b = true → ∀ s ∈ r.segments, ∀ t ∈ Icc 0 s.time.val,
          magnitude (realPolys s) (List.range tr.D) 1 t ≤ vMax.val * ((flLim rnd).val / (1 - u)) + Q ∧
          magnitude (realPolys s) (List.range tr.D) 2 t ≤ aMax.val * ((flLim rnd).val / (1 - u)) + Q) := by
  have hu := rounding_nonneg h
  intro n
  induction n with
  | zero =>
    intro j σ tr' hj hσ hD hN hmt hsc
    refine ⟨false, tr', σ, rfl, hσ, hD, hN, hmt, ?_, by simp⟩
    refine hsc.imp fun s s' r => ⟨r.scaled.mono hu ?_, r.nonneg, r.later⟩
    have := Nat.mul_le_mul_left (2 * tr.N) (by omega : j ≤ 20)
    omega
  | succ n ih =>
    intro j σ tr' hj hσ hD hN hmt hsc
    have hm : 2 * tr.N * j ≤ 40 * tr.N := by
      have := Nat.mul_le_mul_left (2 * tr.N) (by omega : j ≤ 20)
      omega
    obtain ⟨v, a, hrun, hb, -, -⟩ := maxVA_scaled h M hm hσ tr' hD hN hsc
    rw [scaleToMeetLoopG, hrun, Res.ok_bind]
    dsimp only
    by_cases hc : v / vMax ≤ flLim rnd ∧ a / aMax ≤ flLim rnd
    · rw [if_pos hc]
      refine ⟨true, tr', σ, rfl, hσ, hD, hN, hmt, hsc.imp fun s s' r => ⟨r.scaled.mono hu hm, r.nonneg, r.later⟩,
        fun _ s hs t ht => ?_⟩
      have c1 : v.val / vMax.val ≤ _ := rnd_le_imp h hu1 (flLim_nonneg h) hc.1
      have c2 : a.val / aMax.val ≤ _ := rnd_le_imp h hu1 (flLim_nonneg h) hc.2
      rw [div_le_iff₀ hv, mul_comm] at c1
      rw [div_le_iff₀ ha, mul_comm] at c2
      have := hb s hs t ht
      exact ⟨this.1.trans (by linarith), this.2.trans (by linarith)⟩
    · rw [if_neg hc]
      have hc1 : 1 ≤ (stdMaxVal 1 (stdMaxVal (v / vMax) ((flLib rnd).sqrt (a / aMax)))).val :=
        (stdMaxVal_ge (1 : Fl rnd) _).1
      refine ih (j + 1) (σ * _) _ (by omega) (one_le_mul_of_one_le_of_one_le hσ hc1) hD hN (Or.inr rfl) ?_
      exact scaleCore_scaled h M tr' hsc _ hc1

theorem absSize_mono (s : Segment (Fl rnd)) (ds : List ℕ) (hds : ∀ d ∈ ds, d < s.D) (k : ℕ) {t T : ℝ} (h0 : 0 ≤ t)
    (ht : t ≤ T) : absSize s ds k t ≤ absSize s ds k T := by
  rw [absSize_eq s ds hds, absSize_eq s ds hds]
  refine sum_le_sum_map ds fun d hd => ?_
  have hd1 : d < s.polys.length := hds d hd
  rw [segVals_abs_getD s hd1]
  have := (abs_derivAt_le ((vals s.polys[d].coeffs).map abs) k (t := t) (T := T) (by rw [abs_of_nonneg h0]; exact ht)).1
  rw [List.map_map, show (abs ∘ abs : ℝ → ℝ) = abs from funext fun x => abs_abs x] at this
  exact (le_abs_self _).trans this

/-- The magnitudes on a trajectory scaled once, from the magnitudes before. -/
theorem magnitude_scaled_le (h : Rounding rnd u) (M : MeetOk u ρ rf tr T A E V Q) {σ : ℝ} (hσ : 1 ≤ σ)
    {s s' : Segment (Fl rnd)} (hs : s ∈ tr.segments) (r : ScaledR u (2 * tr.N) σ s s') (k : ℕ) (k1 : 1 ≤ k) (k2 : k ≤ 2)
    (B : ℝ) (hB : ∀ t ∈ Icc 0 s.time.val, magnitude (realPolys s) (List.range tr.D) k t ≤ B) {t : ℝ}
    (ht : t ∈ Icc 0 s'.time.val) :
    magnitude (realPolys s') (List.range tr.D) k t ≤ B / σ ^ k + E * (T + 1) := by
  have hu := rounding_nonneg h
  have hσ0 : 0 < σ := by linarith
  have hσk : 1 ≤ σ ^ k := one_le_pow₀ hσ
  have hA0 := M.A0 h
  have hT0 := M.T0 h
  have hE0 := M.E0 h
  obtain ⟨t0, t1⟩ := M.hT s hs
  have hγ := sub_nonneg.mpr (one_le_pow_u h (2 * tr.N))
  have hp := pow_le_pow_right₀ (by linarith : 1 ≤ 1 + u) (by omega : 2 * tr.N ≤ 40 * tr.N)
  have htime : s.time.val ≤ T := by
    refine le_trans ?_ t1
    exact le_mul_of_one_le_left t0 (one_le_pow_u h _)
  have hx0 : 0 ≤ t / σ := div_nonneg ht.1 hσ0.le
  have hx1 : t / σ ≤ (1 + u) ^ (2 * tr.N) * s.time.val := by
    rw [div_le_iff₀ hσ0]
    obtain ⟨θ, a1, a2⟩ := r.scaled.time
    refine ht.2.trans ?_
    rw [a2]
    have := (le_abs_self θ).trans a1
    have hst : 0 ≤ σ * s.time.val := by positivity
    nlinarith
  have hxT : t / σ ≤ T := hx1.trans ((mul_le_mul_of_nonneg_right hp t0).trans t1)
  have hds := M.ds hs
  have hAk : ∀ k, 1 ≤ k → k ≤ 3 → absSize s (List.range tr.D) k T ≤ A := fun k h1 h3 =>
    le_trans (le_mul_of_one_le_left (M.size_nonneg h hs k) (one_le_pow_u h _)) (M.hA s hs k h1 h3)
  have e1 := (abs_le.mp (r.scaled.magnitude_near hσ0 (List.range tr.D) hds k t).1).2
  rw [abs_of_nonneg ht.1] at e1
  have e2 : ((1 + u) ^ (2 * tr.N) - 1) * (absSize s (List.range tr.D) k (t / σ) / σ ^ k) ≤ E := by
    refine le_trans (mul_le_mul_of_nonneg_left ?_ hγ) M.hE
    refine le_trans (div_le_self (absSize_nonneg s _ hds k hx0) hσk) ?_
    exact (absSize_mono s _ hds k hx0 hxT).trans (hAk k k1 (by omega))
  have e3 : magnitude (realPolys s) (List.range tr.D) k (t / σ) ≤ B + E * T := by
    by_cases hin : t / σ ≤ s.time.val
    · exact (hB _ ⟨hx0, hin⟩).trans (by nlinarith)
    · have hdsR : ∀ d ∈ List.range tr.D, d < (realSeg s).D := by rw [realSeg_D]; exact hds
      have l1 := magnitude_lipschitz (realSeg s) (List.range tr.D) hdsR k (a := 0) (b := T) (L := A)
        (fun x hx => (magnitude_le_absSize s _ hds (k + 1) (by rw [abs_of_nonneg hx.1]; exact hx.2)).trans
          (hAk (k + 1) (by omega) (by omega))) (x := s.time.val) (y := t / σ) ⟨t0, htime⟩ ⟨hx0, hxT⟩
      have l2 := (abs_le.mp l1).2
      rw [abs_of_nonneg (by linarith [not_le.mp hin])] at l2
      have l3 : A * (t / σ - s.time.val) ≤ E * T := by
        calc A * (t / σ - s.time.val) ≤ A * (((1 + u) ^ (2 * tr.N) - 1) * s.time.val) :=
              mul_le_mul_of_nonneg_left (by linarith) hA0
          _ = ((1 + u) ^ (2 * tr.N) - 1) * A * s.time.val := by ring
          _ ≤ E * s.time.val := mul_le_mul_of_nonneg_right M.hE t0
          _ ≤ E * T := mul_le_mul_of_nonneg_left htime hE0
      have l4 := hB s.time.val ⟨t0, le_rfl⟩
      change magnitude (realPolys s) (List.range tr.D) k (t / σ) - magnitude (realPolys s) (List.range tr.D) k s.time.val ≤ _
        at l2
      linarith
  have e4 : magnitude (realPolys s) (List.range tr.D) k (t / σ) / σ ^ k ≤ B / σ ^ k + E * T := by
    calc magnitude (realPolys s) (List.range tr.D) k (t / σ) / σ ^ k ≤ (B + E * T) / σ ^ k :=
          div_le_div_of_nonneg_right e3 (by positivity)
      _ = B / σ ^ k + E * T / σ ^ k := add_div _ _ _
      _ ≤ B / σ ^ k + E * T := by
        have := div_le_self (mul_nonneg hE0 hT0) hσk
        linarith
  linarith

theorem flLim_bounds (h : Rounding rnd u) (hu1 : u ≤ 1 / 10 ^ 6) :
    1 + 9989 / 10 ^ 7 ≤ (flLim rnd).val ∧ (flLim rnd).val ≤ 1 + 10011 / 10 ^ 7 := by
  have hu := rounding_nonneg h
  have h1 := abs_le.mp (h.rel (1 / 1000))
  rw [abs_of_pos (by norm_num)] at h1
  have h2 := abs_le.mp (h.rel (1 + rnd (1 / 1000)))
  have h3 : 0 ≤ 1 + rnd (1 / 1000) := by linarith
  rw [abs_of_nonneg h3] at h2
  change _ ≤ rnd _ ∧ rnd _ ≤ _
  constructor
  · nlinarith [h1.1, h2.1]
  · nlinarith [h1.2, h2.2]

theorem le_div_of_rnd (h : Rounding rnd u) (hu1 : u ≤ 1 / 10 ^ 6) {x c m : ℝ} (hm : 0 < m) (hc : 0 < c) (k : ℕ)
    (hx : x / m * (1 - u) ^ (2 * k - 1) ≤ c ^ k) : x / c ^ k ≤ m / (1 - u) ^ (2 * k - 1) := by
  have hu := rounding_nonneg h
  have h1 : (0 : ℝ) < (1 - u) ^ (2 * k - 1) := pow_pos (by norm_num at hu1; linarith) _
  rw [div_le_div_iff₀ (pow_pos hc k) h1]
  rw [div_mul_eq_mul_div, div_le_iff₀ hm] at hx
  linarith

/-- A value below the limit up to a small error passes the test. -/
theorem passes (h : Rounding rnd u) (hu1 : u ≤ 1 / 10 ^ 6) {x m : ℝ} (hm : 0 < m) (hx : x ≤ m * (1 + 9 / 10 ^ 4)) :
    rnd (x / m) ≤ (flLim rnd).val := by
  have hu := rounding_nonneg h
  refine le_trans (h.mono (b := 1 + 9 / 10 ^ 4) ?_) ?_
  · rw [div_le_iff₀ hm]
    linarith
  · refine le_trans ?_ (flLim_bounds h hu1).1
    have := (abs_le.mp (h.rel (1 + 9 / 10 ^ 4))).2
    rw [abs_of_pos (by norm_num)] at this
    norm_num at this hu1 ⊢
    linarith

/-- The second iteration succeeds. -/
theorem scaleToMeetG_success (h : Rounding rnd u) (hu1 : u ≤ 1 / 10 ^ 6) (M : MeetOk u ρ rf tr T A E V Q)
    (vMax aMax : Fl rnd) (hv : 0 < vMax.val) (ha : 0 < aMax.val)
    (hsv : 2 * Q + E * (T + 1) ≤ 8 / 10 ^ 4 * vMax.val) (hsa : 2 * Q + E * (T + 1) ≤ 8 / 10 ^ 4 * aMax.val) :
    ∃ r τ, tr.scaleToMeetConstraintsG (flLib rnd) (flLim rnd) rf vMax aMax = .ok (true, r) ∧ 1 ≤ τ ∧
      List.Forall₂ (ScaledR u (2 * tr.N) τ) tr.segments r.segments := by
  have hu := rounding_nonneg h
  have hu2 : u < 1 := lt_of_le_of_lt hu1 (by norm_num)
  have hQ0 := M.Q0 h
  have hrefl : ∀ m, List.Forall₂ (ScaledR u m 1) tr.segments tr.segments := fun m => by
    rw [List.forall₂_same]
    exact fun s _ => ScaledR.refl hu m s
  obtain ⟨v, a, hrun, hb, -, -⟩ := maxVA_scaled h M (Nat.zero_le _) le_rfl tr rfl rfl (hrefl 0)
  unfold Trajectory.scaleToMeetConstraintsG
  rw [scaleToMeetLoopG, hrun, Res.ok_bind]
  dsimp only
  by_cases hc : v / vMax ≤ flLim rnd ∧ a / aMax ≤ flLim rnd
  · rw [if_pos hc]
    exact ⟨tr, 1, rfl, le_rfl, hrefl _⟩
  rw [if_neg hc]
  set c := stdMaxVal 1 (stdMaxVal (v / vMax) ((flLib rnd).sqrt (a / aMax))) with hcdef
  have hc1 : 1 ≤ c.val := (stdMaxVal_ge (1 : Fl rnd) _).1
  have hc0 : 0 < c.val := by linarith
  have hcv : rnd (v.val / vMax.val) ≤ c.val :=
    (stdMaxVal_ge (v / vMax) ((flLib rnd).sqrt (a / aMax))).1.trans (stdMaxVal_ge (1 : Fl rnd) _).2
  have hca : rnd (Real.sqrt (rnd (a.val / aMax.val))) ≤ c.val :=
    (stdMaxVal_ge (v / vMax) ((flLib rnd).sqrt (a / aMax))).2.trans (stdMaxVal_ge (1 : Fl rnd) _).2
  have hsc := scaleCore_scaled h M (m := 0) (σ := 1) tr (hrefl 0) c hc1
  rw [zero_add, one_mul] at hsc
  obtain ⟨v1, a1, hrun1, -, ⟨sv, hsv1, tv, htv, hv1⟩, ⟨sa, hsa1, ta, hta, ha1⟩⟩ :=
    maxVA_scaled h M (by omega) hc1 (tr.scaleCore c) rfl rfl hsc
  have hpre : ∀ s' ∈ (tr.scaleCore c).segments, ∃ s ∈ tr.segments, ScaledR u (2 * tr.N) c.val s s' := by
    intro s' hs'
    obtain ⟨i, hi, rfl⟩ := List.getElem_of_mem hs'
    have hi' : i < tr.segments.length := by rw [hsc.length_eq]; exact hi
    exact ⟨_, List.getElem_mem hi', (List.forall₂_iff_get.mp hsc).2 i hi' hi⟩
  have hu1' : u ≤ 1 / 1000000 := by norm_num at hu1 ⊢; exact hu1
  have bv : v1.val ≤ vMax.val * (1 + 9 / 10 ^ 4) := by
    obtain ⟨s, hs, r⟩ := hpre sv hsv1
    have m1 := magnitude_scaled_le h M hc1 hs r 1 le_rfl (by norm_num) (v.val + Q) (fun t ht => (hb s hs t ht).1) htv
    have m2 := (abs_le.mp hv1).2
    have m3 : v.val / c.val ^ 1 ≤ vMax.val / (1 - u) ^ (2 * 1 - 1) := by
      refine le_div_of_rnd h hu1 hv hc0 1 ?_
      norm_num
      have := rnd_le_imp h hu2 hc0.le hcv
      rwa [le_div_iff₀ (by linarith)] at this
    have m4 : vMax.val / (1 - u) ^ (2 * 1 - 1) ≤ vMax.val * (1 + 2 / 10 ^ 6) := by
      norm_num
      rw [div_le_iff₀ (by linarith), mul_assoc]
      refine le_mul_of_one_le_right hv.le ?_
      nlinarith
    have m5 : Q / c.val ^ 1 ≤ Q := div_le_self hQ0 (one_le_pow₀ hc1)
    rw [add_div] at m1
    norm_num at m1 m2 m3 m4 m5 hsv ⊢
    linarith
  have ba : a1.val ≤ aMax.val * (1 + 9 / 10 ^ 4) := by
    obtain ⟨s, hs, r⟩ := hpre sa hsa1
    have m1 := magnitude_scaled_le h M hc1 hs r 2 (by norm_num) le_rfl (a.val + Q) (fun t ht => (hb s hs t ht).2) hta
    have m2 := (abs_le.mp ha1).2
    have m3 : a.val / c.val ^ 2 ≤ aMax.val / (1 - u) ^ (2 * 2 - 1) := by
      refine le_div_of_rnd h hu1 ha hc0 2 ?_
      by_cases ha0 : 0 ≤ a.val / aMax.val
      · have q1 := rnd_le_imp h hu2 hc0.le hca
        rw [le_div_iff₀ (by linarith)] at q1
        have q2 := (abs_le.mp (h.rel (a.val / aMax.val))).1
        rw [abs_of_nonneg ha0] at q2
        have q3 : 0 ≤ rnd (a.val / aMax.val) := by
          rw [← rnd_zero h]
          exact h.mono ha0
        have q4 := Real.sq_sqrt q3
        have q5 : (Real.sqrt (rnd (a.val / aMax.val)) * (1 - u)) ^ 2 ≤ c.val ^ 2 :=
          pow_le_pow_left₀ (mul_nonneg (Real.sqrt_nonneg _) (by linarith)) q1 2
        rw [mul_pow, q4] at q5
        refine le_trans ?_ q5
        have q6 : a.val / aMax.val * (1 - u) ≤ rnd (a.val / aMax.val) := by linarith
        calc a.val / aMax.val * (1 - u) ^ (2 * 2 - 1) = a.val / aMax.val * (1 - u) * (1 - u) ^ 2 := by ring
          _ ≤ rnd (a.val / aMax.val) * (1 - u) ^ 2 := mul_le_mul_of_nonneg_right q6 (sq_nonneg _)
      · have : a.val / aMax.val * (1 - u) ^ (2 * 2 - 1) ≤ 0 :=
          mul_nonpos_of_nonpos_of_nonneg (not_le.mp ha0).le (pow_nonneg (by linarith) _)
        exact this.trans (by positivity)
    have m4 : aMax.val / (1 - u) ^ (2 * 2 - 1) ≤ aMax.val * (1 + 4 / 10 ^ 6) := by
      norm_num
      have hp : (0 : ℝ) < (1 - u) ^ 3 := pow_pos (by linarith) _
      rw [div_le_iff₀ hp, mul_assoc]
      refine le_mul_of_one_le_right ha.le ?_
      have q : 1 - 3 * u ≤ (1 - u) ^ 3 := by nlinarith [sq_nonneg u, mul_nonneg hu (sq_nonneg u)]
      nlinarith
    have m5 : Q / c.val ^ 2 ≤ Q := div_le_self hQ0 (one_le_pow₀ hc1)
    rw [add_div] at m1
    norm_num at m1 m2 m3 m4 m5 hsa ⊢
    linarith
  refine ⟨tr.scaleCore c, c.val, ?_, hc1, hsc⟩
  rw [scaleToMeetLoopG, hrun1, Res.ok_bind]
  dsimp only
  have hc2 : v1 / vMax ≤ flLim rnd ∧ a1 / aMax ≤ flLim rnd := ⟨passes h hu1 hv bv, passes h hu1 ha ba⟩
  rw [if_pos hc2]
  rfl

end

end Verif
