import Verif.Proofs.FeasibilityDecides
import Verif.Proofs.RoundedFeasibilityDecides
import Verif.Props.AnalysesRoots
import Verif.Props.ExtremaRoots
import Verif.Props.RoundedFeasibility

/-
C129: the recursive feasibility check accepts what keeps the limits with a margin. The specification is in
`Spec/FeasibilityDecides`.
-/
set_option linter.unusedSectionVars false

namespace Verif

open Polynomial Spec Set

/-- Only the answers for derivatives of the coordinates matter. -/
theorem reporting_success (rf : RootFinder ℝ) (ic : InputConstraints ℝ) (g : Fin 3 → ℝ) (m : ℝ) (s : Segment ℝ)
    (hrf : ∀ p ∈ s.polys, ∀ d : ℤ, 2 ≤ d → ∀ c, p.getCoefficients d = .ok c → (rf c).1 = true) :
    ∃ rf' : RootFinder ℝ, (∀ c, (rf' c).1 = true) ∧ ∀ fuel, s.checkRecursive rf Real.sqrt ic g m fuel =
      s.checkRecursive rf' Real.sqrt ic g m fuel := by
  have h1 := checkRecursiveM_on (rc := fun _ c => .ok (rf c)) (rf := rf) Real.sqrt ic g m s
    fun _ _ _ _ c _ => Filter.Eventually.of_forall fun _ => rfl
  have h2 := checkRecursiveM_on (rc := fun _ c => .ok (rf c)) (rf := fun c => (true, (rf c).2)) Real.sqrt ic g m s
    fun p hp d hd c hc => Filter.Eventually.of_forall fun _ => by
      change Res.ok (rf c) = Res.ok (true, (rf c).2)
      rw [← hrf p hp d hd c hc]
  obtain ⟨n, h1, h2⟩ := (h1.and h2).exists
  exact ⟨fun c => (true, (rf c).2), fun _ => rfl, fun fuel => by rw [← h1 fuel, h2 fuel]⟩

/-- **C129.** A segment at least as long as the smallest section, along which the limits hold with the margins by which thrust,
speed and jerk can change during two smallest sections, is found feasible, whatever zeros the root finder returns, as long as it
reports success. It is asked for zeros of derivatives of the coordinates from the second on. `n` nested calls are enough when the duration is less
than `2 ^ n` smallest sections. -/
theorem C129_accepts (rf : RootFinder ℝ) (ic : InputConstraints ℝ) (g : Fin 3 → ℝ) (m : ℝ)
    (hm : 0 < m) (s : Segment ℝ) (h : s.WF) (hD : s.D = 3 ∨ s.D = 4) (hN : 4 ≤ s.N) (hT : m ≤ s.time)
    (hrf : ∀ p ∈ s.polys, ∀ d : ℤ, 2 ≤ d → ∀ c, p.getCoefficients d = .ok c → (rf c).1 = true)
    (hom : ∀ l, ic.getConstraint kOmegaXYMax = some l → l < dblMax) (hfin : Bounded s.polys s.time)
    (B : ℕ → ℝ) (hB : DerivativesBelow B s.polys s.time)
    (hlim : ∀ t ∈ Icc 0 s.time, LimitsWithin (variation B (2 * m)) ic g s.polys t)
    (hyaw : s.D = 4 → ∀ t ∈ Icc 0 s.time, YawLimitsHold ic s.polys t)
    (n : ℕ) (hn : s.time < m * 2 ^ n) (fuel : ℕ) (hf : n ≤ fuel) :
    s.checkRecursive rf Real.sqrt ic g m fuel = .ok .feasible := by
  have hT0 : 0 ≤ s.time := by linarith
  obtain ⟨rf', hrf', e'⟩ := reporting_success rf ic g m s hrf
  rw [e']
  clear e' hrf
  rcases checkRecursive_cases rf' ic g m s h hD hN with ⟨-, c, hc⟩ | ⟨ra, rj, rs, hr, h1⟩
  · rw [hrf' c] at hc
    cases hc
  rw [h1 fuel]
  have hD3 : 3 ≤ s.D := by omega
  have hax : ∀ k, k ≤ 4 → ∀ i < 3, ∀ t ∈ Icc 0 s.time, |axisVal s k i t| ≤ B k := by
    intro k hk i hi t ht
    have hl : i < (valuesAt s.polys k t).length := by
      unfold valuesAt; rw [List.length_map]; exact lt_of_lt_of_le hi hD3
    unfold axisVal
    rw [List.getD_eq_getElem?_getD, List.getElem?_eq_getElem hl, Option.getD_some]
    exact hB k (by omega) t ht _ (List.getElem_mem _)
  rw [recursive_decides rf' B ic g s h hD3 ra rj rs hr hom (bounded_axis hfin) hax hm hlim n (a := 0) (b := s.time)
    (by linarith) (by linarith) le_rfl fuel hf, Res.ok_bind, if_neg (by simp)]
  obtain ⟨y, ey, hy⟩ := yawChecks_near rf' 0 B ic g s h hT0 (by omega) hfin
  rw [ey, Res.ok_bind]
  rcases hy with ⟨rfl, -⟩ | ⟨v, rfl, hv, t, ht, hvi⟩
  · rfl
  · exfalso
    have h4 : s.D = 4 := by
      by_contra hne
      unfold yawChecks at ey
      rw [if_neg hne] at ey
      cases ey
    have hY := hyaw h4 t ht
    rcases hv with rfl | rfl <;> obtain ⟨l, hl, hlt⟩ := hvi
    · linarith [hY.omegaZ l hl]
    · linarith [hY.omegaZDot l hl]

/-- A segment shorter than the smallest section is never decided, whatever its limits. -/
theorem C129_too_short (rf : RootFinder ℝ) (ic : InputConstraints ℝ) (g : Fin 3 → ℝ) (m : ℝ) (s : Segment ℝ) (h : s.WF)
    (hD : s.D = 3 ∨ s.D = 4) (hN : 4 ≤ s.N) (hT : s.time < m) (fuel : ℕ) :
    s.checkRecursive rf Real.sqrt ic g m (fuel + 1) = .ok .indeterminable := by
  rcases checkRecursive_cases rf ic g m s h hD hN with ⟨h1, -⟩ | ⟨ra, rj, rs, -, h1⟩
  · exact h1 _
  · rw [h1, recursiveFeasibility_succ, if_pos (by linarith), Res.ok_bind, if_pos (by simp)]
    rfl

/-- **C129 (root finder of the code).** The same with the root finder of the code, whenever it reports success for the
derivatives of the coordinates. -/
theorem C129_code (a : RMath ℝ) (ha : ExactMath a) (ic : InputConstraints ℝ) (g : Fin 3 → ℝ) (m : ℝ)
    (hm : 0 < m) (s : Segment ℝ) (h : s.WF) (hD : s.D = 3 ∨ s.D = 4) (hN : 4 ≤ s.N) (hT : m ≤ s.time)
    (hrf : ∀ p ∈ s.polys, ∀ d : ℤ, 2 ≤ d → ∀ c, p.getCoefficients d = .ok c → ∃ n₀, ∀ n, n₀ ≤ n →
      ∃ zs, findRoots a n c = .ok (true, zs))
    (hom : ∀ l, ic.getConstraint kOmegaXYMax = some l → l < dblMax) (hfin : Bounded s.polys s.time)
    (B : ℕ → ℝ) (hB : DerivativesBelow B s.polys s.time)
    (hlim : ∀ t ∈ Icc 0 s.time, LimitsWithin (variation B (2 * m)) ic g s.polys t)
    (hyaw : s.D = 4 → ∀ t ∈ Icc 0 s.time, YawLimitsHold ic s.polys t)
    (depth : ℕ) (hn : s.time < m * 2 ^ depth) :
    ∃ F, ∀ n fuel, F ≤ n → depth ≤ fuel → s.checkRecursiveM (codeRoots a n) Real.sqrt ic g m fuel = .ok .feasible := by
  obtain ⟨rf, hl⟩ := codeRoots_limit_exact a ha
  have hs : ∀ p ∈ s.polys, ∀ d : ℤ, 2 ≤ d → ∀ c, p.getCoefficients d = .ok c → SettlesOn (codeRoots a) rf c :=
    fun p hp d _ => hl.coefficients p ((h.isSmall.2 p hp).trans (by norm_num)) d
  obtain ⟨F, hF⟩ := Filter.eventually_atTop.mp (checkRecursiveM_on (rc := codeRoots a) (rf := rf) Real.sqrt ic g m s hs)
  refine ⟨F, fun n fuel h1 h2 => ?_⟩
  rw [hF n h1 fuel]
  refine C129_accepts rf ic g m hm s h hD hN hT (fun p hp d hd c hc => ?_) hom hfin B hB hlim hyaw depth hn fuel h2
  obtain ⟨n₀, hn₀⟩ := hrf p hp d hd c hc
  obtain ⟨k, hk, hk'⟩ := ((hs p hp d hd c hc).and (Filter.eventually_ge_atTop n₀)).exists
  obtain ⟨zs, hz⟩ := hn₀ k hk'
  unfold codeRoots at hk
  rw [hz] at hk
  rw [← Res.ok.inj hk]

/-- **C129 (degree four).** For segments of degree at most four, whose coefficients are zero or at least the smallest number the
root finder takes for one, success is certain: the check of the code accepts. -/
theorem C129_degree_four (a : RMath ℝ) (ha : ExactMath a) (ic : InputConstraints ℝ) (g : Fin 3 → ℝ) (m : ℝ)
    (hm : 0 < m) (s : Segment ℝ) (h : s.WF) (hD : s.D = 3 ∨ s.D = 4) (hN : 4 ≤ s.N) (hT : m ≤ s.time)
    (hdeg : ∀ p ∈ s.polys, ∀ j, 5 ≤ j → p.coeffs.getD j 0 = 0)
    (hnorm : ∀ p ∈ s.polys, ∀ j, p.coeffs.getD j 0 = 0 ∨ a.dblMin ≤ |p.coeffs.getD j 0|)
    (hom : ∀ l, ic.getConstraint kOmegaXYMax = some l → l < dblMax) (hfin : Bounded s.polys s.time)
    (B : ℕ → ℝ) (hB : DerivativesBelow B s.polys s.time)
    (hlim : ∀ t ∈ Icc 0 s.time, LimitsWithin (variation B (2 * m)) ic g s.polys t)
    (hyaw : s.D = 4 → ∀ t ∈ Icc 0 s.time, YawLimitsHold ic s.polys t)
    (depth : ℕ) (hn : s.time < m * 2 ^ depth) :
    ∃ F, ∀ n fuel, F ≤ n → depth ≤ fuel → s.checkRecursiveM (codeRoots a n) Real.sqrt ic g m fuel = .ok .feasible := by
  refine C129_code a ha ic g m hm s h hD hN hT (fun p hp d hd c hc => ⟨0, fun n _ => ?_⟩) hom hfin B hB hlim hyaw depth hn
  obtain ⟨zs, e, -⟩ := low_complete a ha n c
    (low_coefficients a p (h.isSmall.2 p hp) 2 (hdeg p hp) (fun j _ => hnorm p hp j) d hd c hc)
  exact ⟨_, e⟩

/-- The check of a trajectory with a segment accepts when it accepts every segment. -/
theorem accepted_trajectory {K : Type} (check : Segment K → Res Verdict) (tr : Trajectory K) (hne : tr.segments ≠ [])
    (key : ∀ s ∈ tr.segments, check s = .ok .feasible) : tr.checkInputFeasibility check = .ok .feasible := by
  unfold Trajectory.checkInputFeasibility
  have gen : ∀ (l : List (Segment K)) (r0 : Verdict), (∀ s ∈ l, check s = .ok .feasible) →
      (l ≠ [] ∨ r0 = .feasible) → checkTrajectory check l r0 = .ok .feasible := by
    intro l
    induction l with
    | nil => intro r0 _ h; rcases h with h | rfl
             · exact absurd rfl h
             · rfl
    | cons s ss ih =>
      intro r0 h _
      unfold checkTrajectory
      rw [h s (by simp), Res.ok_bind, if_neg (by simp)]
      exact ih _ (fun s' hs' => h s' (by simp [hs'])) (Or.inr rfl)
  exact gen _ _ key (Or.inl hne)

/-- **C129 (trajectory).** A trajectory with a segment is accepted when all its segments are. -/
theorem C129_trajectory (rf : RootFinder ℝ) (ic : InputConstraints ℝ) (g : Fin 3 → ℝ) (m : ℝ)
    (hm : 0 < m) (tr : Trajectory ℝ) (hne : tr.segments ≠ [])
    (hom : ∀ l, ic.getConstraint kOmegaXYMax = some l → l < dblMax) (B : ℕ → ℝ) (n fuel : ℕ) (hf : n ≤ fuel)
    (hs : ∀ s ∈ tr.segments, s.WF ∧ (s.D = 3 ∨ s.D = 4) ∧ 4 ≤ s.N ∧ m ≤ s.time ∧ s.time < m * 2 ^ n ∧
      (∀ p ∈ s.polys, ∀ d : ℤ, 2 ≤ d → ∀ c, p.getCoefficients d = .ok c → (rf c).1 = true) ∧
      Bounded s.polys s.time ∧ DerivativesBelow B s.polys s.time ∧
      (∀ t ∈ Icc 0 s.time, LimitsWithin (variation B (2 * m)) ic g s.polys t) ∧
      (s.D = 4 → ∀ t ∈ Icc 0 s.time, YawLimitsHold ic s.polys t)) :
    tr.checkInputFeasibility (fun s => s.checkRecursive rf Real.sqrt ic g m fuel) = .ok .feasible := by
  refine accepted_trajectory _ tr hne fun s h => ?_
  obtain ⟨h1, h2, h3, h4, h5, h6, h7, h8, h9, h10⟩ := hs s h
  exact C129_accepts rf ic g m hm s h1 h2 h3 h4 h6 hom h7 B h8 h9 h10 n h5 fuel hf

section
variable {rnd : ℝ → ℝ} {u : ℝ}

/-- **C129 (floating point).** With rounding after every operation: a segment at least 11/10 times as long as the smallest section,
along which the limits hold with the margins by which thrust, speed and jerk can change during three smallest sections and with
the errors of their evaluation, is found feasible, whatever zeros the root finder returns, as long as it reports success for the
derivatives of the coordinates from the second on. -/
theorem C129_rounded (h : Rounding rnd u) (hu : u ≤ 1 / 100) {dot : Dot (Fl rnd)} (hd : DotOk u dot)
    (rc : RootCall (Fl rnd)) (ic : InputConstraints (Fl rnd)) (g : Fin 3 → Fl rnd) (m : Fl rnd) (E B : ℕ → ℝ) (F : ℝ)
    (s : Segment (Fl rnd)) (hi : FeasInput u ic g m E B F s) (hT : 11 / 10 * m.val ≤ s.time.val)
    (hrc : ∀ p ∈ s.polys, ∀ d : ℤ, 2 ≤ d → ∀ c, p.getCoefficients d = .ok c → ∃ z, rc c = .ok (true, z))
    (hlim : ∀ t ∈ Icc 0 s.time.val,
      LimitsWithinFl (16 * u) (variationFl E B F (3 * m.val)) ic g (realPolys s) t)
    (hyaw : s.D = 4 → ∀ t ∈ Icc 0 s.time.val, YawLimitsWithin E ic (realPolys s) t)
    (n : ℕ) (hn : s.time.val < m.val / 2 * (5 / 4) ^ n) (fuel : ℕ) (hf : n < fuel) :
    s.checkRecursiveFl dot rc ic g m fuel = .ok .feasible := by
  have hev := checkRecursiveG_on (rc := fun _ => rc)
    (rf := fun c => (true, match rc c with | .ok r => r.2 | _ => [])) (flFeasLib rnd dot) ic g m s
    fun p hp d hd c hc => Filter.Eventually.of_forall fun _ => by
      obtain ⟨z, hz⟩ := hrc p hp d hd c hc
      change rc c = _
      dsimp only
      rw [hz]
  obtain ⟨-, hk⟩ := hev.exists
  exact (hk fuel).trans (checkRecursiveFl_accepts h hu dot hd _ (fun _ => rfl) ic g m E B F s hi hT hlim hyaw n hn fuel hf)

/-- **C129 (floating point, root finder of the code).** The same with the root finder of the code, whenever it reports success for
the derivatives of the coordinates. -/
theorem C129_rounded_code (h : Rounding rnd u) (hu : u ≤ 1 / 100) {dot : Dot (Fl rnd)} (hd : DotOk u dot)
    (math : RMath (Fl rnd)) (ic : InputConstraints (Fl rnd)) (g : Fin 3 → Fl rnd) (m : Fl rnd) (E B : ℕ → ℝ) (F : ℝ)
    (s : Segment (Fl rnd)) (hi : FeasInput u ic g m E B F s) (hT : 11 / 10 * m.val ≤ s.time.val) (iter : ℕ)
    (hrc : ∀ p ∈ s.polys, ∀ d : ℤ, 2 ≤ d → ∀ c, p.getCoefficients d = .ok c → ∃ z, findRoots math iter c = .ok (true, z))
    (hlim : ∀ t ∈ Icc 0 s.time.val,
      LimitsWithinFl (16 * u) (variationFl E B F (3 * m.val)) ic g (realPolys s) t)
    (hyaw : s.D = 4 → ∀ t ∈ Icc 0 s.time.val, YawLimitsWithin E ic (realPolys s) t)
    (n : ℕ) (hn : s.time.val < m.val / 2 * (5 / 4) ^ n) (fuel : ℕ) (hf : n < fuel) :
    s.checkRecursiveFl dot (codeRoots math iter) ic g m fuel = .ok .feasible := by
  refine C129_rounded h hu hd _ ic g m E B F s hi hT (fun p hp d hd c hc => ?_) hlim hyaw n hn fuel hf
  obtain ⟨z, hz⟩ := hrc p hp d hd c hc
  unfold codeRoots
  rw [hz]
  exact ⟨_, rfl⟩

/-- The derivatives of polynomials of degree at most four from the second on are handed to the quadratic formula. -/
theorem low_succeeds (h : Rounding rnd u) (hu : u ≤ 1 / 10 ^ 11) (hnat : ∀ n : ℕ, n < 2 ^ 53 → rnd n = n)
    (m : RMath (Fl rnd)) (hm : RoundedMath m) (hs : RoundedSqrt m) (hdm : 0 < m.dblMin.val) (iter : ℕ)
    (p : Poly (Fl rnd)) (hN : p.N ≤ 22) (e : ℕ) (hdeg : ∀ j, e + 4 ≤ j → (vals p.coeffs).getD j 0 = 0)
    (hnorm : ∀ x ∈ p.coeffs, x.val = 0 ∨ 2 * m.dblMin.val ≤ |x.val|) (d : ℤ) (hd : (e : ℤ) + 1 ≤ d) (c : List (Fl rnd))
    (hc : p.getCoefficients d = .ok c) : ∃ z, findRoots m iter c = .ok (true, z) := by
  obtain ⟨k, rfl⟩ : ∃ k : ℕ, d = (k : ℤ) + 1 := ⟨(d - 1).toNat, by omega⟩
  have hk : k < p.N := by
    by_contra hh
    unfold Poly.getCoefficients at hc
    rw [Res.check_of_not (by omega)] at hc
    cases hc
  have hk2 : k + 1 < 22 := by
    by_contra hh
    unfold Poly.getCoefficients at hc
    rw [Res.check_of (by omega), Res.ok_bind] at hc
    rw [if_neg (by omega), if_pos (by unfold kMaxConvolutionSize; omega)] at hc
    cases hc
  obtain ⟨c', -, e', -, -, -, hent⟩ := getCoefficients_entries h hu p k hk hN hk2
  rw [hc] at e'
  cases Res.ok.inj e'
  have hlow : ∀ j, 3 ≤ j → (vals c).getD j 0 = 0 := by
    intro j hj
    have := (hent j).1
    rw [hdeg (k + 1 + j) (by omega), abs_zero, mul_zero, mul_zero] at this
    exact abs_nonpos_iff.mp this
  have hnorm' : ∀ x ∈ c, x.val = 0 ∨ m.dblMin.val ≤ |x.val| := by
    intro x hx
    obtain ⟨j, hj, rfl⟩ := List.mem_iff_getElem.mp hx
    have ej : (vals c).getD j 0 = (c[j]).val := by
      rw [vals_getD, List.getD_eq_getElem?_getD, List.getElem?_eq_getElem hj]
      rfl
    rw [← ej]
    obtain ⟨h1, h2⟩ := hent j
    have hcase : (vals p.coeffs).getD (k + 1 + j) 0 = 0 ∨ 2 * m.dblMin.val ≤ |(vals p.coeffs).getD (k + 1 + j) 0| := by
      rw [vals_getD, List.getD_eq_getElem?_getD]
      by_cases hl : k + 1 + j < p.coeffs.length
      · rw [List.getElem?_eq_getElem hl]
        exact hnorm _ (List.getElem_mem hl)
      · rw [List.getElem?_eq_none (by omega)]
        exact Or.inl rfl
    rcases hcase with h0 | h0
    · left
      rw [h0, abs_zero, mul_zero, mul_zero] at h1
      exact abs_nonpos_iff.mp h1
    · right
      linarith
  obtain ⟨zs, hzs, -⟩ := findRoots_low h hu hnat m hm hs hdm iter c hlow hnorm'
  exact ⟨_, hzs⟩

/-- **C129 (floating point, degree four).** For segments of degree at most four success of the root finder is certain, and the
check of the code accepts, all with rounding after every operation. -/
theorem C129_rounded_degree_four (h : Rounding rnd u) (hu : u ≤ 1 / 10 ^ 11) (hnat : ∀ n : ℕ, n < 2 ^ 53 → rnd n = n)
    {dot : Dot (Fl rnd)} (hd : DotOk u dot) (math : RMath (Fl rnd)) (hm : RoundedMath math) (hs : RoundedSqrt math)
    (hdm : 0 < math.dblMin.val) (ic : InputConstraints (Fl rnd)) (g : Fin 3 → Fl rnd) (m : Fl rnd) (E B : ℕ → ℝ) (F : ℝ)
    (s : Segment (Fl rnd)) (hi : FeasInput u ic g m E B F s) (hT : 11 / 10 * m.val ≤ s.time.val)
    (hdeg : ∀ p ∈ s.polys, ∀ j, 5 ≤ j → (vals p.coeffs).getD j 0 = 0)
    (hnorm : ∀ p ∈ s.polys, ∀ x ∈ p.coeffs, x.val = 0 ∨ 2 * math.dblMin.val ≤ |x.val|)
    (hlim : ∀ t ∈ Icc 0 s.time.val,
      LimitsWithinFl (16 * u) (variationFl E B F (3 * m.val)) ic g (realPolys s) t)
    (hyaw : s.D = 4 → ∀ t ∈ Icc 0 s.time.val, YawLimitsWithin E ic (realPolys s) t)
    (n : ℕ) (hn : s.time.val < m.val / 2 * (5 / 4) ^ n) (iter fuel : ℕ) (hf : n < fuel) :
    s.checkRecursiveFl dot (codeRoots math iter) ic g m fuel = .ok .feasible :=
  C129_rounded_code h (hu.trans (by norm_num)) hd math ic g m E B F s hi hT iter
    (fun p hp d hd c hc => low_succeeds h hu hnat math hm hs hdm iter p (hi.wf.isSmall.2 p hp) 1 (hdeg p hp) (hnorm p hp) d
      (by push_cast; omega) c hc) hlim hyaw n hn fuel hf

/-- **C129 (floating point, trajectory).** A trajectory with a segment is accepted when all its segments are. -/
theorem C129_rounded_trajectory (h : Rounding rnd u) (hu : u ≤ 1 / 100) {dot : Dot (Fl rnd)} (hd : DotOk u dot)
    (rc : RootCall (Fl rnd)) (ic : InputConstraints (Fl rnd)) (g : Fin 3 → Fl rnd) (m : Fl rnd) (E B : ℕ → ℝ) (F : ℝ)
    (tr : Trajectory (Fl rnd)) (hne : tr.segments ≠ []) (n fuel : ℕ) (hf : n < fuel)
    (hs : ∀ s ∈ tr.segments, FeasInput u ic g m E B F s ∧ 11 / 10 * m.val ≤ s.time.val ∧
      s.time.val < m.val / 2 * (5 / 4) ^ n ∧
      (∀ p ∈ s.polys, ∀ d : ℤ, 2 ≤ d → ∀ c, p.getCoefficients d = .ok c → ∃ z, rc c = .ok (true, z)) ∧
      (∀ t ∈ Icc 0 s.time.val, LimitsWithinFl (16 * u) (variationFl E B F (3 * m.val)) ic g (realPolys s) t) ∧
      (s.D = 4 → ∀ t ∈ Icc 0 s.time.val, YawLimitsWithin E ic (realPolys s) t)) :
    tr.checkInputFeasibility (fun s => s.checkRecursiveFl dot rc ic g m fuel) = .ok .feasible :=
  accepted_trajectory _ tr hne fun s h' => by
    obtain ⟨h1, h2, h3, h4, h5, h6⟩ := hs s h'
    exact C129_rounded h hu hd rc ic g m E B F s h1 h2 h4 h5 h6 n h3 fuel hf

end

/-- A flight of one second: `x(t) = t`, `y = 2`, `z(t) = 1 + t²` and yaw `t`. -/
def exClimb : Segment ℝ := ⟨[⟨[0, 1, 0, 0]⟩, ⟨[2, 0, 0, 0]⟩, ⟨[1, 0, 1, 0]⟩, ⟨[0, 1, 0, 0]⟩], 1, 4⟩

/-- Limits of the thrust from 5 to 20, of the speed 3, of the roll and pitch rates 1 and of the yaw rate 2. -/
def exClimbLimits : InputConstraints ℝ := ⟨[(kFMin, 5), (kFMax, 20), (kVMax, 3), (kOmegaXYMax, 1), (kOmegaZMax, 2)]⟩

/-- Bounds of its derivatives. -/
def exClimbBounds (k : ℕ) : ℝ := if k ≤ 2 then 2 else 0

theorem exClimb_wf : exClimb.WF := ⟨by simp [exClimb, Poly.N], by simp [exClimb]⟩

theorem exClimb_below : DerivativesBelow exClimbBounds exClimb.polys exClimb.time := by
  intro k hk t ht v hv
  have h1 := ht.1
  have h2 : t ≤ 1 := ht.2
  have ha : |t| ≤ 1 := by rw [abs_of_nonneg h1]; exact h2
  have ht2 : t ^ 2 ≤ 1 := pow_le_one₀ h1 h2
  have ht0 : 0 ≤ t ^ 2 := sq_nonneg t
  have ha2 : |1 + t ^ 2| ≤ 2 := by rw [abs_of_nonneg (by linarith)]; linarith
  unfold valuesAt at hv
  rw [List.mem_map] at hv
  obtain ⟨p, hp, rfl⟩ := hv
  simp only [exClimb, List.mem_cons, List.not_mem_nil, or_false] at hp
  rw [iteratedDeriv_curve, derivAt_eq_sum]
  rcases hp with rfl | rfl | rfl | rfl <;> interval_cases k <;>
    norm_num [exClimbBounds, Finset.sum_range_succ, Nat.descFactorial] <;> linarith

theorem exClimb_bounded : Bounded exClimb.polys exClimb.time := by
  have key : ∀ k i t, t ∈ Icc (0 : ℝ) 1 → k ≤ 3 → i < 4 → |axisVal exClimb k i t| < dblMax := by
    intro k i t ht hk hi
    refine lt_of_le_of_lt ?_ dblMax_gt
    have h0 := exClimb_below k (by omega) t ht (axisVal exClimb k i t) (by
      have hl : i < (valuesAt exClimb.polys k t).length := by unfold valuesAt; rw [List.length_map]; exact hi
      unfold axisVal
      rw [List.getD_eq_getElem?_getD, List.getElem?_eq_getElem hl, Option.getD_some]
      exact List.getElem_mem _)
    refine le_trans h0 ?_
    unfold exClimbBounds
    split_ifs <;> norm_num
  exact ⟨fun k hk i t ht => key k i t ht hk (by omega), fun k hk t ht => key k 3 t ht (by omega) (by omega)⟩

theorem exClimb_speed (t : ℝ) : speed exClimb.polys t = Real.sqrt (1 + 4 * t ^ 2) := by
  unfold speed
  simp only [exClimb, vec3_cons, Fin.sum_univ_three, derivAt_eq_sum, cons3_two]
  congr 1
  norm_num [Finset.sum_range_succ]
  ring

theorem exClimb_thrust (t : ℝ) : thrust ![0, 0, 10] exClimb.polys t = 12 := by
  unfold thrust
  simp only [exClimb, vec3_cons, Fin.sum_univ_three, derivAt_eq_sum, cons3_two]
  rw [Real.sqrt_eq_iff_mul_self_eq_of_pos (by norm_num)]
  norm_num [Finset.sum_range_succ]

theorem exClimb_jerk (t : ℝ) : jerk exClimb.polys t = 0 := by
  unfold jerk
  simp only [exClimb, vec3_cons, Fin.sum_univ_three, derivAt_eq_sum, cons3_two]
  norm_num [Finset.sum_range_succ]

theorem exClimb_yaw (t : ℝ) : yaw exClimb.polys 1 t = 1 := by
  unfold yaw valuesAt
  simp only [exClimb, List.map_cons, List.map_nil, iteratedDeriv_curve]
  simp only [List.getD_cons_succ, List.getD_cons_zero, derivAt_eq_sum]
  norm_num [Finset.sum_range_succ]

theorem exClimb_within (t : ℝ) (ht : t ∈ Icc 0 exClimb.time) :
    LimitsWithin (variation exClimbBounds (2 * (1 / 20))) exClimbLimits ![0, 0, 10] exClimb.polys t := by
  have h3 : Real.sqrt 3 ≤ 2 := by rw [Real.sqrt_le_iff]; norm_num
  have h5 : Real.sqrt (1 + 4 * t ^ 2) ≤ 5 / 2 := by
    rw [Real.sqrt_le_iff]
    refine ⟨by norm_num, ?_⟩
    have : t ^ 2 ≤ 1 := pow_le_one₀ ht.1 ht.2
    linarith
  refine ⟨fun l hl => ?_, fun l hl => ?_, fun l hl => ?_, fun l hl => ?_⟩
  · obtain rfl : (5 : ℝ) = l := Option.some.inj hl
    rw [exClimb_thrust]
    norm_num [variation, exClimbBounds]
  · obtain rfl : (20 : ℝ) = l := Option.some.inj hl
    rw [exClimb_thrust]
    norm_num [variation, exClimbBounds]
  · obtain rfl : (3 : ℝ) = l := Option.some.inj hl
    rw [exClimb_speed]
    norm_num [variation, exClimbBounds]
    linarith
  · obtain rfl : (1 : ℝ) = l := Option.some.inj hl
    rw [exClimb_thrust, exClimb_jerk]
    norm_num [variation, exClimbBounds]

theorem exClimb_yawLimits (t : ℝ) : YawLimitsHold exClimbLimits exClimb.polys t := by
  refine ⟨fun l hl => ?_, fun l hl => ?_⟩
  · obtain rfl : (2 : ℝ) = l := Option.some.inj hl
    rw [exClimb_yaw]
    norm_num
  · cases hl

/-- Its speed grows from 1 to `√5`. With the root finder of the code, sections down to a twentieth of a second and the speed limit
3, it is found feasible within five nested calls. -/
example : ∃ F, ∀ n fuel, F ≤ n → 5 ≤ fuel →
    exClimb.checkRecursiveM (codeRoots realMath n) Real.sqrt exClimbLimits ![0, 0, 10] (1 / 20) fuel = .ok .feasible := by
  refine C129_degree_four realMath realMath_exact exClimbLimits ![0, 0, 10] (1 / 20) (by norm_num) exClimb exClimb_wf (Or.inr rfl)
    le_rfl (by norm_num [exClimb]) ?_ ?_ ?_ exClimb_bounded exClimbBounds exClimb_below exClimb_within
    (fun _ t _ => exClimb_yawLimits t) 5 (by norm_num [exClimb])
  · intro p hp j hj
    obtain ⟨i, rfl⟩ : ∃ i, j = i + 5 := ⟨j - 5, by omega⟩
    simp only [exClimb, List.mem_cons, List.not_mem_nil, or_false] at hp
    rcases hp with rfl | rfl | rfl | rfl <;> simp
  · have h2 : realMath.dblMin ≤ 2 := by linarith [realMath_dblMin_le_one]
    intro p hp j
    simp only [exClimb, List.mem_cons, List.not_mem_nil, or_false] at hp
    match j with
    | 0 => rcases hp with rfl | rfl | rfl | rfl <;> simp [realMath_dblMin_le_one, h2]
    | 1 => rcases hp with rfl | rfl | rfl | rfl <;> simp [realMath_dblMin_le_one]
    | 2 => rcases hp with rfl | rfl | rfl | rfl <;> simp [realMath_dblMin_le_one]
    | 3 => rcases hp with rfl | rfl | rfl | rfl <;> simp
    | j + 4 => rcases hp with rfl | rfl | rfl | rfl <;> simp
  · intro l hl
    obtain rfl : (1 : ℝ) = l := Option.some.inj hl
    exact lt_trans (by norm_num) dblMax_gt

/-- With a smallest section of two seconds it is not decided. -/
example (rf : RootFinder ℝ) (fuel : ℕ) :
    exClimb.checkRecursive rf Real.sqrt exClimbLimits ![0, 0, 10] 2 (fuel + 1) = .ok .indeterminable :=
  C129_too_short rf _ _ 2 exClimb exClimb_wf (Or.inr rfl) le_rfl (by norm_num [exClimb]) fuel

/-- Two such flights in a row. -/
example : (⟨4, 4, 2, [exClimb, exClimb]⟩ : Trajectory ℝ).checkInputFeasibility
    (fun s => s.checkRecursive (fun _ => (true, [])) Real.sqrt exClimbLimits ![0, 0, 10] (1 / 20) 5) = .ok .feasible := by
  refine C129_trajectory _ _ _ _ (by norm_num) _ (by simp) ?_ exClimbBounds 5 5 le_rfl ?_
  · intro l hl
    obtain rfl : (1 : ℝ) = l := Option.some.inj hl
    exact lt_trans (by norm_num) dblMax_gt
  · intro s hs
    obtain rfl : s = exClimb := by simpa using hs
    exact ⟨exClimb_wf, Or.inr rfl, le_rfl, by norm_num [exClimb], by norm_num [exClimb], fun _ _ _ _ _ _ => rfl, exClimb_bounded,
      exClimb_below, exClimb_within, fun _ t _ => exClimb_yawLimits t⟩

theorem exRampFl_jerk (t : ℝ) : jerk (realPolys exRampFl) t = 0 := by
  unfold jerk realPolys
  simp only [exRampFl, List.map_cons, List.map_nil]
  simp only [vec3_cons, Fin.sum_univ_three, derivAt_eq_sum, vals, cons3_two]
  norm_num [Finset.sum_range_succ]

theorem exRampFl_within (t : ℝ) (ht : t ∈ Icc 0 exRampFl.time.val) :
    LimitsWithinFl (16 * (1 / 2 ^ 53)) (variationFl (fun _ => 1 / 10 ^ 14) (fun _ => 4) (1 / 10 ^ 13) (3 * (1 / 128)))
      (exRampLimits 3) exRampGravity (realPolys exRampFl) t := by
  have h3 : Real.sqrt 3 ≤ 2 := by rw [Real.sqrt_le_iff]; norm_num
  have h0 := Real.sqrt_nonneg 3
  have h5 : Real.sqrt (1 + 4 * t ^ 2) ≤ 5 / 2 := by
    rw [Real.sqrt_le_iff]
    refine ⟨by norm_num, ?_⟩
    have : t ^ 2 ≤ 1 := pow_le_one₀ ht.1 ht.2
    linarith
  refine ⟨fun l hl => ?_, fun l hl => ?_, fun l hl => ?_, fun l hl => ?_⟩
  · obtain rfl : (⟨5⟩ : Fl round53) = l := Option.some.inj hl
    rw [exRampFl_thrust]
    norm_num [variationFl]
    linarith
  · obtain rfl : (⟨20⟩ : Fl round53) = l := Option.some.inj hl
    rw [exRampFl_thrust]
    norm_num [variationFl]
    linarith
  · obtain rfl : (⟨3⟩ : Fl round53) = l := Option.some.inj hl
    rw [exRampFl_speed]
    norm_num [variationFl]
    linarith
  · obtain rfl : (⟨1⟩ : Fl round53) = l := Option.some.inj hl
    rw [exRampFl_thrust, exRampFl_jerk]
    norm_num [variationFl]
    constructor <;> linarith

/-- In doubles, with the root finder of the code and sections down to 1/128 of a second, the flight is found feasible for the
speed limit 3. -/
example (iter fuel : ℕ) (hf : 25 < fuel) : exRampFl.checkRecursiveFl seqDot (codeRoots (flMath round53) iter) (exRampLimits 3)
    exRampGravity ⟨1 / 128⟩ fuel = .ok .feasible := by
  have ht : exRampFl.time.val = 1 := rfl
  have hn : 2 * (flMath round53).dblMin.val ≤ 1 := by
    change 2 * (1 / 2 ^ 1022 : ℝ) ≤ 1
    have h2 : (2 : ℝ) ^ 1 ≤ 2 ^ 1022 := pow_le_pow_right₀ (by norm_num) (by norm_num)
    generalize (2 : ℝ) ^ 1022 = y at h2
    rw [mul_one_div, div_le_one (by linarith)]
    linarith
  refine C129_rounded_degree_four round53_rounding (by norm_num) (fun n hn => round53_nat n hn) (seqDot_ok round53_rounding) (flMath round53)
    (flMath_rounded round53_rounding (by norm_num)) (flMath_sqrt _) (flMath_dblMin _) (exRampLimits 3) exRampGravity ⟨1 / 128⟩
    _ _ _ exRampFl (exRampFl_input 3) (by rw [ht]; norm_num) ?_ ?_ exRampFl_within ?_ 25 (by rw [ht]; norm_num) iter fuel hf
  · intro p hp j hj
    obtain ⟨i, rfl⟩ : ∃ i, j = i + 5 := ⟨j - 5, by omega⟩
    simp only [exRampFl, List.mem_cons, List.not_mem_nil, or_false] at hp
    rcases hp with rfl | rfl | rfl | rfl <;> simp [vals]
  · have hn2 : 2 * (flMath round53).dblMin.val ≤ 2 := by linarith
    intro p hp x hx
    simp only [exRampFl, List.mem_cons, List.not_mem_nil, or_false] at hp
    rcases hp with rfl | rfl | rfl | rfl <;> simp only [List.mem_cons, List.not_mem_nil, or_false] at hx <;>
      rcases hx with rfl | rfl | rfl | rfl <;> simp only [abs_one, abs_two, hn, hn2, true_or, or_true]
  · intro _ t _
    refine ⟨fun l hl => ?_, fun l hl => ?_⟩
    · obtain rfl : (⟨2⟩ : Fl round53) = l := Option.some.inj hl
      rw [exRampFl_yaw]
      norm_num
    · cases hl

end Verif
