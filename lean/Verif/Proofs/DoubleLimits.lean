import Verif.Proofs.DoublePlanning
import Verif.Proofs.AnalysesRoots
import Mathlib.Data.EReal.Basic

/- Helper lemmas: scaling to limits with numbers that are none. -/
namespace Verif

open Spec

/-! ### Order -/

/-- The place of a number on the extended line. -/
noncomputable def place : Dbl → EReal
  | .fin x => (x : EReal)
  | .inf s => if s then ⊥ else ⊤
  | .nan => 0

theorem lt_place {a b : Dbl} (ha : a ≠ .nan) (hb : b ≠ .nan) : a < b ↔ place a < place b := by
  cases a with
  | nan => exact absurd rfl ha
  | fin x =>
    cases b with
    | nan => exact absurd rfl hb
    | fin y => exact EReal.coe_lt_coe_iff.symm
    | inf r => cases r <;> simp [place] <;> first | rfl | exact fun h => by cases h
  | inf s =>
    cases b with
    | nan => exact absurd rfl hb
    | fin y => cases s <;> simp [place] <;> first | rfl | exact fun h => by cases h
    | inf r =>
      change (s = true ∧ r = false) ↔ _
      cases s <;> cases r <;> simp [place]

theorem le_place {a b : Dbl} (ha : a ≠ .nan) (hb : b ≠ .nan) : a ≤ b ↔ place a ≤ place b := by
  cases a with
  | nan => exact absurd rfl ha
  | fin x =>
    cases b with
    | nan => exact absurd rfl hb
    | fin y => exact EReal.coe_le_coe_iff.symm
    | inf r => cases r <;> simp [place] <;> first | rfl | exact fun h => by cases h
  | inf s =>
    cases b with
    | nan => exact absurd rfl hb
    | fin y => cases s <;> simp [place] <;> first | rfl | exact fun h => by cases h
    | inf r =>
      change (s = true ∨ r = false) ↔ _
      cases s <;> cases r <;> simp [place]

theorem round64_mono {x y : ℝ} (h : x ≤ y) : round64 x ≤ round64 y := by
  rcases h.eq_or_lt with rfl | h
  · exact le_rfl
  obtain ⟨m, e, hm, he, hx⟩ := round64_form x
  obtain ⟨m', e', hm', he', hy⟩ := round64_form y
  have h1 := round64_nearest x hm' he'
  have h2 := round64_nearest y hm he
  rw [← hy] at h1
  rw [← hx] at h2
  by_contra hc
  push Not at hc
  generalize round64 x = a at *
  generalize round64 y = b at *
  rcases abs_cases (a - x) with ⟨e1, _⟩ | ⟨e1, _⟩ <;> rcases abs_cases (b - x) with ⟨e2, _⟩ | ⟨e2, _⟩ <;>
    rcases abs_cases (b - y) with ⟨e3, _⟩ | ⟨e3, _⟩ <;> rcases abs_cases (a - y) with ⟨e4, _⟩ | ⟨e4, _⟩ <;>
    rw [e1, e2] at h1 <;> rw [e3, e4] at h2 <;> linarith

theorem ofReal_mono {x y : ℝ} (h : x ≤ y) : Dbl.ofReal x ≤ Dbl.ofReal y := by
  have hr := round64_mono h
  unfold Dbl.ofReal
  split_ifs with h1 h2 h2
  · exact hr
  · change decide (y < 0) = false
    rw [decide_eq_false_iff_not]
    intro hy
    have := round64_le_double isDouble_zero hy.le
    rw [abs_of_nonpos this] at h2
    rw [abs_of_nonpos (hr.trans this)] at h1
    linarith
  · change decide (x < 0) = true
    rw [decide_eq_true_iff]
    by_contra hx
    have := double_le_round64 isDouble_zero (not_lt.mp hx)
    rw [abs_of_nonneg this] at h1
    rw [abs_of_nonneg (this.trans hr)] at h2
    linarith
  · change decide (x < 0) = true ∨ decide (y < 0) = false
    rw [decide_eq_true_iff, decide_eq_false_iff_not]
    by_cases hx : x < 0
    · exact Or.inl hx
    · exact Or.inr fun hy => hx (h.trans_lt hy)

/-- Dividing by a number above 0 keeps the order. -/
theorem div_mono {a b : Dbl} {v : ℝ} (hv : 0 < v) (h : a ≤ b) : a / .fin v ≤ b / .fin v := by
  cases a with
  | nan => exact absurd h (not_nan_le _)
  | fin x =>
    cases b with
    | nan => exact absurd h (not_le_nan _)
    | fin y =>
      change (if v = 0 then _ else Dbl.ofReal (x / v)) ≤ (if v = 0 then _ else Dbl.ofReal (y / v))
      rw [if_neg hv.ne', if_neg hv.ne']
      exact ofReal_mono (div_le_div_of_nonneg_right h hv.le)
    | inf r =>
      have hr : r = false := h
      change (if v = 0 then _ else Dbl.ofReal (x / v)) ≤ Dbl.inf (r ^^ decide (v < 0))
      rw [if_neg hv.ne', decide_eq_false (not_lt.mpr hv.le), hr]
      cases hx : Dbl.ofReal (x / v) with
      | nan => exact absurd hx (ofReal_ne_nan _)
      | fin z => rfl
      | inf s => exact Or.inr rfl
  | inf s =>
    cases b with
    | nan => exact absurd h (not_le_nan _)
    | fin y =>
      have hs : s = true := h
      change Dbl.inf (s ^^ decide (v < 0)) ≤ (if v = 0 then _ else Dbl.ofReal (y / v))
      rw [if_neg hv.ne', decide_eq_false (not_lt.mpr hv.le), hs]
      cases hx : Dbl.ofReal (y / v) with
      | nan => exact absurd hx (ofReal_ne_nan _)
      | fin z => rfl
      | inf s => exact Or.inl rfl
    | inf r =>
      change Dbl.inf (s ^^ decide (v < 0)) ≤ Dbl.inf (r ^^ decide (v < 0))
      rw [decide_eq_false (not_lt.mpr hv.le), Bool.xor_false, Bool.xor_false]
      exact h

theorem dbl_le_trans {a b c : Dbl} (h1 : a ≤ b) (h2 : b ≤ c) : a ≤ c := by
  have ha : a ≠ .nan := fun e => not_nan_le _ (e ▸ h1)
  have hb : b ≠ .nan := fun e => not_nan_le _ (e ▸ h2)
  have hc : c ≠ .nan := fun e => not_le_nan _ (e ▸ h2)
  rw [le_place ha hb] at h1
  rw [le_place hb hc] at h2
  rw [le_place ha hc]
  exact h1.trans h2

theorem dbl_not_lt {a b : Dbl} (ha : a ≠ .nan) (hb : b ≠ .nan) : ¬ a < b ↔ b ≤ a := by
  rw [lt_place ha hb, le_place hb ha, not_lt]

theorem dbl_lt_le {a b : Dbl} (h : a < b) : a ≤ b := by
  obtain ⟨ha, hb⟩ := lt_ne_nan h
  rw [le_place ha hb]
  exact ((lt_place ha hb).mp h).le

theorem dbl_le_refl {a : Dbl} (ha : a ≠ .nan) : a ≤ a := (le_place ha ha).mpr le_rfl

/-! ### The extremes -/

theorem stdMax_grows {a b : Extremum Dbl} (ha : a.value ≠ .nan) :
    (a.stdMax b).value ≠ .nan ∧ a.value ≤ (a.stdMax b).value ∧ (b.value ≠ .nan → b.value ≤ (a.stdMax b).value) := by
  unfold Extremum.stdMax
  split_ifs with h
  · exact ⟨(lt_ne_nan h).2, dbl_lt_le h, dbl_le_refl⟩
  · exact ⟨ha, dbl_le_refl ha, fun hb => (dbl_not_lt ha hb).mp h⟩

/-- The greatest candidate is not below any candidate that is a number. -/
theorem select_grows {T : Dbl} (hT : ¬ T < 0) (es : List (Extremum Dbl)) :
    ∃ mn mx, selectMinMaxMagnitudeG dblLib 0 T es Extremum.zero Extremum.zero = (true, mn, mx) ∧ mx.value ≠ .nan ∧
      ∀ e ∈ es, ¬ e.time < 0 → ¬ e.time > T → e.value ≠ .nan → e.value ≤ mx.value := by
  unfold selectMinMaxMagnitudeG
  rw [if_neg hT]
  refine ⟨_, _, rfl, ?_⟩
  generalize ({ (Extremum.zero : Extremum Dbl) with value := dblLib.max } : Extremum Dbl) = a
  have hb : ({ (Extremum.zero : Extremum Dbl) with value := -dblLib.max } : Extremum Dbl).value ≠ .nan := by
    change Dbl.fin (-dblMax) ≠ .nan
    exact fun h => by cases h
  generalize ({ (Extremum.zero : Extremum Dbl) with value := -dblLib.max } : Extremum Dbl) = b at hb
  have key : ∀ (es : List (Extremum Dbl)) (st : Extremum Dbl × Extremum Dbl), st.2.value ≠ .nan →
      let r := es.foldl (fun (s : Extremum Dbl × Extremum Dbl) c =>
        if c.time < 0 ∨ c.time > T then s else (s.1.stdMin c, s.2.stdMax c)) st
      r.2.value ≠ .nan ∧ st.2.value ≤ r.2.value ∧
        ∀ e ∈ es, ¬ e.time < 0 → ¬ e.time > T → e.value ≠ .nan → e.value ≤ r.2.value := by
    intro es
    induction es with
    | nil => exact fun st h => ⟨h, dbl_le_refl h, by simp⟩
    | cons c es ih =>
      intro st h
      rw [List.foldl_cons]
      split_ifs with hc
      · obtain ⟨h1, h2, h3⟩ := ih st h
        refine ⟨h1, h2, fun e he ha hb hn => ?_⟩
        rcases List.mem_cons.mp he with rfl | he
        · exact absurd hc (by tauto)
        · exact h3 e he ha hb hn
      · obtain ⟨g1, g2, g3⟩ := stdMax_grows (b := c) h
        obtain ⟨h1, h2, h3⟩ := ih (st.1.stdMin c, st.2.stdMax c) g1
        refine ⟨h1, dbl_le_trans g2 h2, fun e he ha hb hn => ?_⟩
        rcases List.mem_cons.mp he with rfl | he
        · exact dbl_le_trans (g3 hn) h2
        · exact h3 e he ha hb hn
  obtain ⟨h1, -, h3⟩ := key es (a, b) hb
  exact ⟨h1, h3⟩

theorem candidates_have (rf : RootCall Dbl) (p : Poly Dbl) {T : Dbl} (hT : ¬ T < 0) {d : ℤ} (hd : ¬ (p.N : ℤ) - d - 1 < 0) :
    (p.computeMinMaxCandidatesM dblLib.abs dblLib.eps rf 0 T d).Sat fun r => 0 ∈ r.2 ∧ T ∈ r.2 := by
  intro r h
  unfold Poly.computeMinMaxCandidatesM at h
  rw [if_neg hd, Res.bind_eq_ok] at h
  obtain ⟨c, _, h⟩ := h
  rw [Res.bind_eq_ok] at h
  obtain ⟨r', _, h⟩ := h
  unfold candidatesG at h
  rw [if_neg hT] at h
  simp only [Res.pure_eq, Res.ok.injEq] at h
  subst h
  simp

theorem convolved_some {s : Segment Dbl} {d : ℤ} {nd ndd : ℕ} (dims : List ℤ) (hdims : ∀ i ∈ dims, 0 ≤ i ∧ i < s.D) :
    ∀ acc, (convolvedLoop s d nd ndd dims acc).Sat fun r => ∃ c, r = some c := by
  induction dims with
  | nil => exact fun acc => Res.sat_ok ⟨acc, rfl⟩
  | cons i dims ih =>
    intro acc r h
    have := hdims i (List.mem_cons_self ..)
    rw [convolvedLoop, if_neg (by omega)] at h
    iterate 6
      rw [Res.bind_eq_ok] at h
      obtain ⟨_, _, h⟩ := h
    split_ifs at h
    exact ih (fun x hx => hdims x (List.mem_cons_of_mem _ hx)) _ r h

theorem times_have (rf : RootCall Dbl) {s : Segment Dbl} {D : ℕ} (hD : s.polys.length = D) (h0 : 0 < D) {d : ℕ} (hd : d < s.N)
    (hs : ∀ p ∈ s.polys, p.N = s.N) {T : Dbl} (hT : ¬ T < 0) :
    (s.candidateTimesM dblLib rf d 0 T ((List.range D).map fun (i : ℕ) => (i : ℤ))).Sat fun r => 0 ∈ r.2 ∧ T ∈ r.2 := by
  have hdims : ∀ i ∈ (List.range D).map fun (i : ℕ) => (i : ℤ), 0 ≤ i ∧ i < s.D := by
    intro i hi
    obtain ⟨j, hj, rfl⟩ := List.mem_map.mp hi
    rw [List.mem_range] at hj
    have : s.D = D := hD
    omega
  obtain ⟨D, rfl⟩ : ∃ E, D = E + 1 := ⟨D - 1, by omega⟩
  generalize hl : (List.range (D + 1)).map (fun (i : ℕ) => (i : ℤ)) = dims at *
  intro r h
  unfold Segment.candidateTimesM at h
  split at h
  · have := congrArg List.length hl
    simp at this
  · split_ifs at h with hneg
    rw [Res.bind_eq_ok] at h
    obtain ⟨p, hp, h⟩ := h
    have hp' := hs p (List.mem_of_getElem? (Res.at'_eq_ok.mp hp))
    exact candidates_have rf p hT (by rw [hp']; omega) r h
  · dsimp only at h
    split_ifs at h with hneg
    rw [Res.bind_eq_ok] at h
    obtain ⟨c, hc, h⟩ := h
    obtain ⟨c', rfl⟩ := convolved_some _ hdims _ c hc
    exact candidates_have rf _ hT (by omega) r h

theorem squares_fold {s : Segment Dbl} {d : ℤ} {t : Dbl} {D : ℕ} (hD : s.polys.length = D) :
    ∀ (acc v : Dbl), s.squaresG dblLib d t ((List.range D).map fun (i : ℕ) => (i : ℤ)) acc = .ok v →
      ∃ l, s.evaluate t d = .ok l ∧ v = l.foldl (fun acc x => acc + x * x) acc := by
  have key : ∀ (n k : ℕ), k + n = D → ∀ (acc v : Dbl),
      s.squaresG dblLib d t ((List.range' k n).map fun (i : ℕ) => (i : ℤ)) acc = .ok v →
      ∃ l, (s.polys.drop k).mapM (fun p => p.evaluate t d) = .ok l ∧ v = l.foldl (fun acc x => acc + x * x) acc := by
    intro n
    induction n with
    | zero =>
      intro k hk acc v h
      refine ⟨[], ?_, ?_⟩
      · rw [List.drop_of_length_le (by omega)]; rfl
      · simp only [List.range'_zero, List.map_nil, Segment.squaresG, Res.ok.injEq] at h
        exact h.symm
    | succ n ih =>
      intro k hk acc v h
      rw [List.range'_succ, List.map_cons, Segment.squaresG, if_neg (by omega), Res.bind_eq_ok] at h
      obtain ⟨p, hp, h⟩ := h
      rw [Res.bind_eq_ok] at h
      obtain ⟨w, hw, h⟩ := h
      obtain ⟨l, hl, hv⟩ := ih (k + 1) (by omega) _ _ h
      rw [Int.toNat_natCast, Res.at'_of_lt (by omega), Res.ok.injEq] at hp
      refine ⟨w :: l, ?_, hv⟩
      rw [List.drop_eq_getElem_cons (by omega), List.mapM_cons, hp, hw, Res.ok_bind, hl]
      rfl
  intro acc v h
  rw [List.range_eq_range'] at h
  exact key D 0 (by omega) acc v h

/-- The magnitudes found for a segment: those at its ends are among them. -/
theorem segment_ends (rf : RootCall Dbl) {s : Segment Dbl} {D : ℕ} (hD : s.polys.length = D) (h0 : 0 < D) {d : ℕ} (hd : d < s.N)
    (hs : ∀ p ∈ s.polys, p.N = s.N) (hT : ¬ s.time < 0) :
    (s.magnitudeCandidatesM dblLib rf d 0 s.time ((List.range D).map fun (i : ℕ) => (i : ℤ))).Sat fun r => r.1 = true ∧
      ∀ t, t = 0 ∨ t = s.time → ∃ l, s.evaluate t d = .ok l ∧ ∃ e ∈ r.2, e.time = t ∧ e.value = normOf l := by
  intro r h
  unfold Segment.magnitudeCandidatesM at h
  rw [Res.bind_eq_ok] at h
  obtain ⟨ct, hct, h⟩ := h
  rw [Res.bind_eq_ok] at h
  obtain ⟨es, hes, h⟩ := h
  rw [Res.pure_eq, Res.ok.injEq] at h
  subst h
  refine ⟨rfl, fun t ht => ?_⟩
  obtain ⟨c1, c2⟩ := times_have rf hD h0 hd hs hT ct hct
  have hmem : t ∈ ct.2 := by rcases ht with rfl | rfl <;> assumption
  obtain ⟨i, hi, hti⟩ := List.mem_iff_getElem.mp hmem
  rw [Res.mapM_forall₂] at hes
  have hl := hes.length_eq
  have hg := hes.get (i := i) hi (by omega)
  simp only [List.get_eq_getElem] at hg
  rw [hti, Res.bind_eq_ok] at hg
  obtain ⟨m, hm, hg⟩ := hg
  obtain ⟨l, e1, e2⟩ := squares_fold hD 0 m hm
  rw [Res.pure_eq, Res.ok.injEq] at hg
  refine ⟨l, e1, _, List.getElem_mem (l := es) (n := i) (by omega), ?_⟩
  rw [← hg]
  exact ⟨rfl, by rw [e2]; rfl⟩

theorem loop_ends (rf : RootCall Dbl) {D : ℕ} (h0 : 0 < D) {d : ℕ} (segs : List (Segment Dbl))
    (hsegs : ∀ s ∈ segs, s.polys.length = D ∧ d < s.N ∧ (∀ p ∈ s.polys, p.N = s.N) ∧ ¬ s.time < 0) :
    ∀ (i : ℕ) (mn mx : Extremum Dbl), mx.value ≠ .nan →
      (minMaxMagnitudeLoopM dblLib rf d ((List.range D).map fun (i : ℕ) => (i : ℤ)) segs i mn mx).Sat fun r =>
        r.2.2.value ≠ .nan ∧ mx.value ≤ r.2.2.value ∧ ∀ s ∈ segs, ∀ t, t = 0 ∨ t = s.time →
          ∃ l, s.evaluate t d = .ok l ∧ (normOf l ≠ .nan → normOf l ≤ r.2.2.value) := by
  induction segs with
  | nil =>
    intro i mn mx h
    exact Res.sat_ok ⟨h, dbl_le_refl h, by simp⟩
  | cons s segs ih =>
    intro i mn mx h r hr
    obtain ⟨g1, g2, g3, g4⟩ := hsegs s (List.mem_cons_self ..)
    rw [minMaxMagnitudeLoopM, Res.bind_eq_ok] at hr
    obtain ⟨c, hc, hr⟩ := hr
    obtain ⟨f1, f2⟩ := segment_ends rf g1 h0 g2 g3 g4 c hc
    obtain ⟨mn', mx', hsel, hn, hall⟩ := select_grows g4 c.2
    rw [f1, if_neg (by simp), hsel] at hr
    simp only [Bool.not_true, Bool.false_eq_true, if_false] at hr
    have hstep : ∀ M : Extremum Dbl, M = (if mx'.value > mx.value then { mx' with segmentIdx := i } else mx) →
        M.value ≠ .nan ∧ mx.value ≤ M.value ∧ mx'.value ≤ M.value := by
      rintro M rfl
      split_ifs with hg
      · exact ⟨hn, dbl_lt_le hg, dbl_le_refl hn⟩
      · exact ⟨h, dbl_le_refl h, (dbl_not_lt h hn).mp hg⟩
    obtain ⟨m1, m2, m3⟩ := hstep _ rfl
    obtain ⟨e1, e2, e3⟩ := ih (fun x hx => hsegs x (List.mem_cons_of_mem _ hx)) _ _ _ m1 r hr
    refine ⟨e1, dbl_le_trans m2 e2, fun x hx t ht => ?_⟩
    rcases List.mem_cons.mp hx with rfl | hx
    · obtain ⟨l, hl, e, he, het, hev⟩ := f2 t ht
      refine ⟨l, hl, fun hnl => ?_⟩
      have hz : ¬ (0 : Dbl) < 0 := fun h => lt_irrefl (0 : ℝ) h
      have hTT : ¬ x.time < x.time := fun h => by
        obtain ⟨q, _⟩ := lt_ne_nan h
        rw [lt_place q q] at h
        exact lt_irrefl _ h
      have := hall e he (by rw [het]; rcases ht with rfl | rfl <;> assumption)
        (by rw [het]; rcases ht with rfl | rfl <;> assumption) (by rw [hev]; exact hnl)
      rw [hev] at this
      exact dbl_le_trans this (dbl_le_trans m3 e2)
    · exact e3 x hx t ht

theorem maxVA_ends (rf : RootCall Dbl) {tr : Trajectory Dbl} (htr : DblTrajectory tr) :
    (tr.maxVelocityAndAccelerationM dblLib rf).Sat fun r => ∀ s ∈ tr.segments, ∀ t, t = 0 ∨ t = s.time →
      (∃ l, s.evaluate t 1 = .ok l ∧ (normOf l ≠ .nan → normOf l ≤ r.2.1)) ∧
      ∃ l, s.evaluate t 2 = .ok l ∧ (normOf l ≠ .nan → normOf l ≤ r.2.2) := by
  intro r h
  unfold Trajectory.maxVelocityAndAccelerationM at h
  rw [Res.bind_eq_ok] at h
  obtain ⟨v, hv, h⟩ := h
  rw [Res.bind_eq_ok] at h
  obtain ⟨a, ha, h⟩ := h
  rw [Res.pure_eq, Res.ok.injEq] at h
  subst h
  unfold Trajectory.computeMinMaxMagnitudeM at hv ha
  have hn : ({ (Extremum.zero : Extremum Dbl) with value := -dblLib.max } : Extremum Dbl).value ≠ .nan := by
    change Dbl.fin (-dblMax) ≠ .nan
    exact fun h => by cases h
  have hs : ∀ d : ℕ, d ≤ 2 → ∀ s ∈ tr.segments, s.polys.length = tr.D ∧ d < s.N ∧ (∀ p ∈ s.polys, p.N = s.N) ∧ ¬ s.time < 0 :=
    fun d hd s hs => ⟨htr.dims s hs, by have := (htr.sizes s hs).1; omega, (htr.sizes s hs).2.2, htr.times s hs⟩
  have h1 := loop_ends rf htr.dim_pos (d := 1) tr.segments (hs 1 (by omega)) 0 _ _ hn v hv
  have h2 := loop_ends rf htr.dim_pos (d := 2) tr.segments (hs 2 (by omega)) 0 _ _ hn a ha
  exact fun s hs t ht => ⟨h1.2.2 s hs t ht, h2.2.2 s hs t ht⟩

/-! ### Scaling -/

theorem mul_not_neg {a b : Dbl} (ha : ¬ a < 0) (hb : 1 ≤ b) : ¬ a * b < 0 := by
  have hnn : NN b := nn_of_le (dbl_le_trans (by change (0 : ℝ) ≤ 1; norm_num) hb)
  have haa : a = .nan ∨ NN a := by
    by_cases h : a = .nan
    · exact Or.inl h
    · exact Or.inr (nn_of_le ((dbl_not_lt h (by exact fun h => by cases h)).mp ha))
  rcases haa with rfl | haa
  · rw [nan_mul]; exact not_nan_lt _
  have hz : ∀ x : Dbl, x = .nan ∨ NN x → ¬ x < 0 := by
    rintro x (rfl | h)
    · exact not_nan_lt _
    · exact h.not_neg
  apply hz
  rcases haa with ⟨x, hx, rfl⟩ | rfl
  · rcases hnn with ⟨y, hy, rfl⟩ | rfl
    · exact Or.inr (nn_ofReal (mul_nonneg hx hy))
    · change Dbl.infMul false x = _ ∨ NN (Dbl.infMul false x)
      unfold Dbl.infMul
      split_ifs with h
      · exact Or.inl rfl
      · rw [decide_eq_false (not_lt.mpr hx)]; exact Or.inr (Or.inr rfl)
  · rcases hnn with ⟨y, hy, rfl⟩ | rfl
    · change Dbl.infMul false y = _ ∨ NN (Dbl.infMul false y)
      unfold Dbl.infMul
      split_ifs with h
      · exact Or.inl rfl
      · rw [decide_eq_false (not_lt.mpr hy)]; exact Or.inr (Or.inr rfl)
    · exact Or.inr (Or.inr rfl)

theorem one_le_max (x : Dbl) : 1 ≤ stdMaxVal 1 x := by
  unfold stdMaxVal
  split_ifs with h
  · exact dbl_lt_le h
  · exact dbl_le_refl (by exact fun h => by cases h)

theorem scaleCore_dbl {tr : Trajectory Dbl} (h : DblTrajectory tr) {c : Dbl} (hc : 1 ≤ c) : DblTrajectory (tr.scaleCore c) := by
  refine ⟨h.dim_pos, ?_, ?_, ?_⟩
  all_goals
    intro s hs
    obtain ⟨r, hr, rfl⟩ := List.mem_map.mp hs
  · exact (List.length_map ..).trans (h.dims r hr)
  · refine ⟨(h.sizes r hr).1, (h.sizes r hr).2.1, fun p hp => ?_⟩
    obtain ⟨q, hq, rfl⟩ := List.mem_map.mp hp
    exact (scaleLoop_length' _ _ _).trans ((h.sizes r hr).2.2 q hq)
  · exact mul_not_neg (h.times r hr) hc

theorem scaleLoop_ends (rf : RootCall Dbl) {v a : ℝ} (hv : 0 < v) (ha : 0 < a) (n : ℕ) : ∀ tr : Trajectory Dbl, DblTrajectory tr →
    (scaleToMeetLoopM dblLib dblLim rf (.fin v) (.fin a) n tr).Sat fun r => r.1 = true →
      ∀ s ∈ r.2.segments, ∀ t, t = 0 ∨ t = s.time →
        (∃ l, s.evaluate t 1 = .ok l ∧ (normOf l ≠ .nan → normOf l / .fin v ≤ dblLim)) ∧
        ∃ l, s.evaluate t 2 = .ok l ∧ (normOf l ≠ .nan → normOf l / .fin a ≤ dblLim) := by
  induction n with
  | zero =>
    intro tr _
    exact Res.sat_ok fun h => by cases h
  | succ n ih =>
    intro tr htr r h
    rw [scaleToMeetLoopM, Res.bind_eq_ok] at h
    obtain ⟨m, hm, h⟩ := h
    dsimp only at h
    split_ifs at h with hc
    · rw [Res.pure_eq, Res.ok.injEq] at h
      subst h
      intro _ s hs t ht
      obtain ⟨⟨l, e1, e2⟩, ⟨l', e3, e4⟩⟩ := maxVA_ends rf htr m hm s hs t ht
      exact ⟨⟨l, e1, fun hn => dbl_le_trans (div_mono hv (e2 hn)) hc.1⟩, ⟨l', e3, fun hn => dbl_le_trans (div_mono ha (e4 hn)) hc.2⟩⟩
    · exact ih _ (scaleCore_dbl htr (one_le_max _)) r h

theorem scaleLoop_nan_limit (rf : RootCall Dbl) {v a : Dbl} (hva : v = .nan ∨ a = .nan) (n : ℕ) : ∀ tr : Trajectory Dbl,
    (scaleToMeetLoopM dblLib dblLim rf v a n tr).Sat fun r => r.1 = false := by
  have hdn : ∀ x : Dbl, x / .nan = .nan := fun x => by cases x <;> rfl
  induction n with
  | zero => exact fun tr => Res.sat_ok rfl
  | succ n ih =>
    intro tr r h
    rw [scaleToMeetLoopM, Res.bind_eq_ok] at h
    obtain ⟨m, hm, h⟩ := h
    dsimp only at h
    rw [if_neg] at h
    · exact ih _ r h
    · rintro ⟨h1, h2⟩
      rcases hva with rfl | rfl
      · rw [hdn] at h1; exact not_nan_le _ h1
      · rw [hdn] at h2; exact not_nan_le _ h2

/-! ### Segments whose magnitudes are all NaN -/

theorem magnitudes_nan' (rf : RootCall Dbl) {s : Segment Dbl} {d : ℕ} {i : ℕ} {p : Poly Dbl} (hp : s.polys[i]? = some p)
    (hn : ∀ t, p.evaluate t d = .ok .nan) (a b : Dbl) {D : ℕ} (hi : i < D) :
    (s.magnitudeCandidatesM dblLib rf d a b ((List.range D).map fun (i : ℕ) => (i : ℤ))).Sat fun r =>
      r.1 = true ∧ ∀ e ∈ r.2, e.value = .nan := by
  intro r h
  unfold Segment.magnitudeCandidatesM at h
  rw [Res.bind_eq_ok] at h
  obtain ⟨ct, _, h⟩ := h
  rw [Res.bind_eq_ok] at h
  obtain ⟨es, hes, h⟩ := h
  rw [Res.pure_eq, Res.ok.injEq] at h
  subst h
  refine ⟨rfl, fun e he => ?_⟩
  obtain ⟨t, -, ht⟩ := Res.mapM_eq_ok hes e he
  rw [Res.bind_eq_ok] at ht
  obtain ⟨m, hm, ht⟩ := ht
  rw [Res.pure_eq, Res.ok.injEq] at ht
  have := squares_nan hp (hn t) _ _ _ hm (Or.inr (List.mem_map.mpr ⟨i, List.mem_range.mpr hi, rfl⟩))
  rw [← ht, this]
  rfl

theorem loop_nan (rf : RootCall Dbl) {D : ℕ} {d : ℕ} (segs : List (Segment Dbl))
    (hsegs : ∀ s ∈ segs, ∃ i < D, ∃ p, s.polys[i]? = some p ∧ HasNan p d ∧ p.N ≤ 22) :
    ∀ (i : ℕ) (mn mx : Extremum Dbl), mx.value = .fin (-dblMax) →
      (minMaxMagnitudeLoopM dblLib rf d ((List.range D).map fun (i : ℕ) => (i : ℤ)) segs i mn mx).Sat fun r =>
        r.2.2.value = .fin (-dblMax) := by
  induction segs with
  | nil => exact fun i mn mx h => Res.sat_ok h
  | cons s segs ih =>
    intro i mn mx h r hr
    obtain ⟨k, hk, p, hp, hn, hN⟩ := hsegs s (List.mem_cons_self ..)
    rw [minMaxMagnitudeLoopM, Res.bind_eq_ok] at hr
    obtain ⟨c, hc, hr⟩ := hr
    obtain ⟨f1, f2⟩ := magnitudes_nan' rf hp (evaluate_nan hn hN) 0 s.time hk c hc
    rw [f1, if_neg (by simp)] at hr
    by_cases hT : (0 : Dbl) > s.time
    · have : selectMinMaxMagnitudeG dblLib 0 s.time c.2 Extremum.zero Extremum.zero = (false, Extremum.zero, Extremum.zero) := by
        unfold selectMinMaxMagnitudeG
        rw [if_pos hT]
      rw [this] at hr
      simp only [Bool.not_false, if_true, Res.pure_eq, Res.ok.injEq] at hr
      rw [← hr]
      exact h
    · rw [select_magnitude_nan hT f2] at hr
      simp only [Bool.not_true, Bool.false_eq_true, if_false] at hr
      rw [if_neg (show ¬ (Dbl.fin (-dblMax) > mx.value) by rw [h]; exact fun h => lt_irrefl (-dblMax : ℝ) h)] at hr
      exact ih (fun x hx => hsegs x (List.mem_cons_of_mem _ hx)) _ _ _ h r hr

theorem lim_pos : ∃ z : ℝ, 0 ≤ z ∧ dblLim = .fin z := by
  have h1 : Dbl.ofReal (1 / 1000) = .fin (round64 (1 / 1000)) := ofReal_half (small_lt (by norm_num))
  have h2 : 0 ≤ round64 (1 / 1000) := round64_nonneg (by norm_num)
  have h3 : round64 (1 / 1000) ≤ (1 : ℕ) := round64_le_double (isDouble_nat (by norm_num)) (by norm_num)
  have h4 : Dbl.ofReal (1 + round64 (1 / 1000)) = .fin (round64 (1 + round64 (1 / 1000))) :=
    ofReal_half (small_lt (by rw [abs_of_nonneg (by linarith)]; push_cast at h3; linarith))
  exact ⟨round64 (1 + round64 (1 / 1000)), round64_nonneg (by linarith), by unfold dblLim; rw [h1, fin_add, h4]⟩

theorem min_div_le {v : Dbl} (hv : Above v) : Dbl.fin (-dblMax) / v ≤ dblLim := by
  obtain ⟨z, hz, e⟩ := lim_pos
  rw [e]
  have hneg : -dblMax ≤ (0 : ℝ) :=
    neg_nonpos.mpr ((add_pos (zpow2_pos 1000) one_pos).le.trans dblMax_big)
  rcases hv with rfl | ⟨x, hx, rfl⟩
  · exact hz
  · refine dbl_le_trans (div_mono hx (show Dbl.fin (-dblMax) ≤ .fin 0 from hneg)) ?_
    change (if x = 0 then _ else Dbl.ofReal (0 / x)) ≤ _
    rw [if_neg hx.ne', zero_div, ofReal_zero]
    exact hz

theorem scale_nan (rf : RootCall Dbl) {tr : Trajectory Dbl}
    (hsegs : ∀ s ∈ tr.segments, ∃ i < tr.D, ∃ p, s.polys[i]? = some p ∧ HasNan p 2 ∧ p.N ≤ 22) {v a : Dbl} (hv : Above v)
    (ha : Above a) : (tr.scaleToMeetDbl rf v a).Sat (· = (true, tr)) := by
  intro r h
  unfold Trajectory.scaleToMeetDbl Trajectory.scaleToMeetConstraintsM at h
  rw [scaleToMeetLoopM, Res.bind_eq_ok] at h
  obtain ⟨m, hm, h⟩ := h
  unfold Trajectory.maxVelocityAndAccelerationM at hm
  rw [Res.bind_eq_ok] at hm
  obtain ⟨v', hv', hm⟩ := hm
  rw [Res.bind_eq_ok] at hm
  obtain ⟨a', ha', hm⟩ := hm
  rw [Res.pure_eq, Res.ok.injEq] at hm
  subst hm
  have h1 := loop_nan rf (d := 1) tr.segments (fun s hs => by
    obtain ⟨i, hi, p, hp, hn, hN⟩ := hsegs s hs
    exact ⟨i, hi, p, hp, hn.mono (by omega), hN⟩) 0 _ _ rfl v' hv'
  have h2 := loop_nan rf (d := 2) tr.segments hsegs 0 _ _ rfl a' ha'
  dsimp only at h
  rw [h1, h2, if_pos ⟨min_div_le hv, min_div_le ha⟩, Res.pure_eq, Res.ok.injEq] at h
  exact h.symm

/-! ### It returns -/

theorem magnitudes_return' {m : RMath Dbl} (h1 : m.fabs = Dbl.abs) (h2 : m.dblMin = .fin ((2 : ℝ) ^ (-1022 : ℤ))) (fuel : ℕ) {d : ℕ}
    {s : Segment Dbl} (hdN : d < s.N) (hd2 : d + 1 < 22) (hN : s.N ≤ 22) (hs : ∀ p ∈ s.polys, p.N = s.N)
    (hz : ∀ p ∈ s.polys, ∀ j x, d + 1 ≤ j → p.coeffs[j]? = some x → NZ x) {D : ℕ} (hD : s.polys.length = D) (T : Dbl) :
    ∃ r, s.magnitudeCandidatesM dblLib (codeRoots m fuel) d 0 T ((List.range D).map fun (i : ℕ) => (i : ℤ)) = .ok r := by
  have hdims : ∀ i ∈ (List.range D).map fun (i : ℕ) => (i : ℤ), 0 ≤ i ∧ i < s.D := by
    intro i hi
    obtain ⟨j, hj, rfl⟩ := List.mem_map.mp hi
    rw [List.mem_range] at hj
    have : s.D = D := hD
    omega
  generalize (List.range D).map (fun (i : ℕ) => (i : ℤ)) = dims at *
  have ect : ∃ r, s.candidateTimesM dblLib (codeRoots m fuel) d 0 T dims = .ok r := by
    unfold Segment.candidateTimesM
    split
    · exact ⟨_, rfl⟩
    · rename_i i
      obtain ⟨g0, g1⟩ := hdims i (List.mem_cons_self ..)
      have hlt : i.toNat < s.polys.length := by have : (s.D : ℤ) = s.polys.length := rfl; omega
      rw [if_neg (by omega), Res.at'_of_lt hlt, Res.ok_bind]
      have hmem := List.getElem_mem hlt
      generalize s.polys[i.toNat] = p at hmem
      unfold Poly.computeMinMaxCandidatesM
      obtain ⟨c, hc, _, hcz⟩ := getCoefficients_nz (p := p) (d := d + 1) (by omega) (by rw [hs p hmem]; omega) hd2
        (by rw [hs p hmem]; exact hN) (hz p hmem)
      rw [if_neg (by rw [hs p hmem]; omega), show ((d : ℤ) + 1) = ((d + 1 : ℕ) : ℤ) by push_cast; rfl, hc, Res.ok_bind,
        codeRoots_nz h1 h2 fuel hcz, Res.ok_bind]
      split <;> exact ⟨_, rfl⟩
    · obtain ⟨c, ec, zc⟩ := convolvedLoop_nz hdN hd2 hN hs hz _ hdims
        (List.replicate (((s.N : ℤ) - d + ((s.N : ℤ) - d - 1) - 1)).toNat 0) (by rw [List.length_replicate]; omega)
        (fun x hx => by rw [List.eq_of_mem_replicate hx]; exact nz_zero)
      dsimp only
      rw [if_neg (by omega), show ((s.N : ℤ) - d).toNat = s.N - d by omega,
        show ((s.N : ℤ) - d - 1).toNat = s.N - d - 1 by omega, ec, Res.ok_bind]
      dsimp only
      unfold Poly.computeMinMaxCandidatesM
      rw [if_neg (by omega)]
      have : (Poly.mk c).getCoefficients (-1 + 1) = .ok c := by
        unfold Poly.getCoefficients
        rw [Res.check_of (by omega), Res.ok_bind, if_pos (by norm_num)]
        rfl
      rw [this, Res.ok_bind, codeRoots_nz h1 h2 fuel zc, Res.ok_bind]
      split <;> exact ⟨_, rfl⟩
  obtain ⟨ct, ect⟩ := ect
  unfold Segment.magnitudeCandidatesM
  rw [ect, Res.ok_bind]
  obtain ⟨es, he, _⟩ := mapM_returns (f := fun t => do
    let m ← s.squaresG dblLib d t dims 0
    pure (Extremum.mk t (dblLib.sqrt m) 0)) ct.2 (fun t _ => by
      obtain ⟨v, hv⟩ := squares_returns (d := d) (t := t) (fun p hp => by rw [hs p hp]; exact hN) dims hdims 0
      rw [hv]
      exact ⟨_, rfl⟩)
  rw [he]
  exact ⟨_, rfl⟩

theorem loop_magnitudes_return {m : RMath Dbl} (h1 : m.fabs = Dbl.abs) (h2 : m.dblMin = .fin ((2 : ℝ) ^ (-1022 : ℤ))) (fuel : ℕ)
    {d : ℕ} (hd2 : d + 1 < 22) {D : ℕ} (segs : List (Segment Dbl))
    (hsegs : ∀ s ∈ segs, s.polys.length = D ∧ d < s.N ∧ s.N ≤ 22 ∧ (∀ p ∈ s.polys, p.N = s.N) ∧
      ∀ p ∈ s.polys, ∀ j x, d + 1 ≤ j → p.coeffs[j]? = some x → NZ x) :
    ∀ (i : ℕ) (mn mx : Extremum Dbl), ∃ r,
      minMaxMagnitudeLoopM dblLib (codeRoots m fuel) d ((List.range D).map fun (i : ℕ) => (i : ℤ)) segs i mn mx = .ok r := by
  induction segs with
  | nil => exact fun i mn mx => ⟨_, rfl⟩
  | cons s segs ih =>
    intro i mn mx
    obtain ⟨g1, g2, g3, g4, g5⟩ := hsegs s (List.mem_cons_self ..)
    obtain ⟨c, hc⟩ := magnitudes_return' h1 h2 fuel g2 hd2 g3 g4 g5 g1 s.time
    rw [minMaxMagnitudeLoopM, hc, Res.ok_bind]
    split_ifs
    · exact ⟨_, rfl⟩
    · dsimp only
      split_ifs
      · exact ⟨_, rfl⟩
      all_goals exact ih (fun x hx => hsegs x (List.mem_cons_of_mem _ hx)) _ _ _

theorem scale_nan_returns {m : RMath Dbl} (h1 : m.fabs = Dbl.abs) (h2 : m.dblMin = .fin ((2 : ℝ) ^ (-1022 : ℤ))) (fuel : ℕ)
    {tr : Trajectory Dbl} (hshape : ∀ s ∈ tr.segments, s.polys.length = tr.D ∧ 3 ≤ s.N ∧ s.N ≤ 22 ∧ (∀ p ∈ s.polys, p.N = s.N) ∧
      ∀ p ∈ s.polys, ∀ j x, 2 ≤ j → p.coeffs[j]? = some x → NZ x)
    (hnan : ∀ s ∈ tr.segments, ∃ p ∈ s.polys, HasNan p 2) {v a : Dbl} (hv : Above v) (ha : Above a) :
    tr.scaleToMeetDbl (codeRoots m fuel) v a = .ok (true, tr) := by
  have hsat := scale_nan (codeRoots m fuel) (tr := tr) (fun s hs => by
    obtain ⟨p, hp, hn⟩ := hnan s hs
    obtain ⟨i, hi, e⟩ := List.mem_iff_getElem.mp hp
    obtain ⟨g1, _, g3, g4, _⟩ := hshape s hs
    exact ⟨i, by omega, p, by rw [List.getElem?_eq_getElem hi, e], hn, by rw [g4 p hp]; exact g3⟩) hv ha
  have hret : ∃ r, tr.scaleToMeetDbl (codeRoots m fuel) v a = .ok r := by
    unfold Trajectory.scaleToMeetDbl Trajectory.scaleToMeetConstraintsM
    have l1 := loop_magnitudes_return h1 h2 fuel (d := 1) (by omega) tr.segments (fun s hs => by
      obtain ⟨g1, g2, g3, g4, g5⟩ := hshape s hs
      exact ⟨g1, by omega, g3, g4, g5⟩) 0 { (Extremum.zero : Extremum Dbl) with value := dblLib.max }
      { (Extremum.zero : Extremum Dbl) with value := -dblLib.max }
    have l2 := loop_magnitudes_return h1 h2 fuel (d := 2) (by omega) tr.segments (fun s hs => by
      obtain ⟨g1, g2, g3, g4, g5⟩ := hshape s hs
      exact ⟨g1, by omega, g3, g4, fun p hp j x hj => g5 p hp j x (by omega)⟩) 0
      { (Extremum.zero : Extremum Dbl) with value := dblLib.max } { (Extremum.zero : Extremum Dbl) with value := -dblLib.max }
    obtain ⟨r1, e1⟩ := l1
    obtain ⟨r2, e2⟩ := l2
    have d1 := loop_nan (codeRoots m fuel) (D := tr.D) (d := 1) tr.segments (fun s hs => by
      obtain ⟨p, hp, hn⟩ := hnan s hs
      obtain ⟨i, hi, e⟩ := List.mem_iff_getElem.mp hp
      obtain ⟨g1, _, g3, g4, _⟩ := hshape s hs
      exact ⟨i, by omega, p, by rw [List.getElem?_eq_getElem hi, e], hn.mono (by omega), by rw [g4 p hp]; exact g3⟩)
      0 _ _ rfl r1 e1
    have d2 := loop_nan (codeRoots m fuel) (D := tr.D) (d := 2) tr.segments (fun s hs => by
      obtain ⟨p, hp, hn⟩ := hnan s hs
      obtain ⟨i, hi, e⟩ := List.mem_iff_getElem.mp hp
      obtain ⟨g1, _, g3, g4, _⟩ := hshape s hs
      exact ⟨i, by omega, p, by rw [List.getElem?_eq_getElem hi, e], hn, by rw [g4 p hp]; exact g3⟩) 0 _ _ rfl r2 e2
    rw [scaleToMeetLoopM]
    have hm : tr.maxVelocityAndAccelerationM dblLib (codeRoots m fuel) = .ok (r1.1 && r2.1, r1.2.2.value, r2.2.2.value) := by
      unfold Trajectory.maxVelocityAndAccelerationM Trajectory.computeMinMaxMagnitudeM
      dsimp only
      have e1' : minMaxMagnitudeLoopM dblLib (codeRoots m fuel) (1 : ℤ) _ _ _ _ _ = _ := e1
      have e2' : minMaxMagnitudeLoopM dblLib (codeRoots m fuel) (2 : ℤ) _ _ _ _ _ = _ := e2
      rw [e1', Res.ok_bind, e2', Res.ok_bind]
      rfl
    rw [hm, Res.ok_bind]
    dsimp only
    rw [d1, d2, if_pos ⟨min_div_le hv, min_div_le ha⟩]
    exact ⟨_, rfl⟩
  obtain ⟨r, hr⟩ := hret
  rw [hr, hsat r hr]

/-! ### A trajectory at rest -/

theorem evaluate_nz {p : Poly Dbl} {d : ℕ} (h : ∀ j x, d ≤ j → p.coeffs[j]? = some x → NZ x) (t : Dbl) :
    (p.evaluate t d).Sat NZ := by
  intro v hv
  unfold Poly.evaluate at hv
  split_ifs at hv with h1 h2
  · rw [Res.ok.injEq] at hv; rw [← hv]; exact nz_zero
  · rw [Res.ok.injEq, Int.toNat_natCast] at hv
    rw [← hv]
    have hterm : ∀ j, d ≤ j → NZ ((baseCoeff d j : Dbl) * p.coeffs.getD j 0) := by
      intro j hj
      refine NZ.mul_right ?_ _
      rw [List.getD_eq_getElem?_getD]
      cases e : p.coeffs[j]? with
      | none => exact nz_zero
      | some x => exact h j x hj e
    have key : ∀ (n : ℕ) (acc : Dbl), NZ acc → NZ (hornerDown (fun j => (baseCoeff d j : Dbl) * p.coeffs.getD j 0) t d n acc) := by
      intro n
      induction n with
      | zero => exact fun acc h => h
      | succ n ih => exact fun acc h => ih _ ((h.mul_left t).add (hterm _ (by omega)))
    exact key _ _ (hterm _ (by omega))

theorem squares_nz {s : Segment Dbl} {d : ℕ} {t : Dbl} (h : ∀ p ∈ s.polys, ∀ j x, d ≤ j → p.coeffs[j]? = some x → NZ x)
    (dims : List ℤ) : ∀ acc, NZ acc → (s.squaresG dblLib d t dims acc).Sat NZ := by
  induction dims with
  | nil => exact fun acc h => Res.sat_ok h
  | cons i dims ih =>
    intro acc ha v hv
    rw [Segment.squaresG] at hv
    split_ifs at hv
    rw [Res.bind_eq_ok] at hv
    obtain ⟨p, hp, hv⟩ := hv
    rw [Res.bind_eq_ok] at hv
    obtain ⟨w, hw, hv⟩ := hv
    have hw' := evaluate_nz (h p (List.mem_of_getElem? (Res.at'_eq_ok.mp hp))) t w hw
    exact ih _ (ha.add (hw'.mul_left _)) v hv

/-- The greatest value so far is that of the start or 0. -/
def AtRest (a : Dbl) : Prop := a = .fin (-dblMax) ∨ a = 0

theorem sqrt_nz {a : Dbl} (h : NZ a) : NZ a.sqrt := by
  rcases h with rfl | rfl
  · exact Or.inl rfl
  · right
    change (if (0 : ℝ) < 0 then Dbl.nan else Dbl.ofReal (Real.sqrt 0)) = _
    rw [if_neg (lt_irrefl _), Real.sqrt_zero, ofReal_zero]
    rfl

theorem loop_rest (rf : RootCall Dbl) {d : ℕ} (dims : List ℤ) (segs : List (Segment Dbl))
    (hsegs : ∀ s ∈ segs, ∀ p ∈ s.polys, ∀ j x, d ≤ j → p.coeffs[j]? = some x → NZ x) :
    ∀ (i : ℕ) (mn mx : Extremum Dbl), AtRest mx.value →
      (minMaxMagnitudeLoopM dblLib rf d dims segs i mn mx).Sat fun r => AtRest r.2.2.value := by
  induction segs with
  | nil => exact fun i mn mx h => Res.sat_ok h
  | cons s segs ih =>
    intro i mn mx h r hr
    rw [minMaxMagnitudeLoopM, Res.bind_eq_ok] at hr
    obtain ⟨c, hc, hr⟩ := hr
    have hval : ∀ e ∈ c.2, NZ e.value := by
      unfold Segment.magnitudeCandidatesM at hc
      rw [Res.bind_eq_ok] at hc
      obtain ⟨ct, _, hc⟩ := hc
      rw [Res.bind_eq_ok] at hc
      obtain ⟨es, hes, hc⟩ := hc
      rw [Res.pure_eq, Res.ok.injEq] at hc
      subst hc
      intro e he
      obtain ⟨t, -, ht⟩ := Res.mapM_eq_ok hes e he
      rw [Res.bind_eq_ok] at ht
      obtain ⟨m, hm, ht⟩ := ht
      rw [Res.pure_eq, Res.ok.injEq] at ht
      rw [← ht]
      exact sqrt_nz (squares_nz (hsegs s (List.mem_cons_self ..)) dims 0 nz_zero m hm)
    have hsel : AtRest (selectMinMaxMagnitudeG dblLib 0 s.time c.2 Extremum.zero Extremum.zero).2.2.value := by
      unfold selectMinMaxMagnitudeG
      split_ifs
      · exact Or.inr rfl
      · dsimp only
        have hst : AtRest ({ (Extremum.zero : Extremum Dbl) with value := -dblLib.max } : Extremum Dbl).value := Or.inl rfl
        generalize ({ (Extremum.zero : Extremum Dbl) with value := -dblLib.max } : Extremum Dbl) = b at hst
        generalize ({ (Extremum.zero : Extremum Dbl) with value := dblLib.max } : Extremum Dbl) = a
        generalize c.2 = es at hval
        induction es generalizing a b with
        | nil => exact hst
        | cons e es ih' =>
          rw [List.foldl_cons]
          split_ifs
          · exact ih' b hst a (fun x hx => hval x (List.mem_cons_of_mem _ hx))
          · refine ih' _ ?_ _ (fun x hx => hval x (List.mem_cons_of_mem _ hx))
            unfold Extremum.stdMax
            split_ifs with hlt
            · rcases hval e (List.mem_cons_self ..) with hn | hz
              · rw [hn] at hlt; exact absurd hlt (not_lt_nan _)
              · exact Or.inr hz
            · exact hst
    dsimp only at hr
    split_ifs at hr with g1 g2
    · rw [Res.pure_eq, Res.ok.injEq] at hr; rw [← hr]; exact h
    · rw [Res.pure_eq, Res.ok.injEq] at hr; rw [← hr]; exact h
    all_goals
      refine ih (fun x hx => hsegs x (List.mem_cons_of_mem _ hx)) _ _ _ ?_ r hr
      first | exact hsel | exact h

theorem rest_div_le {x v : Dbl} (hx : AtRest x) (hv : Above v) : x / v ≤ dblLim := by
  rcases hx with rfl | rfl
  · exact min_div_le hv
  · obtain ⟨z, hz, e⟩ := lim_pos
    rw [e]
    rcases hv with rfl | ⟨x, hx, rfl⟩
    · exact hz
    · change (if x = 0 then _ else Dbl.ofReal (0 / x)) ≤ _
      rw [if_neg hx.ne', zero_div, ofReal_zero]
      exact hz

/-- A trajectory whose coefficients from the second on are all 0 or NaN. -/
theorem scale_rest {m : RMath Dbl} (h1 : m.fabs = Dbl.abs) (h2 : m.dblMin = .fin ((2 : ℝ) ^ (-1022 : ℤ))) (fuel : ℕ)
    {tr : Trajectory Dbl} (hshape : ∀ s ∈ tr.segments, s.polys.length = tr.D ∧ 3 ≤ s.N ∧ s.N ≤ 22 ∧ (∀ p ∈ s.polys, p.N = s.N) ∧
      ∀ p ∈ s.polys, ∀ j x, 1 ≤ j → p.coeffs[j]? = some x → NZ x) {v a : Dbl} (hv : Above v) (ha : Above a) :
    tr.scaleToMeetDbl (codeRoots m fuel) v a = .ok (true, tr) := by
  unfold Trajectory.scaleToMeetDbl Trajectory.scaleToMeetConstraintsM
  have l1 := loop_magnitudes_return h1 h2 fuel (d := 1) (by omega) tr.segments (fun s hs => by
    obtain ⟨g1, g2, g3, g4, g5⟩ := hshape s hs
    exact ⟨g1, by omega, g3, g4, fun p hp j x hj => g5 p hp j x (by omega)⟩) 0
    { (Extremum.zero : Extremum Dbl) with value := dblLib.max } { (Extremum.zero : Extremum Dbl) with value := -dblLib.max }
  have l2 := loop_magnitudes_return h1 h2 fuel (d := 2) (by omega) tr.segments (fun s hs => by
    obtain ⟨g1, g2, g3, g4, g5⟩ := hshape s hs
    exact ⟨g1, by omega, g3, g4, fun p hp j x hj => g5 p hp j x (by omega)⟩) 0
    { (Extremum.zero : Extremum Dbl) with value := dblLib.max } { (Extremum.zero : Extremum Dbl) with value := -dblLib.max }
  obtain ⟨r1, e1⟩ := l1
  obtain ⟨r2, e2⟩ := l2
  have d1 := loop_rest (codeRoots m fuel) (d := 1) _ tr.segments (fun s hs => (hshape s hs).2.2.2.2) 0 _ _ (Or.inl rfl) r1 e1
  have d2 := loop_rest (codeRoots m fuel) (d := 2) _ tr.segments
    (fun s hs p hp j x hj => (hshape s hs).2.2.2.2 p hp j x (by omega)) 0 _ _ (Or.inl rfl) r2 e2
  rw [scaleToMeetLoopM]
  have hm : tr.maxVelocityAndAccelerationM dblLib (codeRoots m fuel) = .ok (r1.1 && r2.1, r1.2.2.value, r2.2.2.value) := by
    unfold Trajectory.maxVelocityAndAccelerationM Trajectory.computeMinMaxMagnitudeM
    dsimp only
    have e1' : minMaxMagnitudeLoopM dblLib (codeRoots m fuel) (1 : ℤ) _ _ _ _ _ = _ := e1
    have e2' : minMaxMagnitudeLoopM dblLib (codeRoots m fuel) (2 : ℤ) _ _ _ _ _ = _ := e2
    rw [e1', Res.ok_bind, e2', Res.ok_bind]
    rfl
  rw [hm, Res.ok_bind]
  dsimp only
  rw [if_pos ⟨rest_div_le d1 hv, rest_div_le d2 ha⟩]
  rfl

end Verif
