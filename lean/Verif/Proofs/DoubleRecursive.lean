import Verif.Proofs.DoubleChecks

/-
Lemmas about the recursive check with NaN.
-/
namespace Verif

open Spec

variable {dot : Dot Dbl} {ic : InputConstraints Dbl} {g : Fin 3 → Dbl} {s : Segment Dbl}

/-- The extrema of an axis are numbers. -/
theorem axisMinMax_ne_nan {d : ℤ} {roots : List (List (Dbl × Dbl))} {t1 t2 : Dbl} {i : ℕ} {m : Dbl × Dbl}
    (h : axisMinMaxG (dblFeasLib dot) s d roots t1 t2 i = .ok m) : m.1 ≠ .nan ∧ m.2 ≠ .nan := by
  unfold axisMinMaxG at h
  rw [Res.bind_eq_ok] at h
  obtain ⟨p, -, h⟩ := h
  rw [Res.bind_eq_ok] at h
  obtain ⟨r, -, h⟩ := h
  rw [Res.bind_eq_ok] at h
  obtain ⟨o, h1, h⟩ := h
  cases o with
  | none =>
    dsimp only at h
    rw [Res.pure_eq, Res.ok.injEq] at h
    subst h
    exact ⟨by change Dbl.fin 0 ≠ _; simp, by change Dbl.fin 0 ≠ _; simp⟩
  | some mm =>
    dsimp only at h
    rw [Res.pure_eq, Res.ok.injEq] at h
    subst h
    unfold Poly.selectMinMaxFromRootsG at h1
    split at h1
    · simp at h1
    · exact select_ne_nan h1

/-- The extrema of an axis whose derivative is NaN: the largest number and its negative. -/
theorem axisMinMax_nan {d : ℕ} {roots : List (List (Dbl × Dbl))} {t1 t2 : Dbl} {i : ℕ} {m : Dbl × Dbl}
    (h : axisMinMaxG (dblFeasLib dot) s d roots t1 t2 i = .ok m) (h1 : NN t1) (h2 : NN t2) (h12 : ¬ t1 > t2) {p : Poly Dbl}
    (hp : s.polys[i]? = some p) (hn : NanValued p d) : m = (.fin dblMax, .fin (-dblMax)) := by
  unfold axisMinMaxG at h
  rw [Res.bind_eq_ok] at h
  obtain ⟨q, hq, h⟩ := h
  unfold Segment.get at hq
  have hi := (List.getElem?_eq_some_iff.mp hp).1
  rw [Res.check_of (by exact hi), Res.ok_bind, Res.at'_of_lt hi, Res.ok.injEq, (List.getElem?_eq_some_iff.mp hp).2] at hq
  subst hq
  rw [Res.bind_eq_ok] at h
  obtain ⟨r, -, h⟩ := h
  rw [Res.bind_eq_ok] at h
  obtain ⟨o, h3, h⟩ := h
  unfold Poly.selectMinMaxFromRootsG at h3
  cases hc : candidatesG (dblFeasLib dot).abs (dblFeasLib dot).eps t1 t2 r with
  | none =>
    unfold candidatesG at hc
    rw [if_neg h12] at hc
    simp at hc
  | some c =>
    rw [hc] at h3
    obtain ⟨h4, h5⟩ := candidatesG_mem h1 h2 hc
    obtain ⟨mm, rfl, e1, e2⟩ := select_nan h3 h4 fun t ht => hn t (h5 t ht)
    dsimp only at h
    rw [Res.pure_eq, Res.ok.injEq, e1, e2] at h
    exact h.symm

theorem maxAbs_max (dot : Dot Dbl) : Big (maxAbsG (dblFeasLib dot) (.fin dblMax) (.fin (-dblMax))) := by
  have := dblMax_big
  have h2 : (2 : ℝ) ^ (600 : ℤ) ≤ (2 : ℝ) ^ (1000 : ℤ) := zpow_le_zpow_right₀ (by norm_num) (by norm_num)
  have h3 : (2 : ℝ) ^ (600 : ℤ) ≤ |dblMax| := by
    refine le_trans ?_ (le_abs_self _)
    generalize (2 : ℝ) ^ (600 : ℤ) = A at *
    generalize (2 : ℝ) ^ (1000 : ℤ) = B at *
    linarith
  exact Big.max (Or.inl ⟨_, h3, rfl⟩) (Or.inl ⟨_, by rwa [abs_neg], rfl⟩)

theorem maxAbs_max_add (dot : Dot Dbl) {x : ℝ} (hx : |x| ≤ 100) :
    Big (maxAbsG (dblFeasLib dot) (.fin dblMax + .fin x) (.fin (-dblMax) + .fin x)) := by
  have := dblMax_big
  have h1 : (100 : ℝ) ≤ (2 : ℝ) ^ (7 : ℤ) := by norm_num
  have h2 : (2 : ℝ) ^ (7 : ℤ) ≤ (2 : ℝ) ^ (600 : ℤ) := zpow_le_zpow_right₀ (by norm_num) (by norm_num)
  have h3 : 2 * (2 : ℝ) ^ (600 : ℤ) ≤ (2 : ℝ) ^ (1000 : ℤ) := by
    rw [← zpow_one_add₀ (by norm_num)]
    exact zpow_le_zpow_right₀ (by norm_num) (by norm_num)
  obtain ⟨a, b⟩ := abs_le.mp hx
  refine Big.max (big_abs_ofReal ?_) (big_abs_ofReal ?_)
  · refine le_trans ?_ (le_abs_self _)
    generalize (2 : ℝ) ^ (600 : ℤ) = A at *
    generalize (2 : ℝ) ^ (1000 : ℤ) = B at *
    generalize (2 : ℝ) ^ (7 : ℤ) = C at *
    linarith
  · refine le_trans ?_ (neg_le_abs _)
    generalize (2 : ℝ) ^ (600 : ℤ) = A at *
    generalize (2 : ℝ) ^ (1000 : ℤ) = B at *
    generalize (2 : ℝ) ^ (7 : ℤ) = C at *
    linarith

theorem maxAbs_nn (dot : Dot Dbl) {a b : Dbl} (ha : a ≠ .nan) (hb : b ≠ .nan) : NN (maxAbsG (dblFeasLib dot) a b) :=
  (nn_abs ha).max (nn_abs hb)

/-- The bound on the squared speed is infinite when the velocity of one axis is NaN. -/
theorem velocityLoop_nan {lim : Dbl} {roots : List (List (Dbl × Dbl))} {t1 t2 : Dbl} (h1 : NN t1) (h2 : NN t2)
    (h12 : ¬ t1 > t2) {i : ℕ} {p : Poly Dbl} (hp : s.polys[i]? = some p) (hn : NanValued p 1) (is : List ℕ) :
    ∀ acc r, NN acc → velocityLoopG (dblFeasLib dot) s lim roots t1 t2 is acc = .ok r →
      r = .inl .velocity ∨ ∃ v, r = .inr v ∧ NN v ∧ (acc = .inf false ∨ i ∈ is → v = .inf false) := by
  induction is with
  | nil =>
    intro acc r hacc h
    rw [velocityLoopG, Res.ok.injEq] at h
    refine Or.inr ⟨acc, h.symm, hacc, ?_⟩
    rintro (h | h)
    · exact h
    · simp at h
  | cons j is ih =>
    intro acc r hacc h
    rw [velocityLoopG, Res.bind_eq_ok] at h
    obtain ⟨m, hm, h⟩ := h
    obtain ⟨n1, n2⟩ := axisMinMax_ne_nan hm
    split_ifs at h with hc
    · rw [Res.pure_eq, Res.ok.injEq] at h
      exact Or.inl h.symm
    · have hM := maxAbs_nn dot n1 n2
      have hS : NN ((dblFeasLib dot).pow2 (maxAbsG (dblFeasLib dot) m.1 m.2)) := nn_sq hM.ne_nan
      rcases ih _ _ (hacc.add hS) h with h' | ⟨v, e, hv, hi⟩
      · exact Or.inl h'
      · refine Or.inr ⟨v, e, hv, ?_⟩
        rintro (h' | h')
        · exact hi (Or.inl (by rw [h']; exact hS.inf_add))
        · rcases List.mem_cons.mp h' with rfl | h'
          · have := axisMinMax_nan (d := 1) hm h1 h2 h12 hp hn
            subst this
            refine hi (Or.inl ?_)
            have : (dblFeasLib dot).pow2 (maxAbsG (dblFeasLib dot) (.fin dblMax) (.fin (-dblMax))) = .inf false :=
              (maxAbs_max dot).sq
            rw [this]
            exact hacc.add_inf
          · exact hi (Or.inr h')

/-- The upper bound on the squared thrust is infinite when the acceleration of one axis is NaN. -/
theorem thrustLoop_nan (hg : ∀ j, ∃ x, |x| ≤ 100 ∧ g j = .fin x) {roots : List (List (Dbl × Dbl))} {t1 t2 : Dbl}
    (h1 : NN t1) (h2 : NN t2) (h12 : ¬ t1 > t2) {i : Fin 3} {p : Poly Dbl} (hp : s.polys[(i : ℕ)]? = some p)
    (hn : NanValued p 2) (is : List (Fin 3)) :
    ∀ acc r, NN acc.2 → thrustLoopG (dblFeasLib dot) ic g s roots t1 t2 is acc = .ok r →
      r = .inl .thrustHigh ∨ ∃ v, r = .inr v ∧ NN v.2 ∧ (acc.2 = .inf false ∨ i ∈ is → v.2 = .inf false) := by
  induction is with
  | nil =>
    intro acc r hacc h
    rw [thrustLoopG, Res.ok.injEq] at h
    refine Or.inr ⟨acc, h.symm, hacc, ?_⟩
    rintro (h | h)
    · exact h
    · simp at h
  | cons j is ih =>
    intro acc r hacc h
    rw [thrustLoopG, Res.bind_eq_ok] at h
    obtain ⟨m, hm, h⟩ := h
    dsimp only at h
    obtain ⟨n1, n2⟩ := axisMinMax_ne_nan hm
    obtain ⟨x, hx, hgj⟩ := hg j
    have hadd : ∀ a : Dbl, a ≠ .nan → a + g j ≠ .nan := by
      intro a ha
      rw [hgj]
      cases a with
      | fin y => exact ofReal_ne_nan _
      | inf r => change Dbl.inf r ≠ _; simp
      | nan => exact absurd rfl ha
    split_ifs at h with hc
    · rw [Res.pure_eq, Res.ok.injEq] at h
      exact Or.inl h.symm
    · have hM := maxAbs_nn dot (hadd _ n1) (hadd _ n2)
      have hS : NN ((dblFeasLib dot).pow2 (maxAbsG (dblFeasLib dot) (m.1 + g j) (m.2 + g j))) := nn_sq hM.ne_nan
      rcases ih _ _ (hacc.add hS) h with h' | ⟨v, e, hv, hi⟩
      · exact Or.inl h'
      · refine Or.inr ⟨v, e, hv, ?_⟩
        rintro (h' | h')
        · exact hi (Or.inl (by dsimp only; rw [h']; exact hS.inf_add))
        · rcases List.mem_cons.mp h' with rfl | h'
          · have := axisMinMax_nan (d := 2) hm h1 h2 h12 hp hn
            subst this
            refine hi (Or.inl ?_)
            dsimp only
            have : (dblFeasLib dot).pow2 (maxAbsG (dblFeasLib dot) (.fin dblMax + g i) (.fin (-dblMax) + g i)) = .inf false := by
              rw [hgj]
              exact (maxAbs_max_add dot hx).sq
            rw [this]
            exact hacc.add_inf
          · exact hi (Or.inr h')

theorem velocityLoop_inl {lim : Dbl} {roots : List (List (Dbl × Dbl))} {t1 t2 : Dbl} (is : List ℕ) :
    ∀ acc r, velocityLoopG (dblFeasLib dot) s lim roots t1 t2 is acc = .ok (.inl r) → r = .velocity := by
  induction is with
  | nil => intro acc r h; simp [velocityLoopG] at h
  | cons j is ih =>
    intro acc r h
    rw [velocityLoopG, Res.bind_eq_ok] at h
    obtain ⟨m, -, h⟩ := h
    split_ifs at h with hc
    · rw [Res.pure_eq, Res.ok.injEq, Sum.inl.injEq] at h
      exact h.symm
    · exact ih _ _ h

theorem thrustLoop_inl {roots : List (List (Dbl × Dbl))} {t1 t2 : Dbl} (is : List (Fin 3)) :
    ∀ acc r, thrustLoopG (dblFeasLib dot) ic g s roots t1 t2 is acc = .ok (.inl r) → r = .thrustHigh := by
  induction is with
  | nil => intro acc r h; simp [thrustLoopG] at h
  | cons j is ih =>
    intro acc r h
    rw [thrustLoopG, Res.bind_eq_ok] at h
    obtain ⟨m, -, h⟩ := h
    dsimp only at h
    split_ifs at h with hc
    · rw [Res.pure_eq, Res.ok.injEq, Sum.inl.injEq] at h
      exact h.symm
    · exact ih _ _ h

theorem fin_lt_inf (x : ℝ) : Dbl.fin x < .inf false := rfl

/-- An infinite bound on a limited quantity: the section is not accepted. -/
theorem classify_inf {fMin fMax vMax j : Dbl} {x : ℝ}
    (h : (ic.getConstraint kVMax = some (.fin x) ∧ vMax = .inf false) ∨
      (ic.getConstraint kFMax = some (.fin x) ∧ fMax = .inf false)) :
    classifyG (dblFeasLib dot) ic fMin fMax vMax j ≠ some .feasible := by
  have hs : (dblFeasLib dot).sqrt (.inf false) = .inf false := rfl
  unfold classifyG
  dsimp only
  generalize (if fMin > (dblFeasLib dot).tiny then (dblFeasLib dot).sqrt (j / fMin) else (dblFeasLib dot).max) = w
  split_ifs with c1 c2 c3
  · simp
  · simp
  · simp
  · exfalso
    refine c3 ?_
    rcases h with ⟨h1, rfl⟩ | ⟨h1, rfl⟩
    · refine Or.inr (Or.inr (Or.inl ?_))
      unfold limitSuchThatG
      rw [h1, hs]
      exact decide_eq_true (fin_lt_inf x)
    · refine Or.inr (Or.inl ?_)
      unfold limitSuchThatG
      rw [h1, hs]
      exact decide_eq_true (fin_lt_inf x)

/-- A limit on the speed and a NaN velocity, or a limit on the thrust and a NaN acceleration, in one of the first three axes. -/
def NanLimited (ic : InputConstraints Dbl) (s : Segment Dbl) : Prop :=
  ∃ (i : Fin 3) (p : Poly Dbl) (x : ℝ), s.polys[(i : ℕ)]? = some p ∧
    ((ic.getConstraint kVMax = some (.fin x) ∧ NanValued p 1) ∨ (ic.getConstraint kFMax = some (.fin x) ∧ NanValued p 2))

theorem sectionCheck_nan (hg : ∀ j, ∃ x, |x| ≤ 100 ∧ g j = .fin x) (hl : NanLimited ic s) {ra rj rs : List (List (Dbl × Dbl))}
    {t1 t2 : Dbl} (h1 : NN t1) (h2 : NN t2) (h12 : ¬ t1 > t2) :
    sectionCheckG (dblFeasLib dot) ic g s ra rj rs t1 t2 ≠ .ok (some .feasible) := by
  intro h
  unfold sectionCheckG at h
  rw [Res.bind_eq_ok] at h
  obtain ⟨a, ha, h⟩ := h
  cases a with
  | some r =>
    dsimp only at h
    rw [Res.pure_eq, Res.ok.injEq, Option.some.injEq] at h
    subst h
    unfold thrustAtEndsG at ha
    split_ifs at ha
    · rw [Res.bind_eq_ok] at ha
      obtain ⟨f1, -, ha⟩ := ha
      rw [Res.bind_eq_ok] at ha
      obtain ⟨f2, -, ha⟩ := ha
      split_ifs at ha <;> simp [Res.pure_eq] at ha
    · simp at ha
  | none =>
  dsimp only at h
  rw [Res.bind_eq_ok] at h
  obtain ⟨b, hb, h⟩ := h
  cases b with
  | some r =>
    dsimp only at h
    rw [Res.pure_eq, Res.ok.injEq, Option.some.injEq] at h
    subst h
    unfold speedAtEndsG at hb
    split at hb
    · rw [Res.bind_eq_ok] at hb
      obtain ⟨f1, -, hb⟩ := hb
      rw [Res.bind_eq_ok] at hb
      obtain ⟨f2, -, hb⟩ := hb
      rw [Res.pure_eq, Res.ok.injEq] at hb
      split_ifs at hb
      simp at hb
    · simp at hb
  | none =>
  dsimp only at h
  rw [Res.bind_eq_ok] at h
  obtain ⟨c, hc, h⟩ := h
  cases c with
  | inl r =>
    dsimp only at h
    rw [Res.pure_eq, Res.ok.injEq, Option.some.injEq] at h
    subst h
    unfold velocityPartG at hc
    split at hc
    · exact absurd (velocityLoop_inl _ _ _ hc) (by simp)
    · simp at hc
  | inr vMax =>
  dsimp only at h
  rw [Res.bind_eq_ok] at h
  obtain ⟨f, hf, h⟩ := h
  cases f with
  | inl r =>
    dsimp only at h
    rw [Res.pure_eq, Res.ok.injEq, Option.some.injEq] at h
    subst h
    split_ifs at hf
    · exact absurd (thrustLoop_inl _ _ _ hf) (by simp)
    · simp at hf
  | inr ff =>
  obtain ⟨fMin, fMax⟩ := ff
  dsimp only at h
  rw [Res.bind_eq_ok] at h
  obtain ⟨j, -, h⟩ := h
  rw [Res.pure_eq, Res.ok.injEq] at h
  obtain ⟨i, p, x, hp, hl⟩ := hl
  refine classify_inf (x := x) ?_ h
  rcases hl with ⟨hl, hn⟩ | ⟨hl, hn⟩
  · left
    refine ⟨hl, ?_⟩
    unfold velocityPartG at hc
    rw [hl] at hc
    dsimp only at hc
    rcases velocityLoop_nan h1 h2 h12 hp hn _ _ _ nn_zero hc with h' | ⟨v, e, -, hv⟩
    · simp at h'
    · rw [Sum.inr.injEq] at e
      rw [e]
      exact hv (Or.inr (by fin_cases i <;> simp))
  · right
    refine ⟨hl, ?_⟩
    have : ic.hasConstraint kFMax = true := by
      unfold InputConstraints.hasConstraint
      unfold InputConstraints.getConstraint at hl
      rw [hl]
      rfl
    rw [if_pos (Or.inr (Or.inl this))] at hf
    rcases thrustLoop_nan hg h1 h2 h12 hp hn _ _ _ nn_zero hf with h' | ⟨v, e, -, hv⟩
    · simp at h'
    · rw [Sum.inr.injEq] at e
      subst e
      exact hv (Or.inr (by fin_cases i <;> simp))

theorem recursive_nan (hg : ∀ j, ∃ x, |x| ≤ 100 ∧ g j = .fin x) (hl : NanLimited ic s) {ra rj rs : List (List (Dbl × Dbl))}
    {minSection : Dbl} (hm : 0 < minSection) (fuel : ℕ) : ∀ t1 t2, NN t1 → NN t2 →
    recursiveFeasibilityG (dblFeasLib dot) ic g minSection s ra rj rs fuel t1 t2 ≠ .ok .feasible := by
  induction fuel with
  | zero => intro t1 t2 _ _ h; simp [recursiveFeasibilityG] at h
  | succ fuel ih =>
    intro t1 t2 h1 h2 h
    rw [recursiveFeasibilityG] at h
    by_cases h0 : t2 - t1 < minSection
    · rw [if_pos h0] at h
      simp at h
    rw [if_neg h0] at h
    have h12 : ¬ t1 > t2 := fun hc => h0 (sub_lt_of_gt hm h1 h2 hc)
    rw [Res.bind_eq_ok] at h
    obtain ⟨o, ho, h⟩ := h
    cases o with
    | some r =>
      dsimp only at h
      rw [Res.pure_eq, Res.ok.injEq] at h
      subst h
      exact sectionCheck_nan hg hl h1 h2 h12 ho
    | none =>
      dsimp only at h
      rw [Res.bind_eq_ok] at h
      obtain ⟨r1, hr1, h⟩ := h
      split_ifs at h with hr
      · subst hr
        exact ih _ _ h1 (h1.half h2) hr1
      · rw [Res.pure_eq, Res.ok.injEq] at h
        exact hr h

theorem checkRecursive_nan (hg : ∀ j, ∃ x, |x| ≤ 100 ∧ g j = .fin x) (hl : NanLimited ic s) (rf : RootCall Dbl)
    {minSection : Dbl} (hm : 0 < minSection) (fuel : ℕ) (hT : 0 ≤ s.time) :
    s.checkRecursiveDbl dot rf ic g minSection fuel ≠ .ok .feasible := by
  intro h
  unfold Segment.checkRecursiveDbl Segment.checkRecursiveG at h
  by_cases hD : s.D = 3 ∨ s.D = 4
  swap
  · rw [if_neg hD] at h
    simp at h
  rw [if_pos hD, Res.bind_eq_ok] at h
  obtain ⟨a, -, h⟩ := h
  cases a with
  | none => simp [Res.pure_eq] at h
  | some ra =>
  dsimp only at h
  rw [Res.bind_eq_ok] at h
  obtain ⟨a, -, h⟩ := h
  cases a with
  | none => simp [Res.pure_eq] at h
  | some rj =>
  dsimp only at h
  rw [Res.bind_eq_ok] at h
  obtain ⟨a, -, h⟩ := h
  cases a with
  | none => simp [Res.pure_eq] at h
  | some rs =>
  dsimp only at h
  rw [Res.bind_eq_ok] at h
  obtain ⟨r, hr, h⟩ := h
  split_ifs at h with hf
  · rw [Res.pure_eq, Res.ok.injEq] at h
    exact hf h
  · push Not at hf
    subst hf
    exact recursive_nan hg hl hm fuel _ _ nn_zero (nn_of_le hT) hr

end Verif
