import Verif.Spec.RoundedSampling
import Verif.Proofs.RoundedFeasibilityDecides
import Verif.Proofs.FeasibilitySampling

/-
Lemmas for C130: the feasibility check by sampling in floating point, and between its samples.
-/
set_option linter.unusedSectionVars false

namespace Verif

open Spec Set

variable {rnd : ℝ → ℝ} {u : ℝ}

theorem checkStateFl_spec (ic : InputConstraints (Fl rnd)) (m : MavState (Fl rnd)) :
    (checkStateG (flSampLib rnd) ic m = none ∧ StateMeetsFl ic m) ∨
    ∃ r, checkStateG (flSampLib rnd) ic m = some r ∧ r ≠ .feasible ∧ r ≠ .indeterminable ∧ StateViolatesFl ic m r := by
  have pos : ∀ {t} {p : Fl rnd → Bool}, limitSuchThatG ic t p = true → ∃ l, ic.getConstraint t = some l ∧ p l = true :=
    fun h => limitSuchThatG_true.mp h
  have neg : ∀ {t} {p : Fl rnd → Bool}, ¬ limitSuchThatG ic t p = true → ∀ l, ic.getConstraint t = some l → ¬ p l = true :=
    fun h l hl hp => h (limitSuchThatG_true.mpr ⟨l, hl, hp⟩)
  unfold checkStateG
  split
  · next h =>
    obtain ⟨l, hl, hp⟩ := pos h
    exact Or.inr ⟨_, rfl, by simp, by simp, l, hl, of_decide_eq_true hp⟩
  next h1 =>
  split
  · next h =>
    obtain ⟨l, hl, hp⟩ := pos h
    exact Or.inr ⟨_, rfl, by simp, by simp, l, hl, of_decide_eq_true hp⟩
  next h2 =>
  split
  · next h =>
    obtain ⟨l, hl, hp⟩ := pos h
    exact Or.inr ⟨_, rfl, by simp, by simp, l, hl, of_decide_eq_true hp⟩
  next h3 =>
  split
  · next h =>
    obtain ⟨l, hl, hp⟩ := pos h
    exact Or.inr ⟨_, rfl, by simp, by simp, l, hl, of_decide_eq_true hp⟩
  next h4 =>
  split
  · next h =>
    obtain ⟨l, hl, hp⟩ := pos h
    exact Or.inr ⟨_, rfl, by simp, by simp, l, hl, of_decide_eq_true hp⟩
  next h5 =>
  split
  · next h =>
    obtain ⟨l, hl, hp⟩ := pos h
    exact Or.inr ⟨_, rfl, by simp, by simp, l, hl, of_decide_eq_true hp⟩
  next h6 =>
  refine Or.inl ⟨rfl, ?_, ?_, ?_, ?_, ?_, ?_⟩
  · exact fun l hl => not_lt.mp fun hh => neg h1 l hl (decide_eq_true hh)
  · exact fun l hl => not_lt.mp fun hh => neg h2 l hl (decide_eq_true hh)
  · exact fun l hl => not_lt.mp fun hh => neg h3 l hl (decide_eq_true hh)
  · exact fun l hl => not_lt.mp fun hh => neg h4 l hl (decide_eq_true hh)
  · exact fun l hl => not_lt.mp fun hh => neg h5 l hl (decide_eq_true hh)
  · exact fun l hl => not_lt.mp fun hh => neg h6 l hl (decide_eq_true hh)

theorem Spec.StateMeetsFl.not_violates {ic : InputConstraints (Fl rnd)} {m : MavState (Fl rnd)} (hm : StateMeetsFl ic m)
    (v : Verdict) : ¬ StateViolatesFl ic m v := by
  intro hv
  cases v with
  | thrustHigh => obtain ⟨l, hl, hlt⟩ := hv; exact absurd (hm.fMax l hl) (not_le.mpr hlt)
  | thrustLow => obtain ⟨l, hl, hlt⟩ := hv; exact absurd (hm.fMin l hl) (not_le.mpr hlt)
  | velocity => obtain ⟨l, hl, hlt⟩ := hv; exact absurd (hm.vMax l hl) (not_le.mpr hlt)
  | rollPitchRates => obtain ⟨l, hl, hlt⟩ := hv; exact absurd (hm.omegaXY l hl) (not_le.mpr hlt)
  | yawRates => obtain ⟨l, hl, hlt⟩ := hv; exact absurd (hm.omegaZ l hl) (not_le.mpr hlt)
  | yawAcc => obtain ⟨l, hl, hlt⟩ := hv; exact absurd (hm.omegaZDot l hl) (not_le.mpr hlt)
  | feasible => exact hv
  | indeterminable => exact hv

theorem samplingLoopG_succ {K : Type} [Zero K] [One K] [Add K] [Mul K] [NatCast K] [LT K] [DecidableLT K] [LE K] [DecidableLE K]
    (lib : SampLib K) (conv : List (List K) → MavState K)
    (ic : InputConstraints K) (dt : K) (s : Segment K) (fuel : ℕ) (t : K) :
    samplingLoopG lib conv ic dt s (fuel + 1) t =
      if t ≤ s.time then (do
        let m ← sampledStateG lib conv s t
        match checkStateG lib ic m with
        | some r => pure r
        | none => samplingLoopG lib conv ic dt s fuel (t + dt))
      else .ok .feasible := rfl

section
variable (h : Rounding rnd u) (s : Segment (Fl rnd)) (hs : s.WF) (hD : 3 ≤ s.D)
include h hs hD

/-- All evaluations of a segment succeed. -/
theorem evaluated_exists (t : Fl rnd) : ∃ ds, Evaluated s t ds ∧ (∀ l ∈ ds, 3 ≤ l.length) ∧
    [0, 1, 2, 3, 4].mapM (fun d : ℤ => s.evaluate t d) = .ok ds := by
  have hsm : ∀ p ∈ s.polys, p.N ≤ 22 := fun p hp => by rw [hs.polysN p hp]; exact hs.small
  have ex : ∀ k : ℕ, ∃ v, s.evaluate t k = .ok v ∧ 3 ≤ v.length := by
    intro k
    obtain ⟨v, hv, hf⟩ := C99_segment h s hsm t k
    exact ⟨v, hv, by rw [← hf.length_eq]; exact hD⟩
  obtain ⟨p, hp, lp⟩ := ex 0
  obtain ⟨v, hv, lv⟩ := ex 1
  obtain ⟨a, ha, la⟩ := ex 2
  obtain ⟨j, hj, lj⟩ := ex 3
  obtain ⟨n, hn, ln⟩ := ex 4
  refine ⟨[p, v, a, j, n], ⟨p, v, a, j, n, rfl, hp, hv, ha, hj, hn⟩, ?_, ?_⟩
  · intro l hl
    simp only [List.mem_cons, List.not_mem_nil, or_false] at hl
    rcases hl with rfl | rfl | rfl | rfl | rfl <;> assumption
  · have e0 : s.evaluate t 0 = .ok p := hp
    have e1 : s.evaluate t 1 = .ok v := hv
    have e2 : s.evaluate t 2 = .ok a := ha
    have e3 : s.evaluate t 3 = .ok j := hj
    have e4 : s.evaluate t 4 = .ok n := hn
    simp only [List.mapM_cons, List.mapM_nil, e0, e1, e2, e3, e4, Res.ok_bind]
    rfl

omit h hs hD in
theorem vecHead3_all {K : Type} (ds : List (List K)) (hl : ∀ l ∈ ds, 3 ≤ l.length) : ∃ x, ds.mapM vecHead3 = .ok x := by
  induction ds with
  | nil => exact ⟨[], rfl⟩
  | cons l ds ih =>
    obtain ⟨x, hx⟩ := ih fun l' hl' => hl l' (by simp [hl'])
    have h3 := hl l (by simp)
    match l, h3 with
    | a :: b :: c :: r, _ =>
      refine ⟨![a, b, c] :: x, ?_⟩
      rw [List.mapM_cons, hx]
      rfl

/-- One sample. -/
theorem sampledStateFl_ok (conv : List (List (Fl rnd)) → MavState (Fl rnd)) (t : Fl rnd) :
    ∃ ds, Evaluated s t ds ∧ ((sampledStateG (flSampLib rnd) conv s t = .ok (conv ds) ∧
        (-2 ^ 63 - 1 < rnd (t.val * 10 ^ 9) ∧ rnd (t.val * 10 ^ 9) < 2 ^ 63)) ∨
      (sampledStateG (flSampLib rnd) conv s t = .ub ∧
        ¬ (-2 ^ 63 - 1 < rnd (t.val * 10 ^ 9) ∧ rnd (t.val * 10 ^ 9) < 2 ^ 63))) := by
  obtain ⟨ds, h1, h2, h3⟩ := evaluated_exists h s hs hD t
  obtain ⟨x, hx⟩ := vecHead3_all ds h2
  refine ⟨ds, h1, ?_⟩
  unfold sampledStateG
  rw [h3, Res.ok_bind]
  by_cases hf : -2 ^ 63 - 1 < rnd (t.val * 10 ^ 9) ∧ rnd (t.val * 10 ^ 9) < 2 ^ 63
  · left
    refine ⟨?_, hf⟩
    have : timeStampG (flSampLib rnd) t = .ok () := if_pos (decide_eq_true hf)
    rw [this, Res.ok_bind, hx]
    rfl
  · right
    refine ⟨?_, hf⟩
    have : timeStampG (flSampLib rnd) t = .ub := if_neg (by
      intro hh
      exact hf (of_decide_eq_true hh))
    rw [this]
    rfl

/-- What the result of the loop says about the samples. -/
theorem samplingLoopFl_says (conv : List (List (Fl rnd)) → MavState (Fl rnd)) (ic : InputConstraints (Fl rnd)) (dt : Fl rnd)
    (fuel a : ℕ) (r : Verdict) (hr : samplingLoopG (flSampLib rnd) conv ic dt s fuel (sampleTime dt a) = .ok r) :
    (r = .feasible ∧ ∃ m, a ≤ m ∧ s.time.val < (sampleTime dt m).val ∧ ∀ j, a ≤ j → j < m →
      (sampleTime dt j).val ≤ s.time.val ∧ ∃ ds, Evaluated s (sampleTime dt j) ds ∧ StateMeetsFl ic (conv ds)) ∨
    (r ≠ .feasible ∧ r ≠ .indeterminable ∧ ∃ m, a ≤ m ∧ (sampleTime dt m).val ≤ s.time.val ∧
      (∀ j, a ≤ j → j < m →
        (sampleTime dt j).val ≤ s.time.val ∧ ∃ ds, Evaluated s (sampleTime dt j) ds ∧ StateMeetsFl ic (conv ds)) ∧
      ∃ ds, Evaluated s (sampleTime dt m) ds ∧ StateViolatesFl ic (conv ds) r) := by
  induction fuel generalizing a with
  | zero => cases hr
  | succ fuel ih =>
    rw [samplingLoopG_succ] at hr
    by_cases hle : sampleTime dt a ≤ s.time
    · rw [if_pos hle] at hr
      obtain ⟨ds, hds, ⟨e, -⟩ | ⟨e, -⟩⟩ := sampledStateFl_ok h s hs hD conv (sampleTime dt a)
      · rw [e, Res.ok_bind] at hr
        rcases checkStateFl_spec ic (conv ds) with ⟨e2, hm⟩ | ⟨r', e2, h1, h2, hv⟩
        · rw [e2] at hr
          rcases ih (a + 1) hr with ⟨hf, m, hm1, hm2, hall⟩ | ⟨h1, h2, m, hm1, hm2, hall, hv⟩
          · refine Or.inl ⟨hf, m, by omega, hm2, fun j hj hjm => ?_⟩
            rcases Nat.eq_or_lt_of_le hj with rfl | hj
            · exact ⟨hle, ds, hds, hm⟩
            · exact hall j hj hjm
          · refine Or.inr ⟨h1, h2, m, by omega, hm2, fun j hj hjm => ?_, hv⟩
            rcases Nat.eq_or_lt_of_le hj with rfl | hj
            · exact ⟨hle, ds, hds, hm⟩
            · exact hall j hj hjm
        · rw [e2] at hr
          obtain rfl : r' = r := Res.ok.inj hr
          exact Or.inr ⟨h1, h2, a, le_rfl, hle, fun j h1 h2 => absurd h2 (by omega), ds, hds, hv⟩
      · rw [e] at hr
        cases hr
    · rw [if_neg hle] at hr
      obtain rfl : Verdict.feasible = r := Res.ok.inj hr
      exact Or.inl ⟨rfl, a, le_rfl, not_le.mp hle, fun j h1 h2 => absurd h2 (by omega)⟩

omit s hs hD in
theorem sampleTime_step (hu : u ≤ 1 / 4) {dt t T : ℝ} (hdt : 0 ≤ dt) (ht0 : 0 ≤ t) (ht : t ≤ T) (hT : 4 * u * T ≤ dt) :
    t + dt / 2 ≤ rnd (t + dt) := by
  have hu0 := rounding_nonneg h
  have h1 := (abs_le.mp (h.rel (t + dt))).1
  rw [abs_of_nonneg (by linarith)] at h1
  have h2 : u * t ≤ u * T := mul_le_mul_of_nonneg_left ht hu0
  have h3 : u * dt ≤ 1 / 4 * dt := mul_le_mul_of_nonneg_right hu hdt
  linarith

/-- The loop returns. -/
theorem samplingLoopFl_returns (hu : u ≤ 1 / 4) (conv : List (List (Fl rnd)) → MavState (Fl rnd)) (ic : InputConstraints (Fl rnd))
    (dt : Fl rnd) (hdt : 0 < dt.val) (hT : 4 * u * s.time.val ≤ dt.val) (hfit : (1 + u) * s.time.val * 10 ^ 9 < 2 ^ 63)
    (n : ℕ) (t : Fl rnd) (ht0 : 0 ≤ t.val) (hn : s.time.val - t.val < n * (dt.val / 2)) :
    ∃ r, ∀ fuel, n < fuel → samplingLoopG (flSampLib rnd) conv ic dt s fuel t = .ok r := by
  have hu0 := rounding_nonneg h
  induction n generalizing t with
  | zero =>
    refine ⟨.feasible, fun fuel hf => ?_⟩
    obtain ⟨f, rfl⟩ : ∃ f, fuel = f + 1 := ⟨fuel - 1, by omega⟩
    rw [samplingLoopG_succ, if_neg]
    intro hle
    have : t.val ≤ s.time.val := hle
    simp only [CharP.cast_eq_zero, zero_mul] at hn
    linarith
  | succ n ih =>
    by_cases hle : t ≤ s.time
    · have hle' : t.val ≤ s.time.val := hle
      obtain ⟨ds, hds, ⟨e, -⟩ | ⟨e, hne⟩⟩ := sampledStateFl_ok h s hs hD conv t
      · rcases hcs : checkStateG (flSampLib rnd) ic (conv ds) with _ | r
        · have hstep := sampleTime_step h hu hdt.le ht0 hle' hT
          obtain ⟨r, hr⟩ := ih (t + dt) (by
            change 0 ≤ rnd (t.val + dt.val)
            linarith) (by
            change s.time.val - rnd (t.val + dt.val) < _
            push_cast at hn
            linarith)
          refine ⟨r, fun fuel hf => ?_⟩
          obtain ⟨f, rfl⟩ : ∃ f, fuel = f + 1 := ⟨fuel - 1, by omega⟩
          rw [samplingLoopG_succ, if_pos hle, e, Res.ok_bind, hcs]
          exact hr f (by omega)
        · refine ⟨r, fun fuel hf => ?_⟩
          obtain ⟨f, rfl⟩ : ∃ f, fuel = f + 1 := ⟨fuel - 1, by omega⟩
          rw [samplingLoopG_succ, if_pos hle, e, Res.ok_bind, hcs]
          rfl
      · exfalso
        apply hne
        have h1 := abs_le.mp (h.rel (t.val * 10 ^ 9))
        rw [abs_of_nonneg (by positivity)] at h1
        have h2 : (1 + u) * (t.val * 10 ^ 9) ≤ (1 + u) * (s.time.val * 10 ^ 9) :=
          mul_le_mul_of_nonneg_left (by linarith) (by linarith)
        have h3 : 0 ≤ (1 - u) * (t.val * 10 ^ 9) := mul_nonneg (by linarith) (by positivity)
        constructor
        · have : (0 : ℝ) ≤ 2 ^ 63 := by positivity
          linarith [h1.1]
        · linarith [h1.2]
    · refine ⟨.feasible, fun fuel hf => ?_⟩
      obtain ⟨f, rfl⟩ : ∃ f, fuel = f + 1 := ⟨fuel - 1, by omega⟩
      rw [samplingLoopG_succ, if_neg hle]

omit s hs hD in
theorem sampleTime_nonneg (dt : Fl rnd) (hdt : 0 ≤ dt.val) (j : ℕ) : 0 ≤ (sampleTime dt j).val := by
  induction j with
  | zero => exact le_rfl
  | succ j ih =>
    change 0 ≤ rnd ((sampleTime dt j).val + dt.val)
    rw [← rnd_zero h]
    exact h.mono (by linarith)

omit s hs hD in
/-- Between two samples that follow each other there is not more than the interval and a rounding. -/
theorem sample_before (dt : Fl rnd) (hdt : 0 ≤ dt.val) {T : ℝ} (m : ℕ) (hm : T < (sampleTime dt m).val) {t : ℝ} (ht0 : 0 ≤ t)
    (ht : t ≤ T) : ∃ j < m, (sampleTime dt j).val ≤ t ∧ t - (sampleTime dt j).val ≤ (1 + u) * dt.val + u * T := by
  have hu0 := rounding_nonneg h
  induction m with
  | zero =>
    exfalso
    have : T < 0 := hm
    linarith
  | succ m ih =>
    by_cases hc : T < (sampleTime dt m).val
    · obtain ⟨j, hj, hh⟩ := ih hc
      exact ⟨j, by omega, hh⟩
    · by_cases hd : (sampleTime dt m).val ≤ t
      · refine ⟨m, by omega, hd, ?_⟩
        have h0 := sampleTime_nonneg h dt hdt m
        have h1 := (abs_le.mp (h.rel ((sampleTime dt m).val + dt.val))).2
        rw [abs_of_nonneg (by linarith)] at h1
        have h2 : T < rnd ((sampleTime dt m).val + dt.val) := hm
        have h3 : u * (sampleTime dt m).val ≤ u * T := mul_le_mul_of_nonneg_left (not_lt.mp hc) hu0
        linarith
      · -- an earlier sample
        have key : ∀ m, t < (sampleTime dt m).val → (sampleTime dt m).val ≤ T →
            ∃ j < m, (sampleTime dt j).val ≤ t ∧ t - (sampleTime dt j).val ≤ (1 + u) * dt.val + u * T := by
          intro m
          induction m with
          | zero =>
            intro h1 _
            exfalso
            have : t < 0 := h1
            linarith
          | succ m ih2 =>
            intro h1 h2
            by_cases hd2 : (sampleTime dt m).val ≤ t
            · refine ⟨m, by omega, hd2, ?_⟩
              have h0 := sampleTime_nonneg h dt hdt m
              have h3 := (abs_le.mp (h.rel ((sampleTime dt m).val + dt.val))).2
              rw [abs_of_nonneg (by linarith)] at h3
              have h4 : t < rnd ((sampleTime dt m).val + dt.val) := h1
              have h5 : u * (sampleTime dt m).val ≤ u * T := mul_le_mul_of_nonneg_left (by linarith) hu0
              linarith
            · obtain ⟨j, hj, hh⟩ := ih2 (not_le.mp hd2) (by
                by_contra hc2
                have hlt : t < (sampleTime dt m).val := not_le.mp hd2
                -- the times do not decrease by more than a rounding: use monotonicity
                have hmono : (sampleTime dt m).val ≤ (sampleTime dt (m + 1)).val := by
                  cases m with
                  | zero => exact sampleTime_nonneg h dt hdt 1
                  | succ m =>
                    change rnd ((sampleTime dt m).val + dt.val) ≤ rnd (rnd ((sampleTime dt m).val + dt.val) + dt.val)
                    calc rnd ((sampleTime dt m).val + dt.val) = rnd (rnd ((sampleTime dt m).val + dt.val)) := (h.idem _).symm
                      _ ≤ _ := h.mono (by linarith)
                linarith)
              exact ⟨j, by omega, hh⟩
        obtain ⟨j, hj, hh⟩ := key m (not_le.mp hd) (not_lt.mp hc)
        exact ⟨j, by omega, hh⟩

end

section
variable (h : Rounding rnd u) (s : Segment (Fl rnd)) (hs : s.WF)
  (g : Fin 3 → Fl rnd) (E B : ℕ → ℝ) (F : ℝ) (he : FeasErrors u s g E B F) (hD : 3 ≤ s.D) (hT : 0 ≤ s.time.val)
include h hs he hD hT

/-- Thrust and speed of a sample are those of the curve up to the errors. -/
theorem sample_near (C : ℕ → ℝ) (conv : List (List (Fl rnd)) → MavState (Fl rnd)) (t : Fl rnd) (ht0 : 0 ≤ t.val)
    (ht : t.val ≤ s.time.val) (ds : List (List (Fl rnd))) (hds : Evaluated s t ds)
    (hc : ReportsFl C g conv (Evaluated s t)) :
    |(conv ds).thrust.val - thrust (fun i => (g i).val) (realPolys s) t.val| ≤ C 2 + Real.sqrt 3 * E 2 ∧
    |(conv ds).speed.val - speed (realPolys s) t.val| ≤ C 1 + Real.sqrt 3 * E 1 := by
  have hds' := hds
  obtain ⟨p, v, a, j, n, rfl, -, hv, ha, -, -⟩ := hds
  have hx : ∀ (l : List (Fl rnd)) (x : Fin 3 → Fl rnd), vecHead3 l = .ok x → ∀ i : Fin 3, l.getD i 0 = x i := by
    intro l x hl
    match l, hl with
    | a :: b :: c :: r, hl =>
      obtain rfl : ![a, b, c] = x := Res.ok.inj hl
      intro i
      fin_cases i <;> rfl
  constructor
  · obtain ⟨a', x, e1, e2, hn⟩ := evaluate3_near h s hs g E B F he hD 2 (by omega) t ht0 ht
    have ha' : s.evaluate t (2 : ℕ) = .ok a := ha
    rw [ha'] at e1
    obtain rfl := Res.ok.inj e1
    have h1 := hc.thrust _ _ _ _ _ hds'
    have h2 : |Real.sqrt (∑ i : Fin 3, ((a.getD i 0).val + (g i).val) ^ 2) -
        thrust (fun i => (g i).val) (realPolys s) t.val| ≤ Real.sqrt 3 * E 2 := by
      refine norm3_near (eval_nonneg h s hs g E B F he hD hT 2 (by omega)) fun i => ?_
      rw [hx a x e2 i]
      change |(x i).val + (g i).val - (axisVal (realSeg s) 2 i t.val + (g i).val)| ≤ E 2
      rw [add_sub_add_right_eq_sub]
      exact hn i
    exact (abs_sub_le _ _ _).trans (add_le_add h1 h2)
  · obtain ⟨v', x, e1, e2, hn⟩ := evaluate3_near h s hs g E B F he hD 1 (by omega) t ht0 ht
    have hv' : s.evaluate t (1 : ℕ) = .ok v := hv
    rw [hv'] at e1
    obtain rfl := Res.ok.inj e1
    have h1 := hc.speed _ _ _ _ _ hds'
    have h2 : |Real.sqrt (∑ i : Fin 3, (v.getD i 0).val ^ 2) - speed (realPolys s) t.val| ≤ Real.sqrt 3 * E 1 := by
      refine norm3_near (eval_nonneg h s hs g E B F he hD hT 1 (by omega)) fun i => ?_
      rw [hx v x e2 i]
      exact hn i
    exact (abs_sub_le _ _ _).trans (add_le_add h1 h2)

/-- Thrust and speed change by a bounded amount between two times. -/
theorem quantities_near {a t τ : ℝ} (ha : 0 ≤ a) (hat : a ≤ t) (ht : t ≤ s.time.val) (hτ : t - a ≤ τ) :
    |thrust (fun i => (g i).val) (realPolys s) t - thrust (fun i => (g i).val) (realPolys s) a| ≤ Real.sqrt 3 * (B 3 * τ) ∧
    |speed (realPolys s) t - speed (realPolys s) a| ≤ Real.sqrt 3 * (B 2 * τ) := by
  have hax : ∀ k, 1 ≤ k → k ≤ 2 → ∀ i : Fin 3, |axisVal (realSeg s) k i t - axisVal (realSeg s) k i a| ≤ B (k + 1) * τ := by
    intro k h1 h2 i
    have h3 := axisVal_near (realSeg s) k i (by rw [realSeg_D]; omega) (a := a) (b := t) (t := t) (L := B (k + 1))
      (fun x hx => axisReal_below h s hs g E B F he hD (k + 1) (by omega) (by omega) i (by omega)
        ⟨by linarith [hx.1], by linarith [hx.2]⟩) ⟨hat, le_rfl⟩
    have h0 : 0 ≤ B (k + 1) := (abs_nonneg _).trans (axisReal_below h s hs g E B F he hD (k + 1) (by omega) (by omega) 0
      (by omega) (t := 0) ⟨le_rfl, hT⟩)
    exact h3.trans (mul_le_mul_of_nonneg_left hτ h0)
  constructor
  · refine norm3_near ((abs_nonneg _).trans (hax 2 (by omega) (by omega) 0)) fun i => ?_
    change |axisVal (realSeg s) 2 i t + (g i).val - (axisVal (realSeg s) 2 i a + (g i).val)| ≤ _
    rw [add_sub_add_right_eq_sub]
    exact hax 2 (by omega) (by omega) i
  · exact norm3_near ((abs_nonneg _).trans (hax 1 (by omega) (by omega) 0)) fun i => hax 1 (by omega) (by omega) i

end

/-- The same without rounding. -/
theorem quantities_near_exact (s : Segment ℝ) (hD : 3 ≤ s.D) (g : Fin 3 → ℝ) (B : ℕ → ℝ) (hB : DerivativesBelow B s.polys s.time)
    {a t τ : ℝ} (ha : 0 ≤ a) (hat : a ≤ t) (ht : t ≤ s.time) (hτ : t - a ≤ τ) :
    |thrust g s.polys t - thrust g s.polys a| ≤ variation B τ 2 ∧ |speed s.polys t - speed s.polys a| ≤ variation B τ 1 := by
  have hb : ∀ k, k ≤ 4 → ∀ i < 3, ∀ t ∈ Icc 0 s.time, |axisVal s k i t| ≤ B k := by
    intro k hk i hi t ht
    have hl : i < (valuesAt s.polys k t).length := by
      unfold valuesAt; rw [List.length_map]; exact lt_of_lt_of_le hi hD
    unfold axisVal
    rw [List.getD_eq_getElem?_getD, List.getElem?_eq_getElem hl, Option.getD_some]
    exact hB k (by omega) t ht _ (List.getElem_mem _)
  have hax : ∀ k, k ≤ 2 → ∀ i : Fin 3, |axisVal s k i t - axisVal s k i a| ≤ B (k + 1) * τ := by
    intro k h2 i
    have h3 := axisVal_near s k i (by omega) (a := a) (b := t) (t := t) (L := B (k + 1))
      (fun x hx => hb (k + 1) (by omega) i (by omega) x ⟨by linarith [hx.1], by linarith [hx.2]⟩) ⟨hat, le_rfl⟩
    have h0 : 0 ≤ B (k + 1) := (abs_nonneg _).trans (hb (k + 1) (by omega) 0 (by omega) a ⟨ha, by linarith⟩)
    exact h3.trans (mul_le_mul_of_nonneg_left hτ h0)
  constructor
  · refine norm3_near ((abs_nonneg _).trans (hax 2 (by omega) 0)) fun i => ?_
    change |axisVal s 2 i t + g i - (axisVal s 2 i a + g i)| ≤ _
    rw [add_sub_add_right_eq_sub]
    exact hax 2 (by omega) i
  · exact norm3_near ((abs_nonneg _).trans (hax 1 (by omega) 0)) fun i => hax 1 (by omega) i

theorem sampledValues_ok (s : Segment ℝ) (h : s.WF) (t : ℝ) :
    [0, 1, 2, 3, 4].mapM (fun d : ℤ => s.evaluate t d) = .ok (flatState s.polys t) := by
  have := Res.mapM_ok (l := [0, 1, 2, 3, 4]) (f := fun d : ℤ => s.evaluate t d)
    (g := fun d : ℤ => valuesAt s.polys d.toNat t) (by
      intro a ha
      have : a = ((a.toNat : ℕ) : ℤ) := by
        simp only [List.mem_cons, List.not_mem_nil, or_false] at ha
        omega
      rw [← segValue_eq_valuesAt, ← segment_evaluate_ok s h, ← this])
  rw [this]
  rfl

end Verif
