import Verif.Model.AnalysesRoots
import Verif.Proofs.MagnitudeAny
import Verif.Proofs.LinOptResult
import Verif.Proofs.ApproxRoots
import Verif.Props.MagnitudeFailure
import Verif.Props.RoundedMagnitude
import Verif.Props.RoundedLimits
import Verif.Props.RoundedHalfPlane
import Verif.Props.RpolyRounded
import Verif.Props.FeasibilityAnalytic
import Verif.Proofs.ExtremaRoots
import Mathlib.Order.Filter.AtTopBot.Basic

/-
Proofs for the analyses with the root finder of the code: with enough iterations they are the analyses with a function.
-/
set_option linter.unusedSectionVars false

namespace Verif

open Filter Spec Set

variable {K : Type}

/-- What a call of the root finder returns from some number of iterations on. -/
def SettlesOn (rc : ℕ → RootCall K) (rf : RootFinder K) (c : List K) : Prop := ∀ᶠ n in atTop, rc n c = .ok (rf c)

/-- The same for all polynomials the root finder has space for. -/
def RootLimit (rc : ℕ → RootCall K) (rf : RootFinder K) : Prop := ∀ c : List K, c.length ≤ 101 → SettlesOn rc rf c

theorem ev_bind {α β : Type} {x : ℕ → Res α} {y : Res α} {f : ℕ → α → Res β} {g : α → Res β}
    (hx : ∀ᶠ n in atTop, x n = y) (hf : ∀ a, y = .ok a → ∀ᶠ n in atTop, f n a = g a) :
    ∀ᶠ n in atTop, (x n >>= f n) = (y >>= g) := by
  cases y with
  | ok a =>
    filter_upwards [hx, hf a rfl] with n h1 h2
    rw [h1, Res.ok_bind, Res.ok_bind, h2]
  | _ =>
    filter_upwards [hx] with n h1
    rw [h1]
    rfl

theorem ev_bind_const {α β : Type} {y : Res α} {f : ℕ → α → Res β} {g : α → Res β}
    (hf : ∀ a, y = .ok a → ∀ᶠ n in atTop, f n a = g a) : ∀ᶠ n in atTop, (y >>= f n) = (y >>= g) :=
  ev_bind (x := fun _ => y) (.of_forall fun _ => rfl) hf

theorem ev_ite {α : Type} {p : Prop} [Decidable p] {x y : ℕ → α} {x' y' : α} (h1 : p → ∀ᶠ n in atTop, x n = x')
    (h2 : ¬ p → ∀ᶠ n in atTop, y n = y') : ∀ᶠ n in atTop, (if p then x n else y n) = if p then x' else y' := by
  by_cases h : p
  · simp only [if_pos h]
    exact h1 h
  · simp only [if_neg h]
    exact h2 h

theorem ev_bind_all {α β ι : Type} {x : ℕ → Res α} {y : Res α} {f : ℕ → ι → α → Res β} {g : ι → α → Res β}
    (hx : ∀ᶠ n in atTop, x n = y) (hf : ∀ a, y = .ok a → ∀ᶠ n in atTop, ∀ i, f n i a = g i a) :
    ∀ᶠ n in atTop, ∀ i, (x n >>= f n i) = (y >>= g i) := by
  cases y with
  | ok a =>
    filter_upwards [hx, hf a rfl] with n h1 h2
    intro i
    rw [h1, Res.ok_bind, Res.ok_bind, h2]
  | _ =>
    filter_upwards [hx] with n h1
    intro i
    rw [h1]
    rfl

theorem ev_ite_all {α ι : Type} {p : Prop} [Decidable p] {x y : ℕ → ι → α} {x' y' : ι → α}
    (h1 : p → ∀ᶠ n in atTop, ∀ i, x n i = x' i) (h2 : ¬ p → ∀ᶠ n in atTop, ∀ i, y n i = y' i) :
    ∀ᶠ n in atTop, ∀ i, (if p then x n i else y n i) = if p then x' i else y' i := by
  by_cases h : p
  · simp only [if_pos h]
    exact h1 h
  · simp only [if_neg h]
    exact h2 h

theorem ev_rfl_all {α ι : Type} {x : ι → α} : ∀ᶠ _ in (atTop : Filter ℕ), ∀ i, x i = x i := .of_forall fun _ _ => rfl

theorem ev_rfl {α : Type} {x : α} : ∀ᶠ _ in (atTop : Filter ℕ), x = x := .of_forall fun _ => rfl

section
variable [Zero K] [One K] [Add K] [Mul K] [Neg K] [NatCast K] [LT K] [DecidableLT K]

theorem getCoefficients_length (p : Poly K) (d : ℤ) (c : List K) (h : p.getCoefficients d = .ok c) : c.length = p.N := by
  unfold Poly.getCoefficients at h
  by_cases hd : d ≤ p.N
  · rw [Res.check_of hd, Res.ok_bind] at h
    split_ifs at h with h1 h2
    · rw [← Res.ok.inj h]
      rfl
    · rw [← Res.ok.inj h, List.length_append, List.length_map, List.length_range, List.length_replicate]
      push Not at h2
      omega
  · rw [Res.check_of_not hd] at h
    cases h

theorem computeMinMaxCandidatesM_on {rc : ℕ → RootCall K} {rf : RootFinder K} (abs : K → K) (eps : K)
    (p : Poly K) (a b : K) (d : ℤ) (hl : ∀ c, p.getCoefficients (d + 1) = .ok c → SettlesOn rc rf c) :
    ∀ᶠ n in atTop, p.computeMinMaxCandidatesM abs eps (rc n) a b d = p.computeMinMaxCandidatesG abs eps rf a b d := by
  unfold Poly.computeMinMaxCandidatesM Poly.computeMinMaxCandidatesG
  refine ev_ite (fun _ => ev_rfl) fun _ => ev_bind_const fun c hc => ?_
  filter_upwards [hl c hc] with n h
  rw [h, Res.ok_bind]
  cases candidatesG abs eps a b (rf c).2 <;> rfl

theorem computeMinMaxM_on {rc : ℕ → RootCall K} {rf : RootFinder K} (abs : K → K) (eps max : K)
    (p : Poly K) (a b : K) (d : ℤ) (hl : ∀ c, p.getCoefficients (d + 1) = .ok c → SettlesOn rc rf c) :
    ∀ᶠ n in atTop, p.computeMinMaxM abs eps max (rc n) a b d = p.computeMinMaxG abs eps max rf a b d := by
  unfold Poly.computeMinMaxM Poly.computeMinMaxG
  exact ev_bind (computeMinMaxCandidatesM_on abs eps p a b d hl) fun _ _ => ev_rfl

theorem RootLimit.coefficients {rc : ℕ → RootCall K} {rf : RootFinder K} (hl : RootLimit rc rf) (p : Poly K) (hp : p.N ≤ 101)
    (d : ℤ) : ∀ c, p.getCoefficients d = .ok c → SettlesOn rc rf c :=
  fun c hc => hl c (by rw [getCoefficients_length p _ c hc]; exact hp)

theorem computeMinMaxCandidatesM_ev {rc : ℕ → RootCall K} {rf : RootFinder K} (hl : RootLimit rc rf) (abs : K → K) (eps : K)
    (p : Poly K) (hp : p.N ≤ 101) (a b : K) (d : ℤ) :
    ∀ᶠ n in atTop, p.computeMinMaxCandidatesM abs eps (rc n) a b d = p.computeMinMaxCandidatesG abs eps rf a b d :=
  computeMinMaxCandidatesM_on abs eps p a b d (hl.coefficients p hp _)

theorem convolvedLoop_length' (s : Segment K) (d : ℤ) (nd ndd : ℕ) (dims : List ℤ) (acc c : List K)
    (h : convolvedLoop s d nd ndd dims acc = .ok (some c)) : c.length = acc.length := by
  induction dims generalizing acc with
  | nil =>
    have := Res.ok.inj h
    cases this
    rfl
  | cons dim dims ih =>
    rw [convolvedLoop] at h
    split_ifs at h with h1
    · cases h
    · rw [Res.bind_eq_ok] at h
      obtain ⟨_, _, h⟩ := h
      rw [Res.bind_eq_ok] at h
      obtain ⟨_, _, h⟩ := h
      rw [Res.bind_eq_ok] at h
      obtain ⟨_, _, h⟩ := h
      rw [Res.bind_eq_ok] at h
      obtain ⟨_, _, h⟩ := h
      rw [Res.bind_eq_ok] at h
      obtain ⟨_, _, h⟩ := h
      rw [Res.bind_eq_ok] at h
      obtain ⟨conv, _, h⟩ := h
      split_ifs at h with h2
      rw [ih _ h, List.length_zipWith, h2, Nat.min_self]

/-- A segment with at most 22 coefficients. -/
def Segment.Small (s : Segment K) : Prop := s.N ≤ 22 ∧ ∀ p ∈ s.polys, p.N ≤ 22

theorem Segment.WF.isSmall {s : Segment K} (h : s.WF) : s.Small :=
  ⟨h.small, fun p hp => by rw [h.polysN p hp]; exact h.small⟩

theorem candidateTimesM_ev {rc : ℕ → RootCall K} {rf : RootFinder K} (hl : RootLimit rc rf) (lib : MagLib K) (s : Segment K)
    (hs : s.Small) (d : ℤ) (hd : 0 ≤ d) (a b : K) (dims : List ℤ) :
    ∀ᶠ n in atTop, s.candidateTimesM lib (rc n) d a b dims = s.candidateTimesG lib rf d a b dims := by
  unfold Segment.candidateTimesM Segment.candidateTimesG
  match dims with
  | [] => exact ev_rfl
  | [dim] =>
    refine ev_ite (fun _ => ev_rfl) fun _ => ev_bind_const fun p hp => ?_
    have hmem : p ∈ s.polys := List.mem_of_getElem? (Res.at'_eq_ok.mp hp)
    exact computeMinMaxCandidatesM_ev hl _ _ p ((hs.2 p hmem).trans (by norm_num)) a b d
  | d1 :: d2 :: ds =>
    dsimp only
    refine ev_ite (fun _ => ev_rfl) fun hn => ev_bind_const fun r hr => ?_
    cases r with
    | none => exact ev_rfl
    | some c =>
      refine computeMinMaxCandidatesM_ev hl _ _ ⟨c⟩ ?_ a b (-1)
      have := convolvedLoop_length' s d _ _ _ _ c hr
      rw [List.length_replicate] at this
      change c.length ≤ 101
      have := hs.1
      omega

theorem magnitudeCandidatesM_ev {rc : ℕ → RootCall K} {rf : RootFinder K} (hl : RootLimit rc rf) (lib : MagLib K) (s : Segment K)
    (hs : s.Small) (d : ℤ) (hd : 0 ≤ d) (a b : K) (dims : List ℤ) :
    ∀ᶠ n in atTop, s.magnitudeCandidatesM lib (rc n) d a b dims = s.magnitudeCandidatesG lib rf d a b dims := by
  unfold Segment.magnitudeCandidatesM Segment.magnitudeCandidatesG
  exact ev_bind (candidateTimesM_ev hl lib s hs d hd a b dims) fun _ _ => ev_rfl

theorem minMaxMagnitudeLoopM_ev {rc : ℕ → RootCall K} {rf : RootFinder K} (hl : RootLimit rc rf) (lib : MagLib K) (d : ℤ)
    (hd : 0 ≤ d) (dims : List ℤ) (ss : List (Segment K)) (hs : ∀ s ∈ ss, s.Small) (i : ℕ) (mn mx : Extremum K) :
    ∀ᶠ n in atTop, minMaxMagnitudeLoopM lib (rc n) d dims ss i mn mx = minMaxMagnitudeLoopG lib rf d dims ss i mn mx := by
  induction ss generalizing i mn mx with
  | nil => exact ev_rfl
  | cons s ss ih =>
    simp only [minMaxMagnitudeLoopM, minMaxMagnitudeLoopG]
    refine ev_bind (magnitudeCandidatesM_ev hl lib s (hs s (by simp)) d hd 0 s.time dims) fun c _ => ?_
    refine ev_ite (fun _ => ev_rfl) fun _ => ev_ite (fun _ => ev_rfl) fun _ => ?_
    exact ih (fun s' h' => hs s' (List.mem_cons_of_mem _ h')) _ _ _

theorem computeMinMaxMagnitudeM_ev {rc : ℕ → RootCall K} {rf : RootFinder K} (hl : RootLimit rc rf) (lib : MagLib K)
    (tr : Trajectory K) (hs : ∀ s ∈ tr.segments, s.Small) (d : ℤ) (hd : 0 ≤ d) (dims : List ℤ) (mn mx : Extremum K) :
    ∀ᶠ n in atTop, tr.computeMinMaxMagnitudeM lib (rc n) d dims mn mx = tr.computeMinMaxMagnitudeG lib rf d dims mn mx := by
  unfold Trajectory.computeMinMaxMagnitudeM Trajectory.computeMinMaxMagnitudeG
  exact minMaxMagnitudeLoopM_ev hl lib d hd dims tr.segments hs 0 _ _

theorem maxVelocityAndAccelerationM_ev {rc : ℕ → RootCall K} {rf : RootFinder K} (hl : RootLimit rc rf) (lib : MagLib K)
    (tr : Trajectory K) (hs : ∀ s ∈ tr.segments, s.Small) :
    ∀ᶠ n in atTop, tr.maxVelocityAndAccelerationM lib (rc n) = tr.maxVelocityAndAccelerationG lib rf := by
  unfold Trajectory.maxVelocityAndAccelerationM Trajectory.maxVelocityAndAccelerationG
  refine ev_bind (computeMinMaxMagnitudeM_ev hl lib tr hs 1 (by norm_num) _ _ _) fun _ _ => ?_
  exact ev_bind (computeMinMaxMagnitudeM_ev hl lib tr hs 2 (by norm_num) _ _ _) fun _ _ => ev_rfl

theorem scaleLoop_length' (b x : K) (c : List K) : (scaleLoop b x c).length = c.length := by
  induction c generalizing x with
  | nil => rfl
  | cons y c ih => simp [scaleLoop, ih]

theorem scaleCore_small (tr : Trajectory K) [Div K] (c : K) (hs : ∀ s ∈ tr.segments, s.Small) :
    ∀ s ∈ (tr.scaleCore c).segments, s.Small := by
  intro s h
  obtain ⟨s', h', rfl⟩ := List.mem_map.mp h
  refine ⟨(hs s' h').1, fun p hp => ?_⟩
  obtain ⟨p', hp', rfl⟩ := List.mem_map.mp hp
  have := (hs s' h').2 p' hp'
  unfold Poly.N Poly.scaleInTime at *
  rw [scaleLoop_length']
  exact this

theorem scaleToMeetLoopM_ev [Div K] [LE K] [DecidableLE K] {rc : ℕ → RootCall K} {rf : RootFinder K} (hl : RootLimit rc rf)
    (lib : MagLib K) (lim vMax aMax : K) (k : ℕ) (tr : Trajectory K) (hs : ∀ s ∈ tr.segments, s.Small) :
    ∀ᶠ n in atTop, scaleToMeetLoopM lib lim (rc n) vMax aMax k tr = scaleToMeetLoopG lib lim rf vMax aMax k tr := by
  induction k generalizing tr with
  | zero => exact ev_rfl
  | succ k ih =>
    simp only [scaleToMeetLoopM, scaleToMeetLoopG]
    refine ev_bind (maxVelocityAndAccelerationM_ev hl lib tr hs) fun r _ => ?_
    exact ev_ite (fun _ => ev_rfl) fun _ => ih _ (scaleCore_small tr _ hs)

end

section
variable [Zero K] [One K] [Add K] [Sub K] [Mul K] [Neg K] [NatCast K] [LE K] [DecidableLE K] [LT K] [DecidableLT K]

theorem projectionG_N (s : Segment K) (n : Fin 3 → K) (p : Poly K) (h : projectionG s n = .ok p) : p.N = s.N := by
  unfold projectionG at h
  refine Res.foldlM_inv (fun q : Poly K => q.N = s.N) (by simp [Poly.N, Poly.zero]) ?_ h
  · intro a i b _ ha hb
    rw [Res.bind_eq_ok] at hb
    obtain ⟨q, _, hb⟩ := hb
    unfold Poly.add at hb
    split_ifs at hb with h1
    rw [← Res.ok.inj hb]
    unfold Poly.N at *
    rw [List.length_zipWith, h1, Nat.min_self, ← h1, ha]

theorem halfPlaneLoopM_on {rc : ℕ → RootCall K} {rf : RootFinder K} (abs : K → K) (eps : K) (dot : Dot K)
    (s : Segment K) (hps : List (HalfPlane K))
    (hl : ∀ hp ∈ hps, ∀ p, projectionG s hp.normal = .ok p → ∀ c, p.getCoefficients 1 = .ok c → SettlesOn rc rf c) :
    ∀ᶠ n in atTop, halfPlaneLoopM abs eps dot (rc n) s hps = halfPlaneLoopG abs eps dot rf s hps := by
  induction hps with
  | nil => exact ev_rfl
  | cons hp hps ih =>
    simp only [halfPlaneLoopM, halfPlaneLoopG]
    refine ev_bind_const fun p hp' => ?_
    refine ev_bind (computeMinMaxCandidatesM_on abs eps p 0 s.time 0 (hl hp (by simp) p hp')) fun c _ =>
      ev_bind_const fun b _ => ?_
    exact ev_ite (fun _ => ih fun q hq => hl q (List.mem_cons_of_mem _ hq)) fun _ => ev_rfl

theorem halfPlaneSegmentsM_on {rc : ℕ → RootCall K} {rf : RootFinder K} (abs : K → K) (eps : K) (dot : Dot K)
    (hps : List (HalfPlane K)) (ss : List (Segment K))
    (hl : ∀ s ∈ ss, ∀ hp ∈ hps, ∀ p, projectionG s hp.normal = .ok p → ∀ c, p.getCoefficients 1 = .ok c → SettlesOn rc rf c) :
    ∀ᶠ n in atTop, halfPlaneSegmentsM abs eps dot (rc n) hps ss = halfPlaneSegmentsG abs eps dot rf hps ss := by
  induction ss with
  | nil => exact ev_rfl
  | cons s ss ih =>
    simp only [halfPlaneSegmentsM, halfPlaneSegmentsG, Segment.checkHalfPlanesM, Segment.checkHalfPlanesG]
    refine ev_bind (ev_ite (fun _ => halfPlaneLoopM_on abs eps dot s hps (hl s (by simp))) fun _ => ev_rfl) fun b _ => ?_
    exact ev_ite (fun _ => ih fun s' h' => hl s' (List.mem_cons_of_mem _ h')) fun _ => ev_rfl

theorem halfPlaneSegmentsM_ev {rc : ℕ → RootCall K} {rf : RootFinder K} (hl : RootLimit rc rf) (abs : K → K) (eps : K) (dot : Dot K)
    (hps : List (HalfPlane K)) (ss : List (Segment K)) (hs : ∀ s ∈ ss, s.N ≤ 22) :
    ∀ᶠ n in atTop, halfPlaneSegmentsM abs eps dot (rc n) hps ss = halfPlaneSegmentsG abs eps dot rf hps ss :=
  halfPlaneSegmentsM_on abs eps dot hps ss fun s h hp _ p hp' => hl.coefficients p
    (by rw [projectionG_N s _ p hp']; exact (hs s h).trans (by norm_num)) 1

end

theorem segment_get_mem (s : Segment K) (i : ℕ) (p : Poly K) (h : s.get i = .ok p) : p ∈ s.polys := by
  unfold Segment.get at h
  rw [Res.bind_eq_ok] at h
  obtain ⟨_, _, h⟩ := h
  exact List.mem_of_getElem? (Res.at'_eq_ok.mp h)

section
variable [Field K] [LinearOrder K]

theorem yawCheckM_on {rc : ℕ → RootCall K} {rf : RootFinder K} (ic : InputConstraints K) (s : Segment K) (type d : ℤ)
    (bad : Verdict) (hl : ∀ p ∈ s.polys, ∀ c, p.getCoefficients (d + 1) = .ok c → SettlesOn rc rf c) :
    ∀ᶠ n in atTop, yawCheckM (rc n) ic s type d bad = yawCheck rf ic s type d bad := by
  unfold yawCheckM yawCheck
  cases ic.getConstraint type with
  | none => exact ev_rfl
  | some lim =>
    dsimp only
    refine ev_bind_const fun p hp => ?_
    have hmem : p ∈ s.polys := segment_get_mem s 3 p hp
    rw [← C114_same_code]
    exact ev_bind (computeMinMaxM_on _ _ _ p 0 s.time d (hl p hmem)) fun m _ => ev_rfl

theorem yawChecksM_on {rc : ℕ → RootCall K} {rf : RootFinder K} (ic : InputConstraints K) (s : Segment K)
    (hl : ∀ p ∈ s.polys, ∀ d : ℤ, 2 ≤ d → ∀ c, p.getCoefficients d = .ok c → SettlesOn rc rf c) :
    ∀ᶠ n in atTop, yawChecksM (rc n) ic s = yawChecks rf ic s := by
  unfold yawChecksM yawChecks
  refine ev_ite (fun _ => ?_) fun _ => ev_rfl
  refine ev_bind (yawCheckM_on ic s _ 1 _ fun p hp => hl p hp _ (by norm_num)) fun r _ => ?_
  cases r with
  | some r => exact ev_rfl
  | none => exact yawCheckM_on ic s _ 2 _ fun p hp => hl p hp _ (by norm_num)

theorem rootsLoopM_on {rc : ℕ → RootCall K} {rf : RootFinder K} (s : Segment K) (d : ℤ) (is : List ℕ)
    (acc : List (List (K × K))) (hl : ∀ p ∈ s.polys, ∀ c, p.getCoefficients d = .ok c → SettlesOn rc rf c) :
    ∀ᶠ n in atTop, rootsLoopM (rc n) s d is acc = rootsLoop rf s d is acc := by
  induction is generalizing acc with
  | nil => exact ev_rfl
  | cons i is ih =>
    simp only [rootsLoopM, rootsLoop]
    refine ev_bind_const fun p hp => ?_
    have hmem : p ∈ s.polys := segment_get_mem s i p hp
    unfold Poly.getRoots
    cases hc : p.getCoefficients d with
    | ok c =>
      simp only [Res.ok_bind, Res.pure_eq]
      filter_upwards [hl p hmem c hc, ih (acc ++ [(rf c).2])] with n h1 h2
      rw [h1, Res.ok_bind, h2]
    | _ => exact ev_rfl

theorem checkRecursiveM_on {rc : ℕ → RootCall K} {rf : RootFinder K} (sq : K → K) (ic : InputConstraints K) (g : Fin 3 → K)
    (minSection : K) (s : Segment K)
    (hl : ∀ p ∈ s.polys, ∀ d : ℤ, 2 ≤ d → ∀ c, p.getCoefficients d = .ok c → SettlesOn rc rf c) :
    ∀ᶠ n in atTop, ∀ fuel, s.checkRecursiveM (rc n) sq ic g minSection fuel =
      s.checkRecursive rf sq ic g minSection fuel := by
  unfold Segment.checkRecursiveM Segment.checkRecursive
  refine ev_ite_all (fun _ => ?_) fun _ => ev_rfl_all
  refine ev_bind_all (ev_ite (fun _ => rootsLoopM_on s 2 _ _ fun p hp => hl p hp _ (by norm_num)) fun _ => ev_rfl)
    fun ra _ => ?_
  cases ra with
  | none => exact ev_rfl_all
  | some ra =>
  dsimp only
  refine ev_bind_all (ev_ite (fun _ => rootsLoopM_on s 3 _ _ fun p hp => hl p hp _ (by norm_num)) fun _ => ev_rfl)
    fun rj _ => ?_
  cases rj with
  | none => exact ev_rfl_all
  | some rj =>
  dsimp only
  refine ev_bind_all (ev_ite (fun _ => rootsLoopM_on s 4 _ _ fun p hp => hl p hp _ (by norm_num)) fun _ => ev_rfl)
    fun rs _ => ?_
  cases rs with
  | none => exact ev_rfl_all
  | some rs =>
  dsimp only
  filter_upwards [yawChecksM_on ic s hl] with n h fuel
  rw [h]
  rfl

theorem thrustSegment_small (g : Fin 3 → K) (s ts : Segment K) (hs : s.Small) (h : thrustSegment g s = .ok ts) : ts.Small := by
  unfold thrustSegment at h
  rw [Res.bind_eq_ok] at h
  obtain ⟨ps, hps, h⟩ := h
  rw [← Res.ok.inj h]
  refine ⟨by have := hs.1; dsimp only; omega, fun p hp => ?_⟩
  obtain ⟨i, _, hi⟩ := Res.mapM_eq_ok hps p hp
  unfold thrustPoly at hi
  rw [Res.bind_eq_ok] at hi
  obtain ⟨q, _, hi⟩ := hi
  rw [Res.bind_eq_ok] at hi
  obtain ⟨c, _, hi⟩ := hi
  rw [Res.bind_eq_ok] at hi
  obtain ⟨c', hc', hi⟩ := hi
  unfold headN at hc'
  split_ifs at hc'
  have hlen : c'.length ≤ 22 := by
    rw [← Res.ok.inj hc', List.length_take]
    have := hs.1
    omega
  cases c' with
  | nil => cases hi
  | cons a as =>
    rw [← Res.ok.inj hi]
    exact hlen

theorem checkAnalyticM_ev {rc : ℕ → RootCall K} {rf : RootFinder K} (hl : RootLimit rc rf) (sq : K → K) (ic : InputConstraints K)
    (g : Fin 3 → K) (minSection : K) (s : Segment K) (hs : s.Small) :
    ∀ᶠ n in atTop, ∀ fuel, s.checkAnalyticM (rc n) sq ic g minSection fuel =
      s.checkAnalytic rf sq ic g minSection fuel := by
  have hmag : ∀ (s : Segment K), s.Small → ∀ d : ℤ, 0 ≤ d → ∀ a b dims,
      ∀ᶠ n in atTop, s.magnitudeCandidatesM (fieldLib sq) (rc n) d a b dims = s.magnitudeCandidates rf sq d a b dims := by
    intro s hs d hd a b dims
    rw [← magnitudeCandidatesG_field]
    exact magnitudeCandidatesM_ev hl (fieldLib sq) s hs d hd a b dims
  unfold Segment.checkAnalyticM Segment.checkAnalytic
  refine ev_ite_all (fun _ => ?_) fun _ => ev_rfl_all
  refine ev_ite_all (fun _ => ev_rfl_all) fun _ => ?_
  refine ev_bind_all ?_ fun t _ => ?_
  · unfold thrustPartM thrustPart
    refine ev_ite (fun _ => ev_bind ?_ fun _ _ => ev_rfl) fun _ => ev_rfl
    unfold analyticThrustM analyticThrust
    exact ev_bind_const fun ts hts => ev_bind (hmag ts (thrustSegment_small g s ts hs hts) 0 le_rfl _ _ _) fun c _ => ev_rfl
  refine ev_ite_all (fun _ => ev_rfl_all) fun _ => ?_
  refine ev_bind_all ?_ fun v _ => ?_
  · unfold analyticVelocityM analyticVelocity
    cases ic.getConstraint kVMax with
    | none => exact ev_rfl
    | some lim => exact ev_bind (hmag s hs 1 (by norm_num) _ _ _) fun c _ => ev_rfl
  cases v with
  | some v => exact ev_rfl_all
  | none =>
  dsimp only
  refine ev_bind_all (yawChecksM_on ic s fun p hp d _ => hl.coefficients p ((hs.2 p hp).trans (by norm_num)) d) fun y _ => ?_
  cases y with
  | some v => exact ev_rfl_all
  | none =>
  dsimp only
  refine ev_ite_all (fun _ => ?_) fun _ => ev_rfl_all
  exact ev_bind_all (hmag s hs 3 (by norm_num) _ _ _) fun j _ => ev_rfl_all

end

theorem maxVA_any (rf : RootFinder ℝ) (tr : Trajectory ℝ) (h : tr.WF) (hne : tr.segments ≠ []) (hD : 0 < tr.D) (hN : 3 ≤ tr.N)
    (hfin : FiniteVA tr) :
    ∃ v a, tr.maxVelocityAndAcceleration rf Real.sqrt = .ok (true, v, a) ∧
      (∀ s ∈ tr.segments, (magnitude s.polys (List.range tr.D) 1 0 ≤ v ∧ magnitude s.polys (List.range tr.D) 1 s.time ≤ v) ∧
        magnitude s.polys (List.range tr.D) 2 0 ≤ a ∧ magnitude s.polys (List.range tr.D) 2 s.time ≤ a) ∧
      (∃ s ∈ tr.segments, ∃ t ∈ Icc 0 s.time, v = magnitude s.polys (List.range tr.D) 1 t) ∧
      (∃ s ∈ tr.segments, ∃ t ∈ Icc 0 s.time, a = magnitude s.polys (List.range tr.D) 2 t) := by
  have hr : List.range tr.D ≠ [] := by
    intro h0; have := congrArg List.length h0; simp at this; omega
  obtain ⟨mn1, mx1, a1, ⟨a3, a4, a5⟩, _, a2⟩ := C85_attained_partial rf tr h hne 1 (by omega)
    (by norm_num) (List.range tr.D) hr (fun d hd => List.mem_range.mp hd)
    (fun s hs => (hfin s hs 0 ⟨le_rfl, h.nonneg s hs⟩).1) Extremum.zero Extremum.zero
  obtain ⟨mn2, mx2, b1, ⟨b3, b4, b5⟩, _, b2⟩ := C85_attained_partial rf tr h hne 2 (by omega)
    (by norm_num) (List.range tr.D) hr (fun d hd => List.mem_range.mp hd)
    (fun s hs => (hfin s hs 0 ⟨le_rfl, h.nonneg s hs⟩).2) Extremum.zero Extremum.zero
  refine ⟨mx1.value, mx2.value, ?_, ?_, ?_, ?_⟩
  · unfold Trajectory.maxVelocityAndAcceleration
    simp only [asInts_range]
    have e1 : tr.computeMinMaxMagnitude rf Real.sqrt 1 (asInts (List.range tr.D)) Extremum.zero
      Extremum.zero = .ok (true, mn1, mx1) := a1
    have e2 : tr.computeMinMaxMagnitude rf Real.sqrt 2 (asInts (List.range tr.D)) Extremum.zero
      Extremum.zero = .ok (true, mn2, mx2) := b1
    rw [e1, e2]
    rfl
  · intro s hs
    exact ⟨(a2 s hs).2.2, (b2 s hs).2.2⟩
  · exact ⟨_, List.getElem_mem a3, _, a4, a5⟩
  · exact ⟨_, List.getElem_mem b3, _, b4, b5⟩

theorem scaleLoop_any (rf : RootFinder ℝ) (tr : Trajectory ℝ) (hD : 0 < tr.D) (hN : 3 ≤ tr.N) (hfin : FiniteVA tr)
    (vMax aMax : ℝ) (hv : 0 < vMax) (ha : 0 < aMax) (n : ℕ) (r0 : Trajectory ℝ) (c0 : ℝ) (h0 : Slowed tr r0 c0) :
    ∃ b r c, scaleToMeetLoop rf Real.sqrt vMax aMax n r0 = .ok (b, r) ∧ Slowed tr r c ∧
      (b = true → ∀ s ∈ r.segments, ∀ t, t = 0 ∨ t = s.time →
        magnitude s.polys (List.range tr.D) 1 t ≤ (1 + 1 / 1000) * vMax ∧
        magnitude s.polys (List.range tr.D) 2 t ≤ (1 + 1 / 1000) * aMax) := by
  induction n generalizing r0 c0 with
  | zero => exact ⟨false, r0, c0, rfl, h0, by simp⟩
  | succ n ih =>
    obtain ⟨v, a, h1, h2, _, _⟩ := maxVA_any rf r0 h0.wf h0.ne (by rw [h0.D]; exact hD)
      (by rw [h0.N]; exact hN) (h0.finite hfin)
    by_cases hin : v / vMax ≤ 1 + 1 / 1000 ∧ a / aMax ≤ 1 + 1 / 1000
    · refine ⟨true, r0, c0, ?_, h0, ?_⟩
      · rw [scaleToMeetLoop, h1, Res.ok_bind]
        simp only
        rw [if_pos hin]; rfl
      · intro _ s hs t ht
        rw [div_le_iff₀ hv, div_le_iff₀ ha] at hin
        have := h2 s hs
        rw [h0.D] at this
        rcases ht with rfl | rfl
        · exact ⟨this.1.1.trans hin.1, this.2.1.trans hin.2⟩
        · exact ⟨this.1.2.trans hin.1, this.2.2.trans hin.2⟩
    · obtain ⟨b, r, c, e1, e2, e3⟩ := ih (r0.scaleCore (max 1 (max (v / vMax) (Real.sqrt (a / aMax)))))
        _ (h0.scale (le_max_left _ _))
      refine ⟨b, r, c, ?_, e2, e3⟩
      rw [scaleToMeetLoop, h1, Res.ok_bind]
      simp only
      rw [if_neg hin]
      exact e1

/-- The root finder of the code has a limit, with rounding. -/
theorem codeRoots_limit {rnd : ℝ → ℝ} {u : ℝ} (h : Rounding rnd u) (hu : u ≤ 1 / 10 ^ 11) (m : RMath (Fl rnd))
    (hm : RoundedMath m) : ∃ rf : RootFinder (Fl rnd), RootLimit (codeRoots m) rf := by
  have : ∀ c : List (Fl rnd), ∃ r : Bool × List (Fl rnd × Fl rnd), c.length ≤ 101 → ∀ᶠ n in atTop, codeRoots m n c = .ok r := by
    intro c
    by_cases hc : c.length ≤ 101
    · obtain ⟨F, r, hF⟩ := C123_returns h hu m hm c hc
      refine ⟨(r.1, r.2.getD []), fun _ => eventually_atTop.mpr ⟨F, fun n hn => ?_⟩⟩
      unfold codeRoots
      rw [hF n hn]
      rfl
    · exact ⟨(false, []), fun h => absurd h hc⟩
  choose rf hrf using this
  exact ⟨rf, fun c hc => hrf c hc⟩

/-- The root finder of the code has a limit, without rounding. -/
theorem codeRoots_limit_exact (m : RMath ℝ) (hm : ExactMath m) : ∃ rf : RootFinder ℝ, RootLimit (codeRoots m) rf := by
  have : ∀ c : List ℝ, ∃ r : Bool × List (ℝ × ℝ), c.length ≤ 101 → ∀ᶠ n in atTop, codeRoots m n c = .ok r := by
    intro c
    by_cases hc : c.length ≤ 101
    · obtain ⟨F, r, hF⟩ := C62_returns m hm c hc
      refine ⟨(r.1, r.2.getD []), fun _ => eventually_atTop.mpr ⟨F, fun n hn => ?_⟩⟩
      unfold codeRoots
      rw [hF n hn]
      rfl
    · exact ⟨(false, []), fun h => absurd h hc⟩
  choose rf hrf using this
  exact ⟨rf, fun c hc => hrf c hc⟩

/-! #### polynomials of degree at most two -/

/-- Coefficients of a polynomial of degree at most two that are zero or not too small for the root finder. -/
structure LowCoeffs (m : RMath ℝ) (c : List ℝ) : Prop where
  length : c.length ≤ 101
  degree : ∀ j, 3 ≤ j → c.getD j 0 = 0
  normal : ∀ j, c.getD j 0 = 0 ∨ m.dblMin ≤ |c.getD j 0|

theorem zeros_of_getD {l : List ℝ} (h : ∀ j, l.getD j 0 = 0) : ∀ t ∈ l, t = 0 := by
  intro t ht
  obtain ⟨j, hj, rfl⟩ := List.mem_iff_getElem.mp ht
  have := h j
  rwa [List.getD_eq_getElem?_getD, List.getElem?_eq_getElem hj] at this

theorem low_constant (m : RMath ℝ) (hm : ExactMath m) (fuel : ℕ) (c0 : ℝ) (tail : List ℝ) (ht : ∀ t ∈ tail, t = 0) :
    ∃ zs, findRoots m fuel (c0 :: tail) = .ok (true, some zs) ∧
      (c0 ≠ 0 → ∀ x : ℝ, c0 = 0 → (x, (0 : ℝ)) ∈ zs) :=
  ⟨[], C63_degree_zero m hm fuel c0 tail fun t h => by rw [ht t h, abs_zero]; exact hm.dblMin, fun h _ h' => absurd h' h⟩

theorem low_linear (m : RMath ℝ) (hm : ExactMath m) (fuel : ℕ) (c0 c1 : ℝ) (tail : List ℝ) (ht : ∀ t ∈ tail, t = 0)
    (hn : c1 = 0 ∨ m.dblMin ≤ |c1|) :
    ∃ zs, findRoots m fuel (c0 :: c1 :: tail) = .ok (true, some zs) ∧
      (c0 ≠ 0 ∨ c1 ≠ 0 → ∀ x : ℝ, c1 * x + c0 = 0 → (x, (0 : ℝ)) ∈ zs) := by
  rcases hn with rfl | hn
  · obtain ⟨zs, e, h⟩ := low_constant m hm fuel c0 (0 :: tail) (by simpa using ht)
    refine ⟨zs, e, fun h0 x hx => h (by simpa using h0) x (by linarith)⟩
  · have hc : c1 ≠ 0 := by
      rintro rfl
      rw [abs_zero] at hn
      exact absurd hm.dblMin (not_lt.mpr hn)
    refine ⟨_, C63_degree_one m hm fuel c0 c1 tail hn fun t h => by rw [ht t h, abs_zero]; exact hm.dblMin, fun _ x hx => ?_⟩
    have : x = -(c0 / c1) := by
      field_simp
      linarith
    simp [this]

theorem low_quadratic (m : RMath ℝ) (hm : ExactMath m) (fuel : ℕ) (c0 c1 c2 : ℝ) (tail : List ℝ) (ht : ∀ t ∈ tail, t = 0)
    (hn1 : c1 = 0 ∨ m.dblMin ≤ |c1|) (hn : c2 = 0 ∨ m.dblMin ≤ |c2|) :
    ∃ zs, findRoots m fuel (c0 :: c1 :: c2 :: tail) = .ok (true, some zs) ∧
      (c0 ≠ 0 ∨ c1 ≠ 0 ∨ c2 ≠ 0 → ∀ x : ℝ, c2 * x ^ 2 + c1 * x + c0 = 0 → (x, (0 : ℝ)) ∈ zs) := by
  rcases hn with rfl | hn
  · obtain ⟨zs, e, h⟩ := low_linear m hm fuel c0 c1 (0 :: tail) (by simpa using ht) hn1
    refine ⟨zs, e, fun h0 x hx => h (by simpa using h0) x (by linarith)⟩
  · have hc : c2 ≠ 0 := by
      rintro rfl
      rw [abs_zero] at hn
      exact absurd hm.dblMin (not_lt.mpr hn)
    obtain ⟨z, w, e, hf⟩ := C63_degree_two m hm fuel c0 c1 c2 tail hn fun t h => by rw [ht t h, abs_zero]; exact hm.dblMin
    refine ⟨_, e, fun _ x hx => ?_⟩
    have := hf x
    have h0 : ((c2 : ℂ) * (x : ℂ) ^ 2 + c1 * x + c0) = 0 := by exact_mod_cast hx
    rw [h0] at this
    have hc' : (c2 : ℂ) ≠ 0 := by exact_mod_cast hc
    have hxx : ∀ q : ℝ × ℝ, (x : ℂ) - ⟨q.1, q.2⟩ = 0 → (x, (0 : ℝ)) = q := by
      intro q hq
      have h1 := congrArg Complex.re hq
      have h2 := congrArg Complex.im hq
      simp at h1 h2
      ext
      · dsimp only; linarith
      · dsimp only; linarith
    rcases mul_eq_zero.mp this.symm with h1 | h1
    · rcases mul_eq_zero.mp h1 with h1 | h1
      · exact absurd h1 hc'
      · simp [hxx z h1]
    · simp [hxx w h1]

theorem low_complete (m : RMath ℝ) (hm : ExactMath m) (fuel : ℕ) (c : List ℝ) (hl : LowCoeffs m c) :
    ∃ zs, findRoots m fuel c = .ok (true, some zs) ∧
      (ofCoeffs c ≠ 0 → ∀ x : ℝ, (ofCoeffs c).eval x = 0 → (x, (0 : ℝ)) ∈ zs) := by
  have hev : ∀ x : ℝ, (ofCoeffs c).eval x = c.getD 2 0 * x ^ 2 + c.getD 1 0 * x + c.getD 0 0 := fun x => eval_low c hl.degree x
  have hne : ofCoeffs c ≠ 0 → c.getD 0 0 ≠ 0 ∨ c.getD 1 0 ≠ 0 ∨ c.getD 2 0 ≠ 0 := by
    intro h
    by_contra hh
    push Not at hh
    apply h
    ext j
    rw [coeff_ofCoeffs, Polynomial.coeff_zero]
    match j with
    | 0 => exact hh.1
    | 1 => exact hh.2.1
    | 2 => exact hh.2.2
    | j + 3 => exact hl.degree _ (by omega)
  match c, hl, hev, hne with
  | [], _, _, hne => exact ⟨[], rfl, fun h => by have := hne h; simp at this⟩
  | [c0], hl, hev, hne =>
    obtain ⟨zs, e, h⟩ := low_constant m hm fuel c0 [] (by simp)
    exact ⟨zs, e, fun h0 x hx => h (by simpa using hne h0) x (by simpa [hev] using hx)⟩
  | [c0, c1], hl, hev, hne =>
    obtain ⟨zs, e, h⟩ := low_linear m hm fuel c0 c1 [] (by simp) (by simpa using hl.normal 1)
    exact ⟨zs, e, fun h0 x hx => h (by simpa using hne h0) x (by simpa [hev] using hx)⟩
  | c0 :: c1 :: c2 :: tail, hl, hev, hne =>
    obtain ⟨zs, e, h⟩ := low_quadratic m hm fuel c0 c1 c2 tail
      (zeros_of_getD fun j => by simpa using hl.degree (j + 3) (by omega))
      (by simpa using hl.normal 1) (by simpa using hl.normal 2)
    exact ⟨zs, e, fun h0 x hx => h (by simpa using hne h0) x (by simpa [hev] using hx)⟩

/-- A complete root finder that is the one of the code on polynomials of degree at most two. -/
theorem low_rootFinder (m : RMath ℝ) (hm : ExactMath m) :
    ∃ rf : RootFinder ℝ, Complete rf ∧ ∀ c, LowCoeffs m c → SettlesOn (codeRoots m) rf c := by
  classical
  obtain ⟨lim, hlim⟩ := codeRoots_limit_exact m hm
  obtain ⟨comp, hcomp⟩ := complete_rootFinder_exists
  refine ⟨fun c => if LowCoeffs m c then lim c else comp c, ?_, ?_⟩
  · intro c hc x hx
    dsimp only
    by_cases h : LowCoeffs m c
    · rw [if_pos h]
      obtain ⟨n, hn⟩ := (hlim c h.length).exists
      obtain ⟨zs, e, hz⟩ := low_complete m hm n c h
      unfold codeRoots at hn
      rw [e] at hn
      rw [← Res.ok.inj hn]
      exact hz hc x hx
    · rw [if_neg h]
      exact hcomp c hc x hx
  · intro c hc
    have := hlim c hc.length
    unfold SettlesOn
    simp only [if_pos hc]
    exact this

/-- The derivatives of a polynomial of degree at most `d + 2`. -/
theorem low_coefficients (m : RMath ℝ) (p : Poly ℝ) (hN : p.N ≤ 22) (e : ℕ) (hdeg : ∀ j, e + 3 ≤ j → p.coeffs.getD j 0 = 0)
    (hnorm : ∀ j, e ≤ j → p.coeffs.getD j 0 = 0 ∨ m.dblMin ≤ |p.coeffs.getD j 0|) (d : ℤ) (hd : (e : ℤ) ≤ d) (c : List ℝ)
    (hc : p.getCoefficients d = .ok c) : LowCoeffs m c := by
  have hlen := getCoefficients_length p d c hc
  obtain ⟨k, rfl⟩ : ∃ k : ℕ, d = k := ⟨d.toNat, by omega⟩
  have hk : k ≤ p.N := by
    by_contra hh
    unfold Poly.getCoefficients at hc
    rw [Res.check_of_not (by omega)] at hc
    cases hc
  have hk' : k < kMaxConvolutionSize := by
    by_contra hh
    unfold Poly.getCoefficients at hc
    rw [Res.check_of (by omega), Res.ok_bind] at hc
    unfold kMaxConvolutionSize at hh
    rw [if_neg (by omega), if_pos (by unfold kMaxConvolutionSize; omega)] at hc
    cases hc
  obtain ⟨c', e', _, hof⟩ := getCoefficients_ok p k hk (by unfold kMaxConvolutionSize; exact hN) hk'
  rw [hc] at e'
  cases Res.ok.inj e'
  have hcoef : ∀ j, c.getD j 0 = ((k + j).descFactorial k : ℝ) * p.coeffs.getD (k + j) 0 := by
    intro j
    have := congrArg (fun q => q.coeff j) hof
    rw [coeff_ofCoeffs, Polynomial.coeff_iterate_derivative, coeff_ofCoeffs, nsmul_eq_mul, add_comm j k] at this
    exact this
  refine ⟨by omega, fun j hj => by rw [hcoef, hdeg _ (by omega), mul_zero], fun j => ?_⟩
  have hdf : (1 : ℝ) ≤ ((k + j).descFactorial k : ℝ) := by
    have : 0 < (k + j).descFactorial k := Nat.descFactorial_pos.mpr (by omega)
    exact_mod_cast this
  have hcase := hnorm (k + j) (by omega)
  rw [hcoef]
  rcases hcase with h | h
  · left
    rw [h, mul_zero]
  · right
    rw [abs_mul, abs_of_pos (by linarith)]
    exact h.trans (le_mul_of_one_le_left (abs_nonneg _) hdf)

end Verif
