import Verif.Spec.Sampling
import Verif.Proofs.TrajectoryReal
import Verif.Proofs.Io

/-
Lemmas on sampling.
-/
namespace Verif

open Spec

set_option linter.unusedSectionVars false

variable {K : Type}

theorem head3_ok {v : List K} (h : 3 ≤ v.length) : head3 v = .ok (v.take 3) := by
  unfold head3; rw [if_neg (by omega)]

theorem tail3_ok {v : List K} (h : v.length = 6) : tail3 v = .ok (v.drop 3) := by
  unfold tail3; rw [if_neg (by omega), h]

theorem attitudeOf_ok {D : ℕ} {p v a : List K} (hp : p.length = D) (hv : v.length = D)
    (ha : a.length = D) :
    ∃ att, attitudeOf D p v a = .ok att ∧
      (D = 4 → ∃ y y' y'', p[3]? = some y ∧ v[3]? = some y' ∧ a[3]? = some y'' ∧ att = .yaw y y' y'') ∧
      (D = 6 → att = .rotation (p.drop 3) (v.drop 3) (a.drop 3)) ∧
      (D ≠ 4 → D ≠ 6 → att = .unchanged) := by
  unfold attitudeOf
  by_cases h4 : D = 4
  · subst h4
    refine ⟨.yaw (p[3]'(by omega)) (v[3]'(by omega)) (a[3]'(by omega)), ?_, ?_, by omega, by omega⟩
    · rw [if_pos rfl, Res.at'_of_lt (by omega), Res.at'_of_lt (by omega), Res.at'_of_lt (by omega)]
      rfl
    · intro _
      exact ⟨_, _, _, List.getElem?_eq_getElem _, List.getElem?_eq_getElem _, List.getElem?_eq_getElem _,
        rfl⟩
  · rw [if_neg h4]
    by_cases h6 : D = 6
    · subst h6
      refine ⟨_, by rw [if_pos rfl, tail3_ok hp, tail3_ok hv, tail3_ok ha]; rfl, by omega, fun _ => rfl,
        by omega⟩
    · exact ⟨_, by rw [if_neg h6], fun h => absurd h h4, fun h => absurd h h6, fun _ _ => rfl⟩

section Order
variable [Field K] [LinearOrder K] [IsStrictOrderedRing K] [FloorRing K]

theorem toNSec_ok {t : K} (h0 : 0 ≤ t) (h1 : t * 10 ^ 9 < 2 ^ 63) : toNSec t = .ok ⌊t * 10 ^ 9⌋ := by
  have hx : 0 ≤ t * 10 ^ 9 := by positivity
  unfold toNSec
  simp only [if_pos hx]
  rw [if_neg]
  rintro (h | h)
  · have : (0 : K) ≤ 2 ^ 63 := by positivity
    linarith
  · exact absurd h1 (not_lt.mpr h)

theorem sampleFlatState_ok {D : ℕ} {evaluate : K → ℤ → Res (List K)} {t : K} {v : ℕ → List K}
    (hD : 3 ≤ D) (h0 : 0 ≤ t) (h1 : t * 10 ^ 9 < 2 ^ 63)
    (hv : ∀ k : ℕ, k ≤ 4 → evaluate t k = .ok (v k) ∧ (v k).length = D) :
    ∃ st, sampleFlatState D evaluate t = .ok (some st) ∧ IsState D v t st := by
  have e0 := hv 0 (by omega)
  have e1 := hv 1 (by omega)
  have e2 := hv 2 (by omega)
  have e3 := hv 3 (by omega)
  have e4 := hv 4 (by omega)
  push_cast at e0 e1 e2 e3 e4
  obtain ⟨att, ha, g4, g6, g⟩ := attitudeOf_ok e0.2 e1.2 e2.2
  refine ⟨⟨(v 0).take 3, (v 1).take 3, (v 2).take 3, (v 3).take 3, (v 4).take 3, att, ⌊t * 10 ^ 9⌋⟩, ?_,
    ⟨rfl, rfl, rfl, rfl, rfl, g4, g6, g, rfl⟩⟩
  unfold sampleFlatState
  rw [if_neg (by omega), e0.1, e1.1, e2.1, e3.1, e4.1]
  simp only [Res.ok_bind]
  rw [head3_ok (by omega), head3_ok (by omega), head3_ok (by omega), head3_ok (by omega),
    head3_ok (by omega), ha, toNSec_ok h0 h1]
  rfl

theorem rangeState_ok {D : ℕ} {tMin dt : K} {p v a j s : List (K × List K)} {i : ℕ} {w : ℕ → List K}
    (hD : 3 ≤ D) (h0 : 0 ≤ tMin + dt * i) (h1 : (tMin + dt * i) * 10 ^ 9 < 2 ^ 63)
    (hw : ∀ k ≤ 4, (w k).length = D)
    (ep : (p[i]?).map (·.2) = some (w 0)) (ev : (v[i]?).map (·.2) = some (w 1))
    (ea : (a[i]?).map (·.2) = some (w 2)) (ej : (j[i]?).map (·.2) = some (w 3))
    (es : (s[i]?).map (·.2) = some (w 4)) :
    ∃ st, rangeState D tMin dt p v a j s i = .ok st ∧ IsState D w (tMin + dt * i) st := by
  have w0 := hw 0 (by omega)
  have w1 := hw 1 (by omega)
  have w2 := hw 2 (by omega)
  have w3 := hw 3 (by omega)
  have w4 := hw 4 (by omega)
  have get : ∀ {l : List (K × List K)} {x}, (l[i]?).map (·.2) = some x →
      ∃ y, Res.at' l i = .ok y ∧ y.2 = x := by
    intro l x h
    rw [Option.map_eq_some_iff] at h
    obtain ⟨y, hy, rfl⟩ := h
    exact ⟨y, Res.at'_eq_ok.mpr hy, rfl⟩
  obtain ⟨yp, hp, ep⟩ := get ep
  obtain ⟨yv, hv, ev⟩ := get ev
  obtain ⟨ya, ha, ea⟩ := get ea
  obtain ⟨yj, hj, ej⟩ := get ej
  obtain ⟨ys, hs, es⟩ := get es
  obtain ⟨att, hatt, g4, g6, g⟩ := attitudeOf_ok w0 w1 w2
  refine ⟨⟨(w 0).take 3, (w 1).take 3, (w 2).take 3, (w 3).take 3, (w 4).take 3, att,
    ⌊(tMin + dt * i) * 10 ^ 9⌋⟩, ?_, ⟨rfl, rfl, rfl, rfl, rfl, g4, g6, g, rfl⟩⟩
  unfold rangeState
  rw [hp, hv, ha, hj, hs]
  simp only [Res.ok_bind, ep, ev, ea, ej, es]
  rw [head3_ok (by omega), head3_ok (by omega), head3_ok (by omega), head3_ok (by omega),
    head3_ok (by omega), hatt, toNSec_ok h0 h1]
  rfl

end Order

/-- The states of a range: how many there are and what they hold. -/
theorem sampleRange_ok (tr : Trajectory ℝ) (h : tr.WF) (hD : 3 ≤ tr.D) (tMin tMax dt : ℝ) (hdt : 0 < dt)
    (hmax : tMax ≤ tr.maxTime) (hend : tMin ≤ tMax) (hns : tr.maxTime * 10 ^ 9 < 2 ^ 63)
    (i : ℕ) (hi : i < tr.segments.length) (h1 : startTime tr.getSegmentTimes i ≤ tMin)
    (h2 : tMin < startTime tr.getSegmentTimes (i + 1)) (h0 : 0 ≤ tMin) :
    ∃ L, (∃ F, ∀ fuel, F ≤ fuel → sampleTrajectoryInRange fuel tr tMin tMax dt = .ok (some L)) ∧
      (∀ j : ℕ, j < L.length ↔ startTime tr.getSegmentTimes i + j * dt < tMax ∧
        tMin + j * dt ≤ tr.maxTime) ∧
      (∀ j, (hj : j < L.length) → ∃ w : ℕ → List ℝ, IsState tr.D w (tMin + dt * j) L[j] ∧
        ∀ k ≤ 4, ∃ i', ∃ hi' : i' < tr.segments.length,
          startTime tr.getSegmentTimes i' ≤ tMin + j * dt ∧
          tMin + j * dt ≤ startTime tr.getSegmentTimes (i' + 1) ∧
          w k = segValue tr.segments[i'] k (tMin + j * dt - startTime tr.getSegmentTimes i')) := by
  have hr := fun k => evaluateRange_ok tr h k tMin tMax dt hdt i hi h1 h2 hend
  choose L hL F hF using hr
  have hcount : ∀ k j, j < (L k).length ↔ j < (L 0).length := fun k j => by
    rw [(hL k).count, (hL 0).count]
  have hlen : ∀ k, (L k).length = (L 0).length := by
    intro k
    have a := hcount k (L k).length
    have b := hcount k (L 0).length
    omega
  -- the values of the `j`-th samples
  have hstate : ∀ j, j < (L 0).length → ∃ st, rangeState tr.D tMin dt (L 0) (L 1) (L 2) (L 3) (L 4) j =
      .ok st ∧ IsState tr.D (fun k => ((L k)[j]?.map (·.2)).getD []) (tMin + dt * j) st := by
    intro j hj
    have hget : ∀ k, ((L k)[j]?).map (·.2) = some (((L k)[j]?.map (·.2)).getD []) := by
      intro k
      rw [List.getElem?_eq_getElem (by rw [hlen k]; exact hj)]
      rfl
    have hc := ((hL 0).count j).mp hj
    have hnn : (0 : ℝ) ≤ dt * j := by positivity
    refine rangeState_ok hD (by linarith) ?_ ?_ (hget 0) (hget 1) (hget 2) (hget 3) (hget 4)
    · refine lt_of_le_of_lt ?_ hns
      have := hc.2
      have e : tMin + dt * j = tMin + j * dt := by ring
      rw [e]
      exact mul_le_mul_of_nonneg_right this (by positivity)
    · intro k _
      have hj' : j < (L k).length := by rw [hlen k]; exact hj
      obtain ⟨_, i', hi', _, _, _, e⟩ := (hL k).entries j hj'
      rw [List.getElem?_eq_getElem hj', Option.map_some, Option.getD_some, e, segValue_length,
        h.dims _ (List.getElem_mem _)]
  -- the list of states
  have hall : ∃ S, (List.range (L 0).length).mapM
      (fun j => rangeState tr.D tMin dt (L 0) (L 1) (L 2) (L 3) (L 4) j) = .ok S := by
    have : ∀ j ∈ List.range (L 0).length,
        rangeState tr.D tMin dt (L 0) (L 1) (L 2) (L 3) (L 4) j = .ok
          ((fun j => if hj : j < (L 0).length then (hstate j hj).choose else ⟨[], [], [], [], [], .unchanged, 0⟩) j) := by
      intro j hj
      rw [List.mem_range] at hj
      simp only [dif_pos hj]
      exact (hstate j hj).choose_spec.1
    exact ⟨_, Res.mapM_ok this⟩
  obtain ⟨S, hS⟩ := hall
  have hSlen : S.length = (L 0).length := by
    have := (Res.mapM_forall₂.mp hS).length_eq
    simpa using this.symm
  refine ⟨S, ⟨F 0 + F 1 + F 2 + F 3 + F 4, fun fuel hf => ?_⟩, ?_, ?_⟩
  · unfold sampleTrajectoryInRange
    rw [if_neg (by push Not; exact ⟨h0, hmax⟩), if_neg (by omega)]
    have c0 := hF 0 fuel (by omega)
    have c1 := hF 1 fuel (by omega)
    have c2 := hF 2 fuel (by omega)
    have c3 := hF 3 fuel (by omega)
    have c4 := hF 4 fuel (by omega)
    push_cast at c0 c1 c2 c3 c4
    rw [c0, c1, c2, c3, c4]
    simp only [Res.ok_bind, hS]
    rfl
  · intro j
    rw [hSlen, (hL 0).count]
  · intro j hj
    have hj0 : j < (L 0).length := by omega
    obtain ⟨st, hst, hspec⟩ := hstate j hj0
    have hf := Res.mapM_forall₂.mp hS
    have hel : rangeState tr.D tMin dt (L 0) (L 1) (L 2) (L 3) (L 4) j = .ok S[j] := by
      have := (List.forall₂_iff_get.mp hf).2 j (by simpa using hj0) hj
      simpa using this
    have : st = S[j] := by
      rw [hst] at hel
      exact Res.ok.inj hel
    refine ⟨_, this ▸ hspec, ?_⟩
    intro k _
    have hj' : j < (L k).length := by rw [hlen k]; exact hj0
    obtain ⟨_, i', hi', _, g1, g2, e⟩ := (hL k).entries j hj'
    refine ⟨i', hi', g1, g2, ?_⟩
    rw [List.getElem?_eq_getElem hj', Option.map_some, Option.getD_some, e]

section Order
variable [Field K] [LinearOrder K] [IsStrictOrderedRing K] [FloorRing K]

theorem writeSegmentTimes_ub_iff :
    ∀ (segs : List (Segment K)) (rows : List (State K × K)) (j : ℕ) (acc : K), j ≤ rows.length →
      (writeSegmentTimes segs rows j acc = .ub ↔ rows.length < j + segs.length) ∧
      (j + segs.length ≤ rows.length → ∃ r, writeSegmentTimes segs rows j acc = .ok r ∧
        r.map (·.1) = rows.map (·.1) ∧
        (∀ m, m < j → r[m]? = rows[m]?) ∧
        (∀ m, (hm : m < segs.length) → (r[j + m]?).map (·.2) =
          some (acc + startTime (segs.map (·.time)) (m + 1))) ∧
        (∀ m, j + segs.length ≤ m → r[m]? = rows[m]?)) := by
  intro segs
  induction segs with
  | nil =>
    intro rows j acc hj
    refine ⟨?_, fun _ => ⟨rows, rfl, rfl, fun _ _ => rfl, by simp, fun _ _ => rfl⟩⟩
    simp [writeSegmentTimes]; omega
  | cons s ss ih =>
    intro rows j acc hj
    unfold writeSegmentTimes
    by_cases hlt : j < rows.length
    · rw [if_pos hlt]
      obtain ⟨h1, h2⟩ := ih (rows.modify j fun r => (r.1, acc + s.time)) (j + 1) (acc + s.time)
        (by simp; omega)
      refine ⟨by rw [h1]; simp; omega, ?_⟩
      intro hle
      obtain ⟨r, hr, g1, g2, g3, g4⟩ := h2 (by simp at hle ⊢; omega)
      have hmod : ∀ m, m ≠ j → (rows.modify j fun r => (r.1, acc + s.time))[m]? = rows[m]? := by
        intro m hm
        rw [List.getElem?_modify]
        simp [Ne.symm hm]
      refine ⟨r, hr, ?_, ?_, ?_, ?_⟩
      · rw [g1]
        apply List.ext_getElem?
        intro m
        simp only [List.getElem?_map]
        by_cases hm : m = j
        · subst hm
          rw [List.getElem?_modify]
          cases rows[m]? <;> simp
        · rw [hmod m hm]
      · intro m hm
        rw [g2 m (by omega), hmod m (by omega)]
      · intro m hm
        cases m with
        | zero =>
          rw [Nat.add_zero, g2 j (by omega), List.getElem?_modify,
            List.getElem?_eq_getElem hlt]
          simp [startTime]
        | succ m =>
          have := g3 m (by simpa using hm)
          rw [show j + (m + 1) = j + 1 + m by omega, this]
          simp [startTime, add_assoc]
      · intro m hm
        simp at hm
        rw [g4 m (by omega), hmod m (by omega)]
    · rw [if_neg hlt]
      refine ⟨by simp; omega, fun hle => ?_⟩
      simp at hle; omega

end Order
end Verif
