import Verif.Proofs.Io

/-
Lemmas on writing trajectories and on reading them back.
-/
namespace Verif

open Spec

variable {K S : Type}

theorem Poly.getCoefficients_zero [Zero K] [One K] [Mul K] [NatCast K] (p : Poly K) :
    p.getCoefficients 0 = .ok p.coeffs := by
  unfold Poly.getCoefficients
  rw [Res.check_of (by positivity)]
  rfl

theorem describesNumbers_put {cd : Codec K S} {rnd : K → K} (hc : ReadsBack cd rnd) (c : List K) :
    DescribesNumbers cd (coefficientsToYaml cd c) (c.map rnd) := by
  refine ⟨_, rfl, ?_⟩
  rw [List.forall₂_map_left_iff, List.forall₂_map_right_iff, List.forall₂_same]
  intro x _
  exact ⟨_, rfl, hc.doubles x⟩

section
variable [Field K] [LinearOrder K] [IsStrictOrderedRing K] [FloorRing K]

theorem getTimeNSec_ok {s : Segment K} (h : Writable s) :
    s.getTimeNSec = .ok (⌊10 ^ 9 * s.time⌋.toNat) ∧ ⌊10 ^ 9 * s.time⌋.toNat < 2 ^ 64 ∧
      ((⌊10 ^ 9 * s.time⌋.toNat : ℕ) : K) ≤ 10 ^ 9 * s.time ∧
      10 ^ 9 * s.time < ((⌊10 ^ 9 * s.time⌋.toNat : ℕ) : K) + 1 := by
  have h0 : (0 : K) ≤ 10 ^ 9 * s.time := mul_nonneg (by positivity) h.time0
  have hf : (0 : ℤ) ≤ ⌊10 ^ 9 * s.time⌋ := Int.floor_nonneg.mpr h0
  have hcast : ((⌊10 ^ 9 * s.time⌋.toNat : ℕ) : K) = ((⌊10 ^ 9 * s.time⌋ : ℤ) : K) := by
    conv_rhs => rw [← Int.toNat_of_nonneg hf]
    push_cast
    rfl
  refine ⟨?_, ?_, ?_, ?_⟩
  · unfold Segment.getTimeNSec
    rw [if_neg]
    rintro (h1 | h1)
    · linarith
    · exact absurd h.time1 (not_lt.mpr h1)
  · have : ⌊10 ^ 9 * s.time⌋ < 2 ^ 64 := by
      have := h.time1
      rw [Int.floor_lt]; norm_num at this ⊢; exact this
    omega
  · rw [hcast]; exact Int.floor_le _
  · rw [hcast]; exact Int.lt_floor_add_one _

/-- The header entries. -/
def segHeader (cd : Codec K S) (s : Segment K) : List (String × Yaml S) :=
  [("N", .scalar (cd.putI s.N)), ("D", .scalar (cd.putI s.D)),
    ("time", .scalar (cd.putU ⌊10 ^ 9 * s.time⌋.toNat))]

/-- The tree written for a segment with all entries. -/
def segTree (cd : Codec K S) (s : Segment K) : Yaml S :=
  .map (segHeader cd s ++ [("coefficients", .seq (s.polys.map fun p => coefficientsToYaml cd p.coeffs))])

/-- The segment read back. -/
def reload (rnd : K → K) (s : Segment K) : Segment K :=
  ⟨s.polys.map fun p => ⟨p.coeffs.map rnd⟩, ((⌊10 ^ 9 * s.time⌋.toNat : ℕ) : K) * (1 / 10 ^ 9), s.N⟩

theorem reloaded_reload (rnd : K → K) {s : Segment K} (h : Writable s) : Reloaded rnd s (reload rnd s) := by
  obtain ⟨_, _, h1, h2⟩ := getTimeNSec_ok h
  refine ⟨rfl, rfl, ⟨_, by rw [reload, mul_one_div]⟩, ?_, ?_⟩
  · rw [reload, mul_one_div, div_le_iff₀ (by positivity)]
    linarith
  · rw [reload, mul_one_div, sub_lt_iff_lt_add, ← add_div, lt_div_iff₀ (by positivity)]
    linarith

theorem segTree_describes {cd : Codec K S} {rnd : K → K} (hc : ReadsBack cd rnd) {s : Segment K}
    (h : Writable s) : DescribesSegment cd (segTree cd s) (reload rnd s) := by
  refine ⟨_, cd.putI s.N, cd.putI s.D, cd.putU ⌊10 ^ 9 * s.time⌋.toNat, _, ⌊10 ^ 9 * s.time⌋.toNat, rfl,
    by simp [segHeader], ?_, by simp [segHeader, List.lookup], ?_,
    by simp [segHeader, List.lookup], ?_, rfl, by simp [segHeader, List.lookup]; rfl, ?_, ?_⟩
  · have := h.N
    exact hc.ints _ (by positivity) (by simp only [Nat.reducePow] at this; exact_mod_cast this)
  · have := h.D
    rw [show (reload rnd s).polys.length = s.D by simp [reload, Segment.D]]
    exact hc.ints _ (by positivity) (by simp only [Nat.reducePow] at this; exact_mod_cast this)
  · exact hc.uints _ (getTimeNSec_ok h).2.1
  · simp [reload]
  · simp only [reload, List.length_map]
    rw [List.take_of_length_le (by simp), List.forall₂_map_left_iff, List.forall₂_map_right_iff,
      List.forall₂_same]
    intro p _
    exact describesNumbers_put hc p.coeffs

theorem segmentToYaml_ok (cd : Codec K S) {s : Segment K} (h : Writable s) (hD : s.polys ≠ []) :
    segmentToYaml cd s = .ok (segTree cd s) := by
  unfold segmentToYaml
  rw [(getTimeNSec_ok h).1, Res.ok_bind,
    Res.mapM_ok (g := fun p : Poly K => coefficientsToYaml cd p.coeffs)
      (by intro p _; rw [Poly.getCoefficients_zero]; rfl), Res.ok_bind, Res.pure_eq, if_neg]
  · rfl
  · simpa using hD

theorem segmentToYaml_dim0 (cd : Codec K S) {s : Segment K} (h : Writable s) (hD : s.polys = []) :
    segmentToYaml cd s = .ok (.map (segHeader cd s)) := by
  unfold segmentToYaml
  rw [(getTimeNSec_ok h).1, Res.ok_bind, hD]
  rfl

theorem segmentToText_ok (cd : Codec K S) {s : Segment K} (h : Writable s)
    (hN : ∀ p ∈ s.polys, p.coeffs.length = s.N) : segmentToText cd s = .ok (segTree cd s) := by
  unfold segmentToText
  rw [(getTimeNSec_ok h).1, Res.ok_bind,
    Res.mapM_ok (g := fun p : Poly K => coefficientsToYaml cd p.coeffs), Res.ok_bind, Res.pure_eq]
  · rfl
  · intro p hp
    have hl := hN p hp
    rw [Poly.getCoefficients_zero, Res.ok_bind, ← hl]
    have := mapM_range_all p.coeffs (fun o => match o with | some a => Res.ok a | none => Res.ub)
    have h2 : (List.range p.coeffs.length).mapM (fun j => Res.at' p.coeffs j) = .ok p.coeffs := by
      refine this.trans ?_
      rw [Res.mapM_ok (g := id) (by intro a _; rfl), List.map_id]
    rw [h2]
    rfl

theorem trajectoryToYaml_ok (cd : Codec K S) (tr : Trajectory K) (hne : tr.segments ≠ [])
    (h : ∀ s ∈ tr.segments, Writable s ∧ s.polys ≠ []) :
    trajectoryToYaml cd tr = .ok (.map [("segments", .seq (tr.segments.map (segTree cd)))]) := by
  unfold trajectoryToYaml segmentsToYaml
  rw [Res.mapM_ok (g := segTree cd) (fun s hs => segmentToYaml_ok cd (h s hs).1 (h s hs).2), Res.ok_bind,
    if_neg (by simpa using hne)]
  rfl

theorem segmentsToFile_ok (cd : Codec K S) (segs : List (Segment K))
    (h : ∀ s ∈ segs, Writable s ∧ ∀ p ∈ s.polys, p.coeffs.length = s.N) :
    segmentsToFile cd true segs = .ok (true, some (.map [("segments", .seq (segs.map (segTree cd)))])) := by
  unfold segmentsToFile
  rw [Res.mapM_ok (g := segTree cd) (fun s hs => segmentToText_ok cd (h s hs).1 (h s hs).2), Res.ok_bind,
    if_pos rfl]
  rfl

end

/-! ### Reading a file -/

theorem mapM_idx_describes {cd : Codec K S} {l : List (Yaml S)} {c : List K}
    (h : DescribesNumbers cd (.seq l) c) :
    (List.range c.length).mapM (fun k => do
      let x ← YNode.idx cd (some (.seq l)) k
      YNode.as cd.getD x) = .ok c := by
  obtain ⟨l', hl, hf⟩ := h
  cases hl
  simp only [YNode.idx, Res.ok_bind]
  rw [← hf.length_eq, mapM_range_all l fun e => YNode.as cd.getD e]
  exact Res.mapM_forall₂.mpr (hf.imp fun e x ⟨t, ht, hx⟩ => YNode.as_eq_ok.mpr ⟨t, by rw [ht], hx⟩)

theorem fillStrict_ok {cd : Codec K S} {cs : List (Yaml S)} {n : ℕ} :
    ∀ (k a : ℕ) (s : Segment K) (ps : List (Poly K)), s.polys.length = a + k → cs.length = a + k →
      (∀ p ∈ ps, p.coeffs.length = n) →
      List.Forall₂ (fun e p => DescribesNumbers cd e p.coeffs) (cs.drop a) ps →
      fillStrict cd (some (.seq cs)) n (List.range' a k) s =
        .ok (some { s with polys := s.polys.take a ++ ps }) := by
  intro k
  induction k with
  | zero =>
    intro a s ps hs hcs hn hf
    rw [List.drop_of_length_le (by omega), List.forall₂_nil_left_iff] at hf
    subst hf
    rw [List.take_of_length_le (by omega), List.append_nil]
    rfl
  | succ k ih =>
    intro a s ps hs hcs hn hf
    have hlt : a < cs.length := by omega
    have hD : a < s.D := by unfold Segment.D; omega
    have hlt' : a < s.polys.length := by omega
    rw [List.drop_eq_getElem_cons hlt] at hf
    cases hf with
    | @cons _ p _ ps hd hf =>
      obtain ⟨l, hl, hf'⟩ := id hd
      have hlen : l.length = n := by rw [hf'.length_eq]; exact hn p (by simp)
      rw [List.range'_succ]
      simp only [fillStrict]
      rw [show YNode.idx cd (some (.seq cs)) a = .ok (some (cs[a])) by
        simp [YNode.idx, hlt], Res.ok_bind, hl]
      rw [hl] at hd
      have hp : p.coeffs.length = n := hn p (by simp)
      have hm := mapM_idx_describes hd
      rw [hp] at hm
      simp only [YNode.size, Res.ok_bind, hlen, ne_eq, not_true, if_false]
      rw [hm]
      simp only [Res.ok_bind, Segment.set, Res.check_of hD, Res.pure_eq]
      rw [ih (a + 1) _ ps (by simp; omega) (by omega) (fun q hq => hn q (by simp [hq])) hf]
      rw [List.take_add_one, List.take_set, List.getElem?_set_self hlt',
        List.set_eq_of_length_le (by simp)]
      simp

theorem fillStrict_inv {cd : Codec K S} {cn : YNode S} {n : ℕ} :
    ∀ (k a : ℕ) (s s' : Segment K),
      fillStrict cd cn n (List.range' a k) s = .ok (some s') →
      s'.N = s.N ∧ s'.time = s.time ∧ s'.polys.length = s.polys.length ∧
      ∀ i p, s'.polys[i]? = some p → (a ≤ i ∧ i < a + k ∧ p.coeffs.length = n) ∨ s.polys[i]? = some p ∧ (i < a ∨ a + k ≤ i) := by
  intro k
  induction k with
  | zero =>
    intro a s s' h
    simp only [List.range'_zero, fillStrict, Res.ok.injEq, Option.some.injEq] at h
    subst h
    exact ⟨rfl, rfl, rfl, fun i p hp => Or.inr ⟨hp, by omega⟩⟩
  | succ k ih =>
    intro a s s' h
    rw [List.range'_succ] at h
    simp only [fillStrict] at h
    obtain ⟨e, he, h⟩ := Res.bind_eq_ok.mp h
    obtain ⟨sz, hsz, h⟩ := Res.bind_eq_ok.mp h
    split_ifs at h with h1
    · simp at h
    obtain ⟨c, hc, h⟩ := Res.bind_eq_ok.mp h
    obtain ⟨s1, hs1, h⟩ := Res.bind_eq_ok.mp h
    have hcl : c.length = n := by
      have := (Res.mapM_forall₂.mp hc).length_eq
      simpa using this.symm
    unfold Segment.set at hs1
    obtain ⟨_, hck, hs1⟩ := Res.bind_eq_ok.mp hs1
    have hck := Res.check_eq_ok.mp hck
    simp only [Res.pure_eq, Res.ok.injEq] at hs1
    subst hs1
    obtain ⟨g1, g2, g3, g4⟩ := ih (a + 1) _ s' h
    refine ⟨g1, g2, by simpa using g3, ?_⟩
    intro i p hp
    rcases g4 i p hp with ⟨q1, q2, q3⟩ | ⟨q1, q2⟩
    · exact Or.inl ⟨by omega, by omega, q3⟩
    · by_cases hi : i = a
      · subst hi
        rw [List.getElem?_set_self hck, Option.some.injEq] at q1
        subst q1
        exact Or.inl ⟨le_rfl, by omega, hcl⟩
      · rw [List.getElem?_set_ne (Ne.symm hi)] at q1
        exact Or.inr ⟨q1, by omega⟩

section Read
variable [Field K]

/-- What the file reader accepts as a segment has exactly the announced sizes. -/
theorem segmentFromText_sizes {cd : Codec K S} {n : YNode S} {s : Segment K}
    (h : segmentFromText cd n = .ok (some s)) : ∀ p ∈ s.polys, p.coeffs.length = s.N := by
  unfold segmentFromText at h
  obtain ⟨nN, hN, h⟩ := Res.bind_eq_ok.mp h
  obtain ⟨⟨yN, rfl⟩, h⟩ := isNone_ite.mp h
  obtain ⟨nD, hD, h⟩ := Res.bind_eq_ok.mp h
  obtain ⟨⟨yD, rfl⟩, h⟩ := isNone_ite.mp h
  obtain ⟨nT, hT, h⟩ := Res.bind_eq_ok.mp h
  obtain ⟨⟨yT, rfl⟩, h⟩ := isNone_ite.mp h
  obtain ⟨nC, hC, h⟩ := Res.bind_eq_ok.mp h
  obtain ⟨⟨yC, rfl⟩, h⟩ := isNone_ite.mp h
  obtain ⟨vn, hvn, h⟩ := Res.bind_eq_ok.mp h
  obtain ⟨vd, hvd, h⟩ := Res.bind_eq_ok.mp h
  obtain ⟨s0, hs0, h⟩ := Res.bind_eq_ok.mp h
  obtain ⟨ns, hns, h⟩ := Res.bind_eq_ok.mp h
  obtain ⟨sz, hsz, h⟩ := Res.bind_eq_ok.mp h
  split_ifs at h with h1
  · simp at h
  unfold Segment.mkInt at hs0
  split_ifs at hs0
  simp only [Res.ok.injEq] at hs0
  subst hs0
  rw [List.range_eq_range'] at h
  obtain ⟨g1, _, g3, g4⟩ := fillStrict_inv _ 0 _ _ h
  intro p hp
  obtain ⟨i, hi⟩ := List.getElem?_of_mem hp
  rw [g1]
  rcases g4 i p hi with ⟨_, _, q⟩ | ⟨q, q'⟩
  · rw [q]; rfl
  · exfalso
    have : i < vd.toNat := by
      have := (List.getElem?_eq_some_iff.mp hi).1
      rw [g3] at this
      simpa [Segment.setTimeNSec, Segment.mkZero] using this
    omega

theorem segmentsTextLoop_sizes {cd : Codec K S} {n : YNode S} :
    ∀ (is : List ℕ) (acc segs : List (Segment K)) (b : Bool),
      (∀ s ∈ acc, ∀ p ∈ s.polys, p.coeffs.length = s.N) →
      segmentsTextLoop cd n is acc = .ok (b, segs) → ∀ s ∈ segs, ∀ p ∈ s.polys, p.coeffs.length = s.N := by
  intro is
  induction is with
  | nil =>
    intro acc segs b hacc h
    simp only [segmentsTextLoop, Res.ok.injEq, Prod.mk.injEq] at h
    rw [← h.2]; exact hacc
  | cons i is ih =>
    intro acc segs b hacc h
    simp only [segmentsTextLoop] at h
    obtain ⟨e, he, h⟩ := Res.bind_eq_ok.mp h
    obtain ⟨o, ho, h⟩ := Res.bind_eq_ok.mp h
    cases o with
    | none =>
      simp only [Res.pure_eq, Res.ok.injEq, Prod.mk.injEq] at h
      rw [← h.2]; exact hacc
    | some s =>
      refine ih _ segs b ?_ h
      intro s' hs' p hp
      rcases List.mem_append.mp hs' with hs' | hs'
      · exact hacc s' hs' p hp
      · rw [List.mem_singleton] at hs'
        subst hs'
        exact segmentFromText_sizes ho p hp

end Read

section
variable [Field K] [LinearOrder K] [IsStrictOrderedRing K] [FloorRing K]

theorem segmentFromText_segTree {cd : Codec K S} {rnd : K → K} (hc : ReadsBack cd rnd) {s : Segment K}
    (h : Writable s) (hN : ∀ p ∈ s.polys, p.coeffs.length = s.N) :
    segmentFromText cd (some (segTree cd s)) = .ok (some (reload rnd s)) := by
  have hN' := h.N
  have hD' := h.D
  simp only [Nat.reducePow] at hN' hD'
  have i1 := hc.ints s.N (by positivity) (by exact_mod_cast hN')
  have i2 := hc.ints s.polys.length (by positivity) (by exact_mod_cast hD')
  have i3 := hc.uints _ (getTimeNSec_ok h).2.1
  unfold segmentFromText
  simp only [YNode.get, segTree, segHeader, Segment.D, List.cons_append, List.nil_append, List.lookup,
    beq_self_eq_true, Res.ok_bind, Option.isNone_some, Bool.false_eq_true, if_false,
    show ("D" == "N") = false from rfl, show ("time" == "N") = false from rfl,
    show ("time" == "D") = false from rfl, show ("coefficients" == "N") = false from rfl,
    show ("coefficients" == "D") = false from rfl, show ("coefficients" == "time") = false from rfl,
    YNode.as, i1, i2, i3, Segment.mkInt, YNode.size, List.length_map]
  rw [if_neg (by omega), if_neg (by omega)]
  simp only [Res.ok_bind, Int.toNat_natCast, ne_eq, not_true, if_false]
  rw [List.range_eq_range', fillStrict_ok s.polys.length 0 _ (s.polys.map fun p => ⟨p.coeffs.map rnd⟩)
    (by simp [Segment.setTimeNSec, Segment.mkZero]) (by simp) ?_ ?_]
  · simp [Segment.setTimeNSec, Segment.mkZero, reload]
  · simp only [List.mem_map, forall_exists_index, and_imp]
    rintro q p hp rfl
    simpa using hN p hp
  · rw [List.drop_zero, List.forall₂_map_left_iff, List.forall₂_map_right_iff, List.forall₂_same]
    intro p _
    exact describesNumbers_put hc p.coeffs

theorem segmentsTextLoop_ok {cd : Codec K S} {rnd : K → K} (hc : ReadsBack cd rnd) (segs : List (Segment K))
    (h : ∀ s ∈ segs, Writable s ∧ ∀ p ∈ s.polys, p.coeffs.length = s.N) :
    ∀ (k a : ℕ) (acc : List (Segment K)), k + a = segs.length →
      segmentsTextLoop cd (some (.seq (segs.map (segTree cd)))) (List.range' a k) acc =
        .ok (true, acc ++ (segs.drop a).map (reload rnd)) := by
  intro k
  induction k with
  | zero =>
    intro a acc hk
    rw [List.drop_of_length_le (by omega)]
    simp [segmentsTextLoop]
  | succ k ih =>
    intro a acc hk
    have hlt : a < segs.length := by omega
    rw [List.range'_succ]
    simp only [segmentsTextLoop]
    rw [show YNode.idx cd (some (.seq (segs.map (segTree cd)))) a = .ok (some (segTree cd segs[a])) by
      simp [YNode.idx, hlt], Res.ok_bind, segmentFromText_segTree hc (h _ (by simp)).1 (h _ (by simp)).2,
      Res.ok_bind]
    simp only
    rw [ih (a + 1) _ (by omega), List.drop_eq_getElem_cons hlt, List.map_cons, List.append_assoc]
    rfl

theorem segmentsFromFile_ok {cd : Codec K S} {rnd : K → K} (hc : ReadsBack cd rnd) (segs old : List (Segment K))
    (h : ∀ s ∈ segs, Writable s ∧ ∀ p ∈ s.polys, p.coeffs.length = s.N) :
    segmentsFromFile cd (.tree (.map [("segments", .seq (segs.map (segTree cd)))])) old =
      .ok (true, segs.map (reload rnd)) := by
  unfold segmentsFromFile
  simp only [YNode.getMut, List.lookup, beq_self_eq_true, Res.ok_bind, Option.isNone_some,
    Bool.false_eq_true, if_false, YNode.size, List.length_map]
  rw [List.range_eq_range', segmentsTextLoop_ok hc segs h segs.length 0 [] (by omega)]
  simp

end
end Verif
