import Verif.Spec.Io
import Verif.Proofs.TrajectoryOps
import Mathlib.Tactic.Ring
import Mathlib.Tactic.Linarith
import Mathlib.Tactic.FieldSimp

/-
Lemmas on reading and writing trajectories.
-/
namespace Verif

open Spec

variable {K S : Type}

theorem Res.mapM_forall₂ {α β : Type} {f : α → Res β} {l : List α} {r : List β} :
    l.mapM f = .ok r ↔ List.Forall₂ (fun a b => f a = .ok b) l r := by
  induction l generalizing r with
  | nil =>
    constructor
    · intro h
      have : r = [] := by simpa using h.symm
      subst this; exact .nil
    · intro h; cases h; rfl
  | cons a l ih =>
    rw [List.mapM_cons, Res.bind_eq_ok]
    constructor
    · rintro ⟨b, hb, h⟩
      rw [Res.bind_eq_ok] at h
      obtain ⟨bs, hbs, h⟩ := h
      rw [Res.pure_eq, Res.ok.injEq] at h
      subst h
      exact .cons hb (ih.mp hbs)
    · intro h
      cases h with
      | cons hb hbs => exact ⟨_, hb, by rw [ih.mpr hbs]; rfl⟩

theorem YNode.as_eq_ok {α : Type} {conv : S → Option α} {n : YNode S} {a : α} :
    n.as conv = .ok a ↔ ∃ s, n = some (.scalar s) ∧ conv s = some a := by
  unfold YNode.as
  split
  · rename_i s
    cases h : conv s <;> simp [h]
  · rename_i h
    constructor
    · intro h'; cases h'
    · rintro ⟨s, rfl, _⟩; exact absurd rfl (h s)

theorem YNode.isSequence_eq_true {n : YNode S} : n.isSequence = .ok true ↔ ∃ l, n = some (.seq l) := by
  unfold YNode.isSequence
  split <;> simp_all

theorem YNode.get_eq_some {n : YNode S} {key : String} {y : Yaml S} :
    n.get key = .ok (some y) ↔ ∃ m, n = some (.map m) ∧ m.lookup key = some y := by
  unfold YNode.get
  split <;> simp_all

theorem mapM_range_idx {α β : Type} (l : List α) (f : Option α → Res β) :
    ∀ (a k : ℕ), k + a = l.length →
      (List.range' a k).mapM (fun i => f l[i]?) = (l.drop a).mapM fun x => f (some x) := by
  intro a k
  induction k generalizing a with
  | zero =>
    intro h
    rw [List.drop_of_length_le (by omega)]; rfl
  | succ k ih =>
    intro h
    have hlt : a < l.length := by omega
    rw [List.range'_succ, List.mapM_cons, List.drop_eq_getElem_cons hlt, List.mapM_cons,
      List.getElem?_eq_getElem hlt, ih (a + 1) (by omega)]

theorem mapM_range_all {α β : Type} (l : List α) (f : Option α → Res β) :
    (List.range l.length).mapM (fun i => f l[i]?) = l.mapM fun x => f (some x) := by
  rw [List.range_eq_range', mapM_range_idx l f 0 l.length (by omega), List.drop_zero]

theorem coefficientsFromYaml_seq (cd : Codec K S) (l : List (Yaml S)) :
    coefficientsFromYaml cd (some (.seq l)) =
      (do let c ← l.mapM (fun y => YNode.as cd.getD (some y)); pure (some c)) := by
  unfold coefficientsFromYaml
  simp only [YNode.isSequence, Res.ok_bind, if_true, YNode.size, YNode.idx]
  rw [mapM_range_all l fun e => YNode.as cd.getD e]

theorem coefficientsFromYaml_eq_some {cd : Codec K S} {n : YNode S} {c : List K} :
    coefficientsFromYaml cd n = .ok (some c) ↔ ∃ y, n = some y ∧ DescribesNumbers cd y c := by
  constructor
  · intro h
    have hs : n.isSequence = .ok true := by
      unfold coefficientsFromYaml at h
      rw [Res.bind_eq_ok] at h
      obtain ⟨b, hb, h⟩ := h
      cases b
      · simp at h
      · exact hb
    obtain ⟨l, rfl⟩ := YNode.isSequence_eq_true.mp hs
    rw [coefficientsFromYaml_seq, Res.bind_eq_ok] at h
    obtain ⟨c', h1, h2⟩ := h
    simp only [Res.pure_eq, Res.ok.injEq, Option.some.injEq] at h2
    subst h2
    refine ⟨_, rfl, l, rfl, ?_⟩
    refine (Res.mapM_forall₂.mp h1).imp ?_
    intro e x hx
    obtain ⟨s, hs, hc⟩ := YNode.as_eq_ok.mp hx
    exact ⟨s, Option.some.inj hs, hc⟩
  · rintro ⟨y, rfl, l, rfl, h⟩
    rw [coefficientsFromYaml_seq, Res.mapM_forall₂.mpr (h.imp ?_)]
    · rfl
    · rintro e x ⟨t, rfl, ht⟩
      exact YNode.as_eq_ok.mpr ⟨t, rfl, ht⟩

/-- The loop over the dimensions `a, ..., a + k - 1`. -/
theorem fillCoefficients_eq_some {cd : Codec K S} {cs : List (Yaml S)} :
    ∀ (k a : ℕ) (s s' : Segment K), s.polys.length = a + k →
      (fillCoefficients cd (some (.seq cs)) (List.range' a k) s = .ok (some s') ↔
        ∃ ps, s' = { s with polys := s.polys.take a ++ ps } ∧ ps.length = k ∧
          (0 < k → a + k ≤ cs.length) ∧
          List.Forall₂ (fun e p => DescribesNumbers cd e p.coeffs) ((cs.drop a).take k) ps) := by
  intro k
  induction k with
  | zero =>
    intro a s s' hs
    have htake : s.polys.take a = s.polys := List.take_of_length_le (by omega)
    simp only [List.range'_zero, fillCoefficients, Res.ok.injEq, Option.some.injEq, List.take_zero]
    constructor
    · rintro rfl
      exact ⟨[], by rw [htake, List.append_nil], rfl, by omega, .nil⟩
    · rintro ⟨ps, rfl, hps, _, _⟩
      rw [List.length_eq_zero_iff] at hps
      subst hps
      rw [htake, List.append_nil]
  | succ k ih =>
    intro a s s' hs
    have hlt : a < s.polys.length := by omega
    have hD : a < s.D := hlt
    rw [List.range'_succ]
    simp only [fillCoefficients, YNode.idx, Res.ok_bind]
    constructor
    · intro h
      rw [Res.bind_eq_ok] at h
      obtain ⟨c, hc, h⟩ := h
      cases c with
      | none => simp at h
      | some c =>
        obtain ⟨y, hy, hd⟩ := coefficientsFromYaml_eq_some.mp hc
        have hlt' : a < cs.length := by
          by_contra hn
          rw [List.getElem?_eq_none (by omega)] at hy
          cases hy
        rw [List.getElem?_eq_getElem hlt', Option.some.injEq] at hy
        subst hy
        simp only [Segment.set, Res.check_of hD, Res.ok_bind, Res.pure_eq] at h
        rw [ih (a + 1) _ s' (by simp; omega)] at h
        obtain ⟨ps, rfl, hlen, hle, hf⟩ := h
        refine ⟨⟨c⟩ :: ps, ?_, by simp [hlen], ?_, ?_⟩
        · rw [List.take_add_one, List.take_set, List.getElem?_set_self hlt,
            List.set_eq_of_length_le (by simp)]
          simp
        · intro _
          rcases Nat.eq_zero_or_pos k with rfl | hk
          · omega
          · have := hle hk; omega
        · rw [List.drop_eq_getElem_cons hlt', List.take_succ_cons]
          exact .cons hd hf
    · rintro ⟨ps, rfl, hlen, hle, hf⟩
      have hlt' : a < cs.length := by have := hle (by omega); omega
      rw [List.drop_eq_getElem_cons hlt', List.take_succ_cons] at hf
      cases hf with
      | @cons _ p _ ps hd hf =>
        rw [List.getElem?_eq_getElem hlt', coefficientsFromYaml_eq_some.mpr ⟨_, rfl, hd⟩, Res.ok_bind]
        simp only [Segment.set, Res.check_of hD, Res.ok_bind, Res.pure_eq]
        rw [ih (a + 1) _ _ (by simp; omega)]
        refine ⟨ps, ?_, by simpa using hlen, ?_, hf⟩
        · rw [List.take_add_one, List.take_set, List.getElem?_set_self hlt,
            List.set_eq_of_length_le (by simp)]
          simp
        · intro _; have := hle (by omega); omega

section Read
variable [Field K]

theorem isNone_ite {α : Type} {n : YNode S} {f : Res (Option α)} {a : α} :
    (if n.isNone = true then pure none else f) = Res.ok (some a) ↔ (∃ y, n = some y) ∧ f = .ok (some a) := by
  cases n <;> simp

theorem segmentFromYaml_eq_some {cd : Codec K S} {n : YNode S} {s : Segment K} :
    segmentFromYaml cd n = .ok (some s) ↔ ∃ y, n = some y ∧ DescribesSegment cd y s := by
  constructor
  · intro h
    unfold segmentFromYaml at h
    obtain ⟨nN, hN, h⟩ := Res.bind_eq_ok.mp h
    obtain ⟨⟨yN, rfl⟩, h⟩ := isNone_ite.mp h
    obtain ⟨nD, hD, h⟩ := Res.bind_eq_ok.mp h
    obtain ⟨⟨yD, rfl⟩, h⟩ := isNone_ite.mp h
    obtain ⟨nT, hT, h⟩ := Res.bind_eq_ok.mp h
    obtain ⟨⟨yT, rfl⟩, h⟩ := isNone_ite.mp h
    obtain ⟨nC, hC, h⟩ := Res.bind_eq_ok.mp h
    obtain ⟨⟨yC, rfl⟩, h⟩ := isNone_ite.mp h
    obtain ⟨b, hb, h⟩ := Res.bind_eq_ok.mp h
    cases b with
    | false => simp at h
    | true =>
    simp only [Bool.true_eq_false, if_false] at h
    obtain ⟨cs, hcs⟩ := YNode.isSequence_eq_true.mp hb
    cases hcs
    obtain ⟨vn, hvn, h⟩ := Res.bind_eq_ok.mp h
    obtain ⟨vd, hvd, h⟩ := Res.bind_eq_ok.mp h
    obtain ⟨s0, hs0, h⟩ := Res.bind_eq_ok.mp h
    obtain ⟨r, hr, h⟩ := Res.bind_eq_ok.mp h
    cases r with
    | none => simp at h
    | some s1 =>
    obtain ⟨ns, hns, h⟩ := Res.bind_eq_ok.mp h
    simp only [Res.pure_eq, Res.ok.injEq, Option.some.injEq] at h
    subst h
    obtain ⟨tN, htN, gvn⟩ := YNode.as_eq_ok.mp hvn
    cases htN
    obtain ⟨tD, htD, gvd⟩ := YNode.as_eq_ok.mp hvd
    cases htD
    obtain ⟨tT, htT, gns⟩ := YNode.as_eq_ok.mp hns
    cases htT
    obtain ⟨m, rfl, gN⟩ := YNode.get_eq_some.mp hN
    simp only [YNode.get, Res.ok.injEq] at hD hT hC
    unfold Segment.mkInt at hs0
    split_ifs at hs0 with h1 h2
    simp only [Res.ok.injEq] at hs0
    subst hs0
    have hlen : (Segment.mkZero vn.toNat vd.toNat : Segment K).polys.length = vd.toNat := by
      simp [Segment.mkZero]
    rw [List.range_eq_range', Segment.D, fillCoefficients_eq_some _ 0 _ _ (by simp)] at hr
    obtain ⟨ps, rfl, hps, hle, hf⟩ := hr
    rw [hlen] at hps hle hf
    refine ⟨_, rfl, m, tN, tD, tT, cs, ns, rfl, gN, ?_, hD, ?_, hT, gns, ?_, hC, ?_, ?_⟩
    · rw [gvn]; simp [Segment.setTimeNSec, Segment.mkZero]; omega
    · rw [gvd]; simp [Segment.setTimeNSec, hps]; omega
    · simp [Segment.setTimeNSec]
    · simp only [Segment.setTimeNSec, List.take_zero, List.nil_append, hps]
      rcases Nat.eq_zero_or_pos vd.toNat with h0 | h0
      · omega
      · have := hle h0; omega
    · simp only [Segment.setTimeNSec, List.take_zero, List.nil_append, hps]
      exact hf
  · rintro ⟨y, rfl, m, tN, tD, tT, cs, ns, rfl, hN, hvn, hD, hvd, hT, hns, ht, hC, hle, hf⟩
    unfold segmentFromYaml
    simp only [YNode.get, hN, hD, hT, hC, Res.ok_bind, Option.isNone_some, Bool.false_eq_true, if_false,
      YNode.isSequence, Bool.true_eq_false, YNode.as, hvn, hvd, hns, Segment.mkInt]
    rw [if_neg (by omega), if_neg (by omega)]
    simp only [Res.ok_bind, Int.toNat_natCast]
    have hfill := (fillCoefficients_eq_some (cd := cd) (cs := cs) s.polys.length 0
      (Segment.mkZero s.N s.polys.length) ⟨s.polys, 0, s.N⟩ (by simp [Segment.mkZero])).mpr
      ⟨s.polys, by simp [Segment.mkZero], rfl, by omega, by simpa using hf⟩
    rw [Segment.D, List.range_eq_range']
    have hlen : (Segment.mkZero s.N s.polys.length : Segment K).polys.length = s.polys.length := by
      simp [Segment.mkZero]
    rw [hlen, hfill]
    simp only [Res.ok_bind, Res.pure_eq, Res.ok.injEq, Option.some.injEq]
    rw [Segment.setTimeNSec, ← ht]

theorem segmentsLoop_eq_some {cd : Codec K S} {ys : List (Yaml S)} :
    ∀ (k a : ℕ) (segs : List (Segment K)), k + a = ys.length →
      (segmentsLoop cd (some (.seq ys)) (List.range' a k) = .ok (some segs) ↔
        List.Forall₂ (DescribesSegment cd) (ys.drop a) segs) := by
  intro k
  induction k with
  | zero =>
    intro a segs h
    rw [List.drop_of_length_le (by omega)]
    simp only [List.range'_zero, segmentsLoop, Res.ok.injEq, Option.some.injEq, List.forall₂_nil_left_iff]
    exact eq_comm
  | succ k ih =>
    intro a segs h
    have hlt : a < ys.length := by omega
    rw [List.range'_succ, List.drop_eq_getElem_cons hlt]
    simp only [segmentsLoop, YNode.idx, Res.ok_bind, List.getElem?_eq_getElem hlt]
    rw [Res.bind_eq_ok]
    constructor
    · rintro ⟨s, hs, h2⟩
      cases s with
      | none => simp at h2
      | some s =>
        obtain ⟨y, hy, hd⟩ := segmentFromYaml_eq_some.mp hs
        cases hy
        obtain ⟨r, hr, h2⟩ := Res.bind_eq_ok.mp h2
        cases r with
        | none => simp at h2
        | some r =>
          simp only [Option.map_some, Res.pure_eq, Res.ok.injEq, Option.some.injEq] at h2
          subst h2
          exact .cons hd ((ih (a + 1) r (by omega)).mp hr)
    · intro hf
      cases hf with
      | @cons _ s _ ss hd hf =>
        refine ⟨some s, segmentFromYaml_eq_some.mpr ⟨_, rfl, hd⟩, ?_⟩
        simp only [(ih (a + 1) ss (by omega)).mpr hf]
        rfl

theorem segmentsFromYaml_eq_some {cd : Codec K S} {n : YNode S} {segs : List (Segment K)} :
    segmentsFromYaml cd n = .ok (some segs) ↔
      ∃ ys, n = some (.seq ys) ∧ List.Forall₂ (DescribesSegment cd) ys segs := by
  have key : ∀ ys : List (Yaml S), segmentsFromYaml cd (some (.seq ys)) = .ok (some segs) ↔
      List.Forall₂ (DescribesSegment cd) ys segs := by
    intro ys
    unfold segmentsFromYaml
    simp only [YNode.isSequence, Res.ok_bind, if_true, YNode.size]
    rw [List.range_eq_range', segmentsLoop_eq_some ys.length 0 segs (by omega), List.drop_zero]
  constructor
  · intro h
    have hs : n.isSequence = .ok true := by
      unfold segmentsFromYaml at h
      obtain ⟨b, hb, h⟩ := Res.bind_eq_ok.mp h
      cases b
      · simp at h
      · exact hb
    obtain ⟨ys, rfl⟩ := YNode.isSequence_eq_true.mp hs
    exact ⟨ys, rfl, (key ys).mp h⟩
  · rintro ⟨ys, rfl, h⟩
    exact (key ys).mpr h

theorem trajectoryFromYaml_eq_some {cd : Codec K S} {y : Yaml S} {tr : Trajectory K} :
    trajectoryFromYaml cd (some y) = .ok (some tr) ↔ DescribesTrajectory cd y tr := by
  constructor
  · intro h
    unfold trajectoryFromYaml at h
    obtain ⟨n, hn, h⟩ := Res.bind_eq_ok.mp h
    obtain ⟨s, hs, h⟩ := Res.bind_eq_ok.mp h
    cases s with
    | none => simp at h
    | some segs =>
      obtain ⟨tr', htr, h⟩ := Res.bind_eq_ok.mp h
      simp only [Res.pure_eq, Res.ok.injEq, Option.some.injEq] at h
      subst h
      obtain ⟨ys, rfl, hf⟩ := segmentsFromYaml_eq_some.mp hs
      obtain ⟨m, hm, hl⟩ := YNode.get_eq_some.mp hn
      cases hm
      obtain ⟨h1, h2, rfl, h4⟩ := (setSegments_ok_iff _ _).mp htr
      refine ⟨m, ys, rfl, hl, ?_, hf, h2, h4⟩
      rintro rfl
      exact h1 (by simpa using hf)
  · rintro ⟨m, ys, rfl, hl, hne, hf, h2, h4⟩
    unfold trajectoryFromYaml
    simp only [YNode.get, hl, Res.ok_bind]
    rw [segmentsFromYaml_eq_some.mpr ⟨ys, rfl, hf⟩]
    simp only [Res.ok_bind]
    rw [(setSegments_ok_iff tr tr.segments).mpr ⟨?_, h2, rfl, h4⟩]
    · rfl
    · intro h0
      rw [h0] at hf
      exact hne (by simpa using hf)

end Read
end Verif
