import Verif.Spec.RosConversions
import Verif.Proofs.IoWrite

/-
Lemmas on the message conversions.
-/
namespace Verif

open Spec

set_option linter.unusedSectionVars false

variable {K M : Type}

theorem coeffsOf_ok [Zero K] [One K] [Mul K] [NatCast K] (s : Segment K) (i : ℕ) (hi : i < s.polys.length) :
    s.coeffsOf i = .ok s.polys[i].coeffs := by
  unfold Segment.coeffsOf Segment.get
  rw [Res.check_of (show i < s.D from hi), Res.ok_bind, Res.at'_of_lt hi, Res.ok_bind,
    Poly.getCoefficients_zero]

theorem setCoeffs_ok [Field K] (s : Segment K) (i : ℕ) (c : List K) (hi : i < s.polys.length)
    (hc : c.length = s.polys[i].coeffs.length) :
    s.setCoeffs i c = .ok { s with polys := s.polys.set i ⟨c⟩ } := by
  unfold Segment.setCoeffs Segment.get Segment.set
  simp only [Res.check_of (show i < s.D from hi), Res.ok_bind, Res.at'_of_lt hi]
  unfold Poly.setCoefficients
  rw [Res.check_of (by rw [Poly.N]; exact hc.symm)]
  rfl

section
variable [Field K] [LinearOrder K] [IsStrictOrderedRing K] [FloorRing K]

/-- Converting a segment with 3, 4 or (if the message type allows it) 6 dimensions and back. -/
theorem eigen_roundtrip (six : Bool) (s : Segment K) (h : Writable s) (hN : 0 < s.N)
    (hpn : ∀ p ∈ s.polys, p.coeffs.length = s.N)
    (hD : s.polys.length = 3 ∨ s.polys.length = 4 ∨ six = true ∧ s.polys.length = 6) :
    ∃ e, eigenSegOf s = .ok e ∧ e.timeNs = ⌊10 ^ 9 * s.time⌋.toNat ∧
      (six = false → e = { e with rx := [], ry := [], rz := [] }) ∧
      segmentOfEigen six e = .ok (reload id s) := by
  have ht := (getTimeNSec_ok h).1
  obtain ⟨ps, time, N⟩ := s
  simp only at hpn hN hD
  rcases hD with hD | hD | ⟨rfl, hD⟩
  · match ps, hD with
    | [⟨a⟩, ⟨b⟩, ⟨c⟩], _ =>
    simp only [List.mem_cons, List.not_mem_nil, or_false, forall_eq_or_imp, forall_eq] at hpn
    obtain ⟨ha, hb, hc⟩ := hpn
    refine ⟨⟨a, b, c, [], [], [], [], N, ⌊10 ^ 9 * time⌋.toNat⟩, ?_, rfl, fun _ => rfl, ?_⟩
    · unfold eigenSegOf
      rw [coeffsOf_ok _ 0 (by simp), coeffsOf_ok _ 1 (by simp), coeffsOf_ok _ 2 (by simp), ht]
      rfl
    · unfold segmentOfEigen
      simp only [List.length_nil, gt_iff_lt, lt_self_iff_false, and_false, if_false]
      rw [setCoeffs_ok _ 0 _ (by simp [Segment.mkZero]) (by simp [Segment.mkZero, Poly.zero]), Res.ok_bind,
        setCoeffs_ok _ 1 _ (by simp [Segment.mkZero]) (by simp [Segment.mkZero, Poly.zero, ha, hb]),
        Res.ok_bind,
        setCoeffs_ok _ 2 _ (by simp [Segment.mkZero]) (by simp [Segment.mkZero, Poly.zero, ha, hc]),
        Res.ok_bind]
      simp [reload, Segment.setTimeNSec, Segment.mkZero, List.replicate_succ, ha]
  · match ps, hD with
    | [⟨a⟩, ⟨b⟩, ⟨c⟩, ⟨d⟩], _ =>
    simp only [List.mem_cons, List.not_mem_nil, or_false, forall_eq_or_imp, forall_eq] at hpn
    obtain ⟨ha, hb, hc, hd⟩ := hpn
    refine ⟨⟨a, b, c, d, [], [], [], N, ⌊10 ^ 9 * time⌋.toNat⟩, ?_, rfl, fun _ => rfl, ?_⟩
    · unfold eigenSegOf
      rw [coeffsOf_ok _ 0 (by simp), coeffsOf_ok _ 1 (by simp), coeffsOf_ok _ 2 (by simp),
        coeffsOf_ok _ 3 (by simp), ht]
      rfl
    · have hd0 : 0 < d.length := by omega
      unfold segmentOfEigen
      simp only [List.length_nil, gt_iff_lt, lt_self_iff_false, and_false, if_false, hd0, if_true]
      rw [setCoeffs_ok _ 0 _ (by simp [Segment.mkZero]) (by simp [Segment.mkZero, Poly.zero]), Res.ok_bind,
        setCoeffs_ok _ 1 _ (by simp [Segment.mkZero]) (by simp [Segment.mkZero, Poly.zero, ha, hb]),
        Res.ok_bind,
        setCoeffs_ok _ 2 _ (by simp [Segment.mkZero]) (by simp [Segment.mkZero, Poly.zero, ha, hc]),
        Res.ok_bind,
        setCoeffs_ok _ 3 _ (by simp [Segment.mkZero]) (by simp [Segment.mkZero, Poly.zero, ha, hd])]
      simp [reload, Segment.setTimeNSec, Segment.mkZero, List.replicate_succ, ha]
  · match ps, hD with
    | [⟨a⟩, ⟨b⟩, ⟨c⟩, ⟨d⟩, ⟨e⟩, ⟨f⟩], _ =>
    simp only [List.mem_cons, List.not_mem_nil, or_false, forall_eq_or_imp, forall_eq] at hpn
    obtain ⟨ha, hb, hc, hd, he, hf⟩ := hpn
    refine ⟨⟨a, b, c, [], d, e, f, N, ⌊10 ^ 9 * time⌋.toNat⟩, ?_, rfl, by simp, ?_⟩
    · unfold eigenSegOf
      rw [coeffsOf_ok _ 0 (by simp), coeffsOf_ok _ 1 (by simp), coeffsOf_ok _ 2 (by simp),
        coeffsOf_ok _ 3 (by simp), coeffsOf_ok _ 4 (by simp), coeffsOf_ok _ 5 (by simp), ht]
      rfl
    · have hd0 : 0 < d.length := by omega
      have he0 : 0 < e.length := by omega
      have hf0 : 0 < f.length := by omega
      unfold segmentOfEigen
      simp only [gt_iff_lt, hd0, he0, hf0, and_self, if_true, Nat.reduceEqDiff, if_false]
      rw [setCoeffs_ok _ 0 _ (by simp [Segment.mkZero]) (by simp [Segment.mkZero, Poly.zero]), Res.ok_bind,
        setCoeffs_ok _ 1 _ (by simp [Segment.mkZero]) (by simp [Segment.mkZero, Poly.zero, ha, hb]),
        Res.ok_bind,
        setCoeffs_ok _ 2 _ (by simp [Segment.mkZero]) (by simp [Segment.mkZero, Poly.zero, ha, hc]),
        Res.ok_bind,
        setCoeffs_ok _ 3 _ (by simp [Segment.mkZero]) (by simp [Segment.mkZero, Poly.zero, ha, hd]),
        Res.ok_bind,
        setCoeffs_ok _ 4 _ (by simp [Segment.mkZero]) (by simp [Segment.mkZero, Poly.zero, ha, he]),
        Res.ok_bind,
        setCoeffs_ok _ 5 _ (by simp [Segment.mkZero]) (by simp [Segment.mkZero, Poly.zero, ha, hf])]
      simp [reload, Segment.setTimeNSec, Segment.mkZero, List.replicate_succ, ha]

/-- The loops of both directions. -/
theorem msg_roundtrip (six : Bool) (allowed : List ℕ) (mc : MsgConv K M)
    (hmc : ∀ e : EigenSeg K, e.timeNs < 2 ^ 31 * 10 ^ 9 →
      (six = false → e = { e with rx := [], ry := [], rz := [] }) → mc.fromMsg (mc.toMsg e) = e) :
    ∀ segs : List (Segment K),
    (∀ s ∈ segs, Writable s ∧ s.time < 2 ^ 31 ∧ 0 < s.N ∧ (∀ p ∈ s.polys, p.coeffs.length = s.N) ∧
      s.polys.length ∈ allowed ∧
      (s.polys.length = 3 ∨ s.polys.length = 4 ∨ six = true ∧ s.polys.length = 6)) →
    ∃ l, toMsgLoop mc allowed segs = .ok (some l) ∧
      l.mapM (fun m => segmentOfEigen six (mc.fromMsg m)) = .ok (segs.map (reload id)) := by
  intro segs
  induction segs with
  | nil => intro _; exact ⟨[], rfl, rfl⟩
  | cons s ss ih =>
    intro hs
    obtain ⟨l, h1, h2⟩ := ih (fun t ht => hs t (by simp [ht]))
    obtain ⟨hw, ht, hN, hpn, hal, hD⟩ := hs s (by simp)
    obtain ⟨e, he, hns, hsix, hback⟩ := eigen_roundtrip six s hw hN hpn hD
    refine ⟨mc.toMsg e :: l, ?_, ?_⟩
    · unfold toMsgLoop
      rw [if_neg (not_not.mpr (show s.D ∈ allowed from hal)), he, Res.ok_bind, h1]
      rfl
    · rw [List.mapM_cons, hmc e ?_ hsix, hback, Res.ok_bind, h2]
      · rfl
      · rw [hns]
        have h0 : (0 : ℤ) ≤ ⌊10 ^ 9 * s.time⌋ := Int.floor_nonneg.mpr (mul_nonneg (by positivity) hw.time0)
        have : ⌊10 ^ 9 * s.time⌋ < 2 ^ 31 * 10 ^ 9 := by
          rw [Int.floor_lt]
          push_cast
          nlinarith
        omega

theorem setSegments_reload (tr : Trajectory K) (hne : tr.segments ≠ [])
    (hdn : ∀ s ∈ tr.segments, s.D = tr.D ∧ s.N = tr.N) :
    Trajectory.setSegments (tr.segments.map (reload id)) = .ok ⟨tr.D, tr.N,
      ((tr.segments.map (reload id)).map (·.time)).sum, tr.segments.map (reload id)⟩ := by
  rw [setSegments_ok_iff]
  refine ⟨by simpa using hne, ?_, rfl, rfl⟩
  simp only [List.mem_map, forall_exists_index, and_imp]
  rintro s' s hs rfl
  exact ⟨by rw [← (hdn s hs).1]; simp [reload, Segment.D], (hdn s hs).2⟩

end
end Verif
