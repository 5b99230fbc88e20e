import Verif.Proofs.DoubleLimits
import Verif.Proofs.RoundedTimes

/- Helper lemmas: estimated times for positions that are none, and the way from vertices to a trajectory. -/
namespace Verif

open Spec

/-! ### Estimated times -/

theorem orderSum_nan {x : ℕ → Dbl} {i : ℕ} (hx : x i = .nan) : ∀ {o : AddOrder}, i ∈ o.indices → o.sum x = .nan
  | .leaf j, h => by
    have : i = j := by simpa [AddOrder.indices] using h
    rw [AddOrder.sum, ← this, hx]
  | .node l r, h => by
    rw [AddOrder.indices, List.mem_append] at h
    rw [AddOrder.sum]
    rcases h with h | h
    · rw [orderSum_nan hx h, nan_add]
    · rw [orderSum_nan hx h, add_nan]

theorem norm_nan {order : ℕ → AddOrder} (ho : Orders order) {l : List Dbl} {i : ℕ} (hi : l[i]? = some .nan) :
    orderedNorm Dbl.sqrt order l = .nan := by
  have hlt := (List.getElem?_eq_some_iff.mp hi).1
  unfold orderedNorm
  rw [if_neg (by omega), orderSum_nan (i := i)]
  · rfl
  · rw [List.getD_eq_getElem?_getD, hi]; rfl
  · exact (ho l.length (by omega)).mem_iff.mpr (List.mem_range.mpr hlt)

theorem vecSub_nan {a b c : List Dbl} (h : vecSubG a b = .ok c) {i : ℕ} (hi : a[i]? = some .nan ∨ b[i]? = some .nan) :
    c[i]? = some .nan := by
  unfold vecSubG at h
  split_ifs at h with hl
  rw [Res.ok.injEq] at h
  subst h
  have hsn : ∀ x : Dbl, x - .nan = .nan := fun x => by cases x <;> rfl
  rw [List.getElem?_zipWith]
  rcases hi with hi | hi
  · have h1 := (List.getElem?_eq_some_iff.mp hi).1
    rw [hi, List.getElem?_eq_getElem (by omega : i < b.length)]
    simp only [nan_sub]
  · have h1 := (List.getElem?_eq_some_iff.mp hi).1
    rw [hi, List.getElem?_eq_getElem (by omega : i < a.length)]
    simp only [hsn]

theorem ramp_nan {order : ℕ → AddOrder} (ho : Orders order) (exp : Dbl → Dbl) {a b : List Dbl} (hab : NanEnds a b) (v m : Dbl) :
    (computeTimeVelocityRampG (dblTimeLib order exp) a b v m).Sat (· = .nan) := by
  intro r h
  unfold computeTimeVelocityRampG at h
  rw [Res.bind_eq_ok] at h
  obtain ⟨c, hc, h⟩ := h
  obtain ⟨i, hi⟩ := hab
  have hn : (dblTimeLib order exp).norm c = .nan := norm_nan ho (vecSub_nan hc hi)
  dsimp only at h
  rw [hn, if_neg (not_nan_lt _), nan_sub, nan_div, add_nan, Res.pure_eq, Res.ok.injEq] at h
  exact h.symm

theorem nfabian_nan {order : ℕ → AddOrder} (ho : Orders order) (exp : Dbl → Dbl) {a b : List Dbl} (hab : NanEnds a b) (v m c : Dbl) :
    (nfabianTimeG (dblTimeLib order exp) a b v m c).Sat (· = .nan) := by
  intro r h
  unfold nfabianTimeG at h
  rw [Res.bind_eq_ok] at h
  obtain ⟨d, hd, h⟩ := h
  obtain ⟨i, hi⟩ := hab
  have hn : (dblTimeLib order exp).norm d = .nan := norm_nan ho (vecSub_nan hd hi.symm)
  dsimp only at h
  rw [hn, nan_div, nan_mul, nan_mul, Res.pure_eq, Res.ok.injEq] at h
  exact h.symm

theorem pairs_entry {α β : Type} {f : α × α → Res β} {l : List α} {r : List β} (h : (l.zip l.tail).mapM f = .ok r) :
    r.length = l.length - 1 ∧ ∀ (i : ℕ) (t : β), r[i]? = some t →
      ∃ a b, l[i]? = some a ∧ l[i + 1]? = some b ∧ f (a, b) = .ok t := by
  rw [Res.mapM_forall₂] at h
  have hl := h.length_eq
  rw [List.length_zip, List.length_tail] at hl
  refine ⟨by omega, fun i t ht => ?_⟩
  obtain ⟨hi, e⟩ := List.getElem?_eq_some_iff.mp ht
  have hg := h.get (i := i) (by rw [List.length_zip, List.length_tail]; omega) hi
  simp only [List.get_eq_getElem, List.getElem_zip, List.getElem_tail, e] at hg
  exact ⟨_, _, List.getElem?_eq_getElem (by omega), List.getElem?_eq_getElem (by omega), hg⟩

theorem ramp_entries {order : ℕ → AddOrder} (ho : Orders order) (exp : Dbl → Dbl) {vertices : List (Vertex Dbl)} {v m : Dbl}
    {ts : List Dbl} (h : estimateSegmentTimesVelocityRampG (dblTimeLib order exp) vertices v m = .ok ts) :
    vertices.length = ts.length + 1 ∧ ∀ (i : ℕ) (t : Dbl) (a b : Vertex Dbl), ts[i]? = some t → vertices[i]? = some a →
      vertices[i + 1]? = some b → NanEnds a.position b.position → t = .ofReal (1 / 10) := by
  unfold estimateSegmentTimesVelocityRampG at h
  rw [Res.bind_eq_ok] at h
  obtain ⟨_, h1, h⟩ := h
  have h2 := Res.check_eq_ok.mp h1
  obtain ⟨hl, he⟩ := pairs_entry h
  refine ⟨by omega, fun i t a b ht ha hb hn => ?_⟩
  obtain ⟨a', b', ha', hb', hf⟩ := he i t ht
  rw [ha, Option.some.injEq] at ha'
  rw [hb, Option.some.injEq] at hb'
  subst ha' hb'
  rw [Res.bind_eq_ok] at hf
  obtain ⟨x, hx, hf⟩ := hf
  rw [ramp_nan ho exp hn v m x hx, if_neg (not_lt_nan _), Res.pure_eq, Res.ok.injEq] at hf
  exact hf.symm

theorem nfabian_entries {order : ℕ → AddOrder} (ho : Orders order) (exp : Dbl → Dbl) {vertices : List (Vertex Dbl)} {v m c : Dbl}
    {ts : List Dbl} (h : estimateSegmentTimesNfabianG (dblTimeLib order exp) vertices v m c = .ok ts) :
    vertices.length = ts.length + 1 ∧ ∀ (i : ℕ) (t : Dbl) (a b : Vertex Dbl), ts[i]? = some t → vertices[i]? = some a →
      vertices[i + 1]? = some b → NanEnds a.position b.position → t = .nan := by
  unfold estimateSegmentTimesNfabianG at h
  rw [Res.bind_eq_ok] at h
  obtain ⟨_, h1, h⟩ := h
  have h2 := Res.check_eq_ok.mp h1
  obtain ⟨hl, he⟩ := pairs_entry h
  refine ⟨by omega, fun i t a b ht ha hb hn => ?_⟩
  obtain ⟨a', b', ha', hb', hf⟩ := he i t ht
  rw [ha, Option.some.injEq] at ha'
  rw [hb, Option.some.injEq] at hb'
  subst ha' hb'
  exact nfabian_nan ho exp hn v m c t hf

theorem mem_zip_tail {α : Type} {l : List α} {p : α × α} (h : p ∈ l.zip l.tail) : p.1 ∈ l ∧ p.2 ∈ l :=
  ⟨(List.of_mem_zip h).1, List.mem_of_mem_tail (List.of_mem_zip h).2⟩

theorem ramp_returns (L : TimeLib Dbl) {vertices : List (Vertex Dbl)} (h2 : 2 ≤ vertices.length) {D : ℕ}
    (hp : ∀ w ∈ vertices, w.position.length = D) (v m : Dbl) : ∃ ts, estimateSegmentTimesVelocityRampG L vertices v m = .ok ts := by
  unfold estimateSegmentTimesVelocityRampG
  rw [Res.check_of h2, Res.ok_bind]
  obtain ⟨r, hr, _⟩ := mapM_returns (f := fun p : Vertex Dbl × Vertex Dbl => do
      let t ← computeTimeVelocityRampG L p.1.position p.2.position v m
      pure (if L.tenth < t then t else L.tenth)) (vertices.zip vertices.tail) fun p hp' => by
    obtain ⟨g1, g2⟩ := mem_zip_tail hp'
    unfold computeTimeVelocityRampG vecSubG
    rw [if_pos (by rw [hp _ g1, hp _ g2]), Res.ok_bind]
    dsimp only
    split_ifs <;> exact ⟨_, rfl⟩
  exact ⟨r, hr⟩

theorem nfabian_returns (L : TimeLib Dbl) {vertices : List (Vertex Dbl)} (h2 : 2 ≤ vertices.length) {D : ℕ}
    (hp : ∀ w ∈ vertices, w.position.length = D) (v m c : Dbl) : ∃ ts, estimateSegmentTimesNfabianG L vertices v m c = .ok ts := by
  unfold estimateSegmentTimesNfabianG
  rw [Res.check_of h2, Res.ok_bind]
  obtain ⟨r, hr, _⟩ := mapM_returns (f := fun p : Vertex Dbl × Vertex Dbl => nfabianTimeG L p.1.position p.2.position v m c)
    (vertices.zip vertices.tail) fun p hp' => by
    obtain ⟨g1, g2⟩ := mem_zip_tail hp'
    unfold nfabianTimeG vecSubG
    rw [if_pos (by rw [hp _ g1, hp _ g2]), Res.ok_bind]
    exact ⟨_, rfl⟩
  exact ⟨r, hr⟩

theorem tenth_above : Above (.ofReal (1 / 10)) := by
  have h : IsDouble ((2 : ℝ) ^ (-4 : ℤ)) := ⟨1, -4, by norm_num, by norm_num, by norm_num, by norm_num⟩
  right
  refine ⟨round64 (1 / 10), lt_of_lt_of_le (zpow2_pos (-4)) (double_le_round64 h (by norm_num)), ofReal_half (small_lt ?_)⟩
  rw [abs_of_pos (by norm_num)]
  norm_num

/-! ### The way to a trajectory -/

section
variable {h : ℕ} {L : OptLib h Dbl}

theorem setup_free {K : Type} [Zero K] [One K] [Add K] [Mul K] [Neg K] [Div K] [NatCast K] [LT K] [DecidableLT K]
    {L : OptLib h K} {vs : List (Vertex K)} {ts : List K} {k : ℤ} {o o' : LinOpt h K}
    (ho : o.setupFromVerticesG L vs ts k = .ok o') : o'.freeCompact = o.freeCompact := by
  unfold LinOpt.setupFromVerticesG at ho
  rw [Res.bind_eq_ok] at ho
  obtain ⟨_, -, ho⟩ := ho
  split_ifs at ho
  simp only at ho
  rw [Res.bind_eq_ok] at ho
  obtain ⟨_, -, ho⟩ := ho
  rw [Res.bind_eq_ok] at ho
  obtain ⟨_, -, ho⟩ := ho
  rw [Res.bind_eq_ok] at ho
  obtain ⟨o2, h2, ho⟩ := ho
  obtain ⟨-, c, m, rfl⟩ := updateTimesG_inv h2
  unfold LinOpt.setupReordering at ho
  simp only at ho
  rw [Res.bind_eq_ok] at ho
  obtain ⟨df, -, ho⟩ := ho
  rw [Res.pure_eq, Res.ok.injEq] at ho
  subst ho
  rfl

theorem fresh_solve {dim : ℕ} {vertices : List (Vertex Dbl)} {k : ℕ} {times : List Dbl} {o : LinOpt h Dbl}
    (hp : DblProblem h dim vertices) (ho : (LinOpt.new dim).setupFromVerticesG L vertices times k = .ok o) (sol) :
    ∃ o', o.solveLinearG L sol = .ok o' := by
  obtain ⟨r, hd⟩ := setup_ready (new_sane dim) hp ho
  have hd' : o.dimension = dim := hd
  refine solveG_ok r (by rw [hd']; exact hp.dim_pos) (Or.inr fun v hv => ?_) sol
  rw [setup_free ho] at hv
  exact List.eq_of_mem_replicate hv

theorem addLoop_ok {K : Type} [Add K] {D N : ℕ} : ∀ (segs : List (Segment K)) (m : K), (∀ s ∈ segs, s.D = D ∧ s.N = N) →
    ∃ r, addSegmentsLoop D N segs m = .ok r
  | [], m, _ => ⟨m, rfl⟩
  | s :: ss, m, hs => by
    obtain ⟨h1, h2⟩ := hs s (List.mem_cons_self ..)
    rw [addSegmentsLoop, Res.check_of h1, Res.ok_bind, Res.check_of h2, Res.ok_bind]
    exact addLoop_ok ss _ fun x hx => hs x (List.mem_cons_of_mem _ hx)

theorem trajectory_ok {K : Type} [Zero K] [Add K] {D N : ℕ} {segs : List (Segment K)} (hne : segs ≠ [])
    (hs : ∀ s ∈ segs, s.D = D ∧ s.N = N) : ∃ tr, Trajectory.setSegments segs = .ok tr ∧ tr.segments = segs ∧ tr.D = D ∧ tr.N = N := by
  cases segs with
  | nil => exact absurd rfl hne
  | cons s ss =>
    obtain ⟨h1, h2⟩ := hs s (List.mem_cons_self ..)
    obtain ⟨r, hr⟩ := addLoop_ok (s :: ss) (0 : K) hs
    rw [Trajectory.setSegments, Trajectory.addSegments]
    dsimp only
    rw [h1, h2, hr]
    exact ⟨_, rfl, by simp, rfl, rfl⟩

theorem solved_shape {vertices : List (Vertex Dbl)} {k : ℕ} {times : List Dbl} {o o' : LinOpt h Dbl}
    (hs : DblSession L vertices k times o) {sol} (ho : o.solveLinearG L sol = .ok o') :
    o'.segments.length = times.length ∧ 0 < times.length ∧
      ∀ s ∈ o'.segments, s.polys.length = o.dimension ∧ s.N = h + h ∧ ∀ p ∈ s.polys, p.N = h + h := by
  obtain ⟨hp, r⟩ := dblSession_ready hs
  have e := (readyG_solve r hp.dim_pos ho).2.2.2
  refine ⟨by rw [e]; simp [segmentsForG], by have := r.nVert; have := r.two; omega, fun s hs => ?_⟩
  rw [e] at hs
  obtain ⟨i, -, rfl⟩ := List.mem_map.mp hs
  refine ⟨by simp, rfl, fun p hp => ?_⟩
  obtain ⟨d, -, rfl⟩ := List.mem_map.mp hp
  simp [Poly.N, segmentCoeffsG]

/-- A trajectory whose segments all start or end at a position that is NaN. -/
theorem pipeline (hdot : DotSpreads L.dot) (h2 : 2 ≤ h) {vertices : List (Vertex Dbl)} {k : ℕ} {times : List Dbl}
    {o o' : LinOpt h Dbl} (hs : DblSession L vertices k times o) {sol} (ho : o.solveLinearG L sol = .ok o')
    (hnan : ∀ (i : ℕ) (a b : Vertex Dbl), vertices[i]? = some a → vertices[i + 1]? = some b → NanEnds a.position b.position) :
    ∃ tr, o'.getTrajectoryG = .ok tr ∧ tr.segments = o'.segments ∧ tr.D = o.dimension ∧
      ∀ s ∈ tr.segments, ∃ d < tr.D, ∃ p, s.polys[d]? = some p ∧ p.N = h + h ∧ ∀ y ∈ p.coeffs, y = .nan := by
  obtain ⟨s1, s2, s3⟩ := solved_shape hs ho
  obtain ⟨tr, e1, e2, e3, -⟩ := trajectory_ok (segs := o'.segments) (D := o.dimension) (N := h + h)
    (fun e => by rw [e, List.length_nil] at s1; omega) fun s hs => ⟨(s3 s hs).1, (s3 s hs).2.1⟩
  refine ⟨tr, e1, e2, e3, fun s hs' => ?_⟩
  rw [e2] at hs'
  obtain ⟨i, hi, rfl⟩ := List.mem_iff_getElem.mp hs'
  obtain ⟨hp, r⟩ := dblSession_ready hs
  have hnv : vertices.length = times.length + 1 := by have := r.nVert; rwa [List.length_map] at this
  have ga : vertices[i]? = some vertices[i] := List.getElem?_eq_getElem (by omega)
  have gb : vertices[i + 1]? = some vertices[i + 1] := List.getElem?_eq_getElem (by omega)
  obtain ⟨d, hd⟩ := hnan i _ _ ga gb
  have main : ∀ (j : ℕ) (v : Vertex Dbl), vertices[j]? = some v → i = j ∨ i + 1 = j → v.position[d]? = some .nan →
      ∃ d < tr.D, ∃ p, (o'.segments[i]).polys[d]? = some p ∧ p.N = h + h ∧ ∀ y ∈ p.coeffs, y = .nan := by
    intro j v hj hij hv
    unfold Vertex.position at hv
    cases hc : v.getConstraint 0 with
    | none => rw [hc] at hv; simp at hv
    | some c =>
      rw [hc, Option.getD_some] at hv
      obtain ⟨p, hp1, hp2, hp3⟩ := (session_spread hdot hs (Or.inl ⟨sol, ho⟩) hj (q := 0) (by omega) hc hv
        (by rintro ⟨x, hx⟩; cases hx)).2 i _ hij (List.getElem?_eq_getElem hi)
      refine ⟨d, ?_, p, hp1, hp2, fun y hy => (hp3 y hy).2 rfl⟩
      rw [e3, ← (s3 _ hs').1]
      exact (List.getElem?_eq_some_iff.mp hp1).1
  rcases hd with hd | hd
  · exact main i _ ga (Or.inl rfl) hd
  · exact main (i + 1) _ gb (Or.inr rfl) hd

theorem seqDot_spreads : DotSpreads Dbl.seqDot := by
  constructor
  · intro n a b i hb
    unfold Dbl.seqDot
    have hm : Dbl.nan ∈ (List.finRange n).map fun i => a i * b i :=
      List.mem_map.mpr ⟨i, List.mem_finRange i, by rw [hb, mul_nan]⟩
    generalize (List.finRange n).map (fun i => a i * b i) = l at hm
    have key : ∀ (l : List Dbl) (acc : Dbl), acc = .nan ∨ .nan ∈ l → l.foldl (· + ·) acc = .nan := by
      intro l
      induction l with
      | nil => rintro acc (h | h) <;> simp_all
      | cons x l ih =>
        intro acc hx
        rw [List.foldl_cons]
        apply ih
        rcases hx with hx | hx
        · left; rw [hx, nan_add]
        · rcases List.mem_cons.mp hx with hx | hx
          · left; rw [← hx, add_nan]
          · exact Or.inr hx
    exact key l 0 (Or.inr hm)
  · intro n a b i hb
    unfold Dbl.seqDot
    have hm : ∃ x ∈ (List.finRange n).map fun i => a i * b i, ¬ IsFinite x :=
      ⟨_, List.mem_map.mpr ⟨i, List.mem_finRange i, rfl⟩, not_finite_mul _ hb⟩
    generalize (List.finRange n).map (fun i => a i * b i) = l at hm
    have key : ∀ (l : List Dbl) (acc : Dbl), (¬ IsFinite acc ∨ ∃ x ∈ l, ¬ IsFinite x) → ¬ IsFinite (l.foldl (· + ·) acc) := by
      intro l
      induction l with
      | nil => rintro acc (h | ⟨x, hx, -⟩) <;> simp_all
      | cons x l ih =>
        intro acc hx
        rw [List.foldl_cons]
        apply ih
        rcases hx with hx | ⟨y, hy, hn⟩
        · exact Or.inl (not_finite_add _ hx)
        · rcases List.mem_cons.mp hy with rfl | hy
          · exact Or.inl (not_finite_add' _ hn)
          · exact Or.inr ⟨y, hy, hn⟩
    exact key l 0 (Or.inr hm)

end
end Verif
