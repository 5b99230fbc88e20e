import Verif.Proofs.LinOpt

/- Helper lemmas: what holds of the segments the optimiser computes. -/
namespace Verif

open Spec

set_option linter.unusedSectionVars false

variable {K : Type}

theorem Res.mapM_eq_ok {α β : Type} {l : List α} {f : α → Res β} {r : List β}
    (h : l.mapM f = .ok r) : ∀ y ∈ r, ∃ x ∈ l, f x = .ok y := by
  induction l generalizing r with
  | nil =>
    have : r = [] := by simpa using h.symm
    subst this
    simp
  | cons a l ih =>
    rw [List.mapM_cons, Res.bind_eq_ok] at h
    obtain ⟨b, hb, h⟩ := h
    rw [Res.bind_eq_ok] at h
    obtain ⟨bs, hbs, h⟩ := h
    rw [Res.pure_eq, Res.ok.injEq] at h
    subst h
    intro y hy
    rcases List.mem_cons.mp hy with rfl | hy
    · exact ⟨a, by simp, hb⟩
    · obtain ⟨x, hx, hfx⟩ := ih hbs y hy
      exact ⟨x, by simp [hx], hfx⟩

theorem Res.mapM_length {α β : Type} {l : List α} {f : α → Res β} {r : List β}
    (h : l.mapM f = .ok r) : r.length = l.length := by
  induction l generalizing r with
  | nil =>
    have : r = [] := by simpa using h.symm
    subst this
    simp
  | cons a l ih =>
    rw [List.mapM_cons, Res.bind_eq_ok] at h
    obtain ⟨b, hb, h⟩ := h
    rw [Res.bind_eq_ok] at h
    obtain ⟨bs, hbs, h⟩ := h
    rw [Res.pure_eq, Res.ok.injEq] at h
    subst h
    simp [ih hbs]

theorem Res.foldlM_inv {α σ : Type} {l : List α} {f : σ → α → Res σ} {a b : σ} (P : σ → Prop)
    (h0 : P a) (hs : ∀ s x s', x ∈ l → P s → f s x = .ok s' → P s') (h : l.foldlM f a = .ok b) :
    P b := by
  induction l generalizing a with
  | nil =>
    have : a = b := by simpa using h
    rwa [← this]
  | cons x l ih =>
    rw [List.foldlM_cons, Res.bind_eq_ok] at h
    obtain ⟨s', h1, h2⟩ := h
    exact ih (hs a x s' (by simp) h0 h1) (fun s y s' hy => hs s y s' (by simp [hy])) h2

theorem Res.foldlM_step {α σ : Type} {l : List α} {f : σ → α → Res σ} {a b : σ}
    (h : l.foldlM f a = .ok b) : ∀ x ∈ l, ∃ s s', f s x = .ok s' := by
  induction l generalizing a with
  | nil => simp
  | cons x l ih =>
    rw [List.foldlM_cons, Res.bind_eq_ok] at h
    obtain ⟨s', h1, h2⟩ := h
    intro y hy
    rcases List.mem_cons.mp hy with rfl | hy
    · exact ⟨a, s', h1⟩
    · exact ih h2 y hy

section Order
variable [Field K] [LinearOrder K] {h : ℕ}

/-! #### Every object is sane -/

theorem updateSegments_inv {o o' : LinOpt h K} (ho : o.updateSegments = .ok o') :
    ∃ segs, o' = { o with segments := segs } ∧
      (∀ n, (∀ s ∈ o.segments, s.polys.length = n ∧ s.N = h + h) →
        ∀ s ∈ segs, s.polys.length = n ∧ s.N = h + h) := by
  unfold LinOpt.updateSegments at ho
  rw [Res.bind_eq_ok] at ho
  obtain ⟨segs, h1, h2⟩ := ho
  rw [Res.pure_eq, Res.ok.injEq] at h2
  refine ⟨segs, h2.symm, ?_⟩
  intro n hn
  refine Res.foldlM_inv (fun segs => ∀ s ∈ segs, s.polys.length = n ∧ s.N = h + h) hn ?_ h1
  intro s d s' _ hs hst
  rw [Res.bind_eq_ok] at hst
  obtain ⟨df, -, hst⟩ := hst
  rw [Res.bind_eq_ok] at hst
  obtain ⟨dp, -, hst⟩ := hst
  split_ifs at hst
  intro y hy
  obtain ⟨i, -, hi⟩ := Res.mapM_eq_ok hst y hy
  split_ifs at hi
  rw [Res.bind_eq_ok] at hi
  obtain ⟨A, -, hi⟩ := hi
  rw [Res.bind_eq_ok] at hi
  obtain ⟨T, -, hi⟩ := hi
  rw [Res.bind_eq_ok] at hi
  obtain ⟨s0, hs0, hi⟩ := hi
  unfold Segment.set at hi
  rw [Res.bind_eq_ok] at hi
  obtain ⟨_, -, hi⟩ := hi
  rw [Res.pure_eq, Res.ok.injEq] at hi
  have hmem : s0 ∈ s := List.mem_of_getElem? (Res.at'_eq_ok.mp hs0)
  have := hs s0 hmem
  rw [← hi]
  simpa [Segment.setTime] using this

theorem updateSegments_sane {o o' : LinOpt h K} (hs : o.Sane) (ho : o.updateSegments = .ok o') :
    o'.Sane ∧ o'.dimension = o.dimension := by
  obtain ⟨segs, rfl, h2⟩ := updateSegments_inv ho
  exact ⟨⟨h2 _ hs.segDims, hs.freeLen⟩, rfl⟩

theorem solveLinear_inv {solve} {o o' : LinOpt h K} (ho : o.solveLinear solve = .ok o') :
    (o.nFree = 0 ∧ o.updateSegments = .ok o') ∨
    (o.nFree ≠ 0 ∧ ∃ fc : List (List K), fc.length = o.dimension ∧
      LinOpt.updateSegments { o with freeCompact := fc } = .ok o') := by
  unfold LinOpt.solveLinear at ho
  rw [Res.bind_eq_ok] at ho
  obtain ⟨_, -, ho⟩ := ho
  split_ifs at ho with h1 h2
  · exact Or.inl ⟨h1, ho⟩
  · simp only at ho
    rw [Res.bind_eq_ok] at ho
    obtain ⟨fc, hfc, ho⟩ := ho
    exact Or.inr ⟨h1, fc, by rw [Res.mapM_length hfc, List.length_range], ho⟩

theorem solveLinear_sane {solve} {o o' : LinOpt h K} (hs : o.Sane)
    (ho : o.solveLinear solve = .ok o') : o'.Sane ∧ o'.dimension = o.dimension := by
  rcases solveLinear_inv ho with ⟨_, h1⟩ | ⟨_, fc, hl, h1⟩
  · exact updateSegments_sane hs h1
  · exact updateSegments_sane (o := { o with freeCompact := fc }) ⟨hs.segDims, hl⟩ h1

theorem setFree_inv {fc} {o o' : LinOpt h K} (ho : o.setFreeConstraints fc = .ok o') :
    fc.length = o.dimension ∧ (∀ v ∈ fc, v.length = o.nFree) ∧
      LinOpt.updateSegments { o with freeCompact := fc } = .ok o' := by
  unfold LinOpt.setFreeConstraints at ho
  rw [Res.bind_eq_ok] at ho
  obtain ⟨_, h1, ho⟩ := ho
  rw [Res.bind_eq_ok] at ho
  obtain ⟨_, h2, ho⟩ := ho
  exact ⟨Res.check_eq_ok.mp h1, Res.check_eq_ok.mp h2, ho⟩

theorem updateTimes_inv {inv} {ts} {o o' : LinOpt h K} (ho : o.updateSegmentTimes inv ts = .ok o') :
    ts.length = o.nSegments ∧ (∀ T ∈ ts, 0 < T) ∧
    ∃ c m, o' = { o with segmentTimes := ts, cost := c, invMapping := m } := by
  unfold LinOpt.updateSegmentTimes at ho
  rw [Res.bind_eq_ok] at ho
  obtain ⟨_, h1, ho⟩ := ho
  rw [Res.bind_eq_ok] at ho
  obtain ⟨ms, h2, ho⟩ := ho
  refine ⟨Res.check_eq_ok.mp h1, ?_, _, _, (by simpa using ho.symm)⟩
  clear ho h1
  induction ts generalizing ms with
  | nil => simp
  | cons t ts ih =>
    rw [List.mapM_cons, Res.bind_eq_ok] at h2
    obtain ⟨b, hb, h2⟩ := h2
    rw [Res.bind_eq_ok] at h2
    obtain ⟨bs, hbs, h2⟩ := h2
    rw [Res.bind_eq_ok] at hb
    obtain ⟨_, hb, -⟩ := hb
    intro T hT
    rcases List.mem_cons.mp hT with rfl | hT
    · exact Res.check_eq_ok.mp hb
    · exact ih _ hbs T hT

theorem setup_inv {inv} {vs : List (Vertex K)} {ts : List K} {k : ℤ} {o o' : LinOpt h K}
    (ho : o.setupFromVertices inv vs ts k = .ok o') (hs : o.Sane) :
    o'.Sane ∧ o'.dimension = o.dimension := by
  unfold LinOpt.setupFromVertices at ho
  rw [Res.bind_eq_ok] at ho
  obtain ⟨_, -, ho⟩ := ho
  split_ifs at ho
  simp only at ho
  rw [Res.bind_eq_ok] at ho
  obtain ⟨_, -, ho⟩ := ho
  rw [Res.bind_eq_ok] at ho
  obtain ⟨_, -, ho⟩ := ho
  rw [Res.bind_eq_ok] at ho
  obtain ⟨o2, h2, ho⟩ := ho
  obtain ⟨-, -, c, m, rfl⟩ := updateTimes_inv h2
  unfold LinOpt.setupReordering at ho
  simp only at ho
  rw [Res.bind_eq_ok] at ho
  obtain ⟨df, -, ho⟩ := ho
  rw [Res.pure_eq, Res.ok.injEq] at ho
  subst ho
  refine ⟨⟨?_, hs.freeLen⟩, rfl⟩
  intro s hs'
  simp only at hs'
  rcases List.mem_append.mp hs' with hs' | hs'
  · exact hs.segDims s (List.mem_of_mem_take hs')
  · obtain ⟨_, rfl⟩ := List.mem_replicate.mp hs'
    simp [Segment.mkZero]

theorem optReachable_sane {inv solve} {o : LinOpt h K} (ho : OptReachable inv solve o) : o.Sane := by
  induction ho with
  | new dim => exact ⟨by simp [LinOpt.new], by simp [LinOpt.new]⟩
  | setup _ h1 ih => exact (setup_inv h1 ih).1
  | solveLinear _ h1 ih => exact (solveLinear_sane ih h1).1
  | @setFree o o' fc _ h1 ih =>
    obtain ⟨h2, -, h3⟩ := setFree_inv h1
    exact (updateSegments_sane (o := { o with freeCompact := fc }) ⟨ih.segDims, h2⟩ h3).1
  | times _ h1 ih =>
    obtain ⟨-, -, c, m, rfl⟩ := updateTimes_inv h1
    exact ⟨ih.segDims, ih.freeLen⟩

variable [IsStrictOrderedRing K]

/-! #### The polynomials interpolate -/

theorem coeffsFor_spec (inv : Matrix (Fin h) (Fin h) K → Matrix (Fin h) (Fin h) K)
    (hinv : IsInverse inv) (T : K) (hT : 1 / 2 ^ 52 ≤ T) (hN : h + h ≤ 22) (y : Fin (h + h) → K)
    (i : Fin h) :
    derivAt (coeffsFor inv T y) i 0 = y (Fin.castAdd h i) ∧
    derivAt (coeffsFor inv T y) i T = y (Fin.natAdd h i) := by
  have h1 := mapMat_spec T hN hT ((invertMappingMatrix inv (mapMat h T)).mulVec y) i
  have h2 : mapMat h T * invertMappingMatrix inv (mapMat h T) = 1 :=
    mul_eq_one_comm.mp (mapMat_inv T hN hT inv hinv)
  rw [Matrix.mulVec_mulVec, h2, Matrix.one_mulVec] at h1
  exact ⟨h1.1.symm, h1.2.symm⟩

theorem segmentsFor_get (inv : Matrix (Fin h) (Fin h) K → Matrix (Fin h) (Fin h) K) (dim : ℕ)
    (vs : List (Vertex K)) (times : List K) (fc : List (List K)) (i : ℕ) (s : Segment K)
    (hs : (segmentsFor inv dim vs times fc)[i]? = some s) :
    i < times.length ∧ s = ⟨(List.range dim).map fun d => ⟨coeffsFor inv (times.getD i 0) fun p =>
      valueAt h dim vs (fixedVals h dim vs d ++ fc.getD d []) (rowKey h i p)⟩,
      times.getD i 0, h + h⟩ := by
  unfold segmentsFor at hs
  have hi : i < times.length := by
    have := (List.getElem?_eq_some_iff.mp hs).1
    simpa using this
  refine ⟨hi, ?_⟩
  rw [List.getElem?_map, List.getElem?_range hi] at hs
  simpa using hs.symm

theorem getD_mem_times {times : List K} {i : ℕ} (hi : i < times.length) :
    times.getD i 0 ∈ times := by
  rw [List.getD_eq_getElem?_getD, List.getElem?_eq_getElem hi]
  exact List.getElem_mem hi

/-- The derivatives of the computed segments at their two ends. -/
theorem segmentsFor_deriv (inv : Matrix (Fin h) (Fin h) K → Matrix (Fin h) (Fin h) K)
    (hinv : IsInverse inv) (dim : ℕ) (vs : List (Vertex K)) (times : List K)
    (ht : ∀ T ∈ times, 1 / 2 ^ 52 ≤ T) (hN : h + h ≤ 22) (fc : List (List K)) (i : ℕ)
    (s : Segment K) (hs : (segmentsFor inv dim vs times fc)[i]? = some s) (d : ℕ) (hd : d < dim)
    (k : ℕ) (hk : k < h) :
    segDeriv s d k 0 = valueAt h dim vs (fixedVals h dim vs d ++ fc.getD d []) (i, k) ∧
    segDeriv s d k s.time = valueAt h dim vs (fixedVals h dim vs d ++ fc.getD d []) (i + 1, k) := by
  obtain ⟨hi, rfl⟩ := segmentsFor_get inv dim vs times fc i s hs
  unfold segDeriv
  simp only
  rw [List.getD_eq_getElem?_getD, List.getElem?_map, List.getElem?_range hd]
  simp only [Option.map_some, Option.getD_some]
  have := coeffsFor_spec inv hinv (times.getD i 0) (ht _ (getD_mem_times hi)) hN
    (fun p => valueAt h dim vs (fixedVals h dim vs d ++ fc.getD d []) (rowKey h i p)) ⟨k, hk⟩
  constructor
  · rw [this.1]
    simp [rowKey, hk]
  · rw [this.2]
    simp [rowKey]

theorem segmentsFor_shape (inv : Matrix (Fin h) (Fin h) K → Matrix (Fin h) (Fin h) K) (dim : ℕ)
    (vs : List (Vertex K)) (times : List K) (fc : List (List K)) :
    Shape (h + h) dim times (segmentsFor inv dim vs times fc) := by
  constructor
  · unfold segmentsFor
    rw [List.map_map]
    apply List.ext_getElem
    · simp
    · intro i h1 h2
      simp [List.getD_eq_getElem?_getD, h2]
  · intro s hs
    obtain ⟨i, hi⟩ := List.mem_iff_getElem?.mp hs
    obtain ⟨-, rfl⟩ := segmentsFor_get inv dim vs times fc i s hi
    simp
  · intro s hs
    obtain ⟨i, hi⟩ := List.mem_iff_getElem?.mp hs
    obtain ⟨-, rfl⟩ := segmentsFor_get inv dim vs times fc i s hi
    intro p hp
    obtain ⟨d, -, rfl⟩ := List.mem_map.mp hp
    simp [coeffsFor]

theorem segmentsFor_meets (inv : Matrix (Fin h) (Fin h) K → Matrix (Fin h) (Fin h) K)
    (hinv : IsInverse inv) (dim : ℕ) (vs : List (Vertex K)) (hv : 2 ≤ vs.length) (times : List K)
    (ht : ∀ T ∈ times, 1 / 2 ^ 52 ≤ T) (hN : h + h ≤ 22) (fc : List (List K)) :
    MeetsConstraints h dim vs (segmentsFor inv dim vs times fc) := by
  intro i v hi k hk c hc d hd
  constructor
  · intro s hs
    rw [(segmentsFor_deriv inv hinv dim vs times ht hN fc i s hs d hd k hk).1]
    exact valueAt_fixed dim vs hv d i k _ v hi hk c hc
  · intro j s hj hs
    rw [(segmentsFor_deriv inv hinv dim vs times ht hN fc j s hs d hd k hk).2]
    rw [← hj]
    exact valueAt_fixed dim vs hv d i k _ v hi hk c hc

theorem segmentsFor_continuous (inv : Matrix (Fin h) (Fin h) K → Matrix (Fin h) (Fin h) K)
    (hinv : IsInverse inv) (dim : ℕ) (vs : List (Vertex K)) (times : List K)
    (ht : ∀ T ∈ times, 1 / 2 ^ 52 ≤ T) (hN : h + h ≤ 22) (fc : List (List K)) :
    Spec.Continuous h dim (segmentsFor inv dim vs times fc) := by
  intro i s s' hs hs' k hk d hd
  rw [(segmentsFor_deriv inv hinv dim vs times ht hN fc i s hs d hd k hk).2,
    (segmentsFor_deriv inv hinv dim vs times ht hN fc (i + 1) s' hs' d hd k hk).1]

/-! #### Sessions -/

theorem update_lengths {o o' : LinOpt h K} {inv} {vs : List (Vertex K)} {times : List K} {k : ℕ}
    (r : o.Ready inv vs times k) (ho : o.updateSegments = .ok o') :
    ∀ v ∈ o.freeCompact, v.length = o.nFree := by
  unfold LinOpt.updateSegments at ho
  rw [Res.bind_eq_ok] at ho
  obtain ⟨segs, h1, -⟩ := ho
  have hst := Res.foldlM_step h1
  intro v hv
  obtain ⟨d, hd⟩ := List.mem_iff_getElem?.mp hv
  have hlt := (List.getElem?_eq_some_iff.mp hd).1
  obtain ⟨s, s', hs⟩ := hst d (by rw [List.mem_range, ← r.freeLen]; exact hlt)
  rw [Res.bind_eq_ok] at hs
  obtain ⟨df, hdf, hs⟩ := hs
  rw [Res.bind_eq_ok] at hs
  obtain ⟨dp, hdp, hs⟩ := hs
  split_ifs at hs with hc
  rw [Res.at'_eq_ok, hd, Option.some.injEq] at hdp
  rw [Res.at'_eq_ok, r.fixedC, List.getElem?_map, List.getElem?_range (by rw [← r.freeLen]; exact hlt),
    Option.map_some, Option.some.injEq] at hdf
  have : df.length = o.nFixed := by rw [← hdf, r.nFixed]; simp [fixedVals]
  subst hdp
  omega

theorem ready_update {o o' : LinOpt h K} {inv} {vs : List (Vertex K)} {times : List K} {k : ℕ}
    (r : o.Ready inv vs times k) (hdim : 0 < o.dimension) (ho : o.updateSegments = .ok o') :
    o' = { o with segments := segmentsFor inv o.dimension vs times o.freeCompact } ∧
    o'.Ready inv vs times k ∧ ∀ v ∈ o'.freeCompact, v.length = o'.nFree := by
  have hl := update_lengths r ho
  have h1 := update_ok r hdim hl
  rw [h1, Res.ok.injEq] at ho
  refine ⟨ho.symm, ?_, by rw [← ho]; exact hl⟩
  have hsane : o'.Sane := (updateSegments_sane r.toSane (by rw [h1, ho])).1
  subst ho
  exact { toSane := hsane, vertsEq := r.vertsEq, deriv := r.deriv, derivLt := r.derivLt,
          timesEq := r.timesEq, nVert := r.nVert, two := r.two, nSeg := r.nSeg, nAll := r.nAll,
          nFixed := r.nFixed, nFree := r.nFree, reord := r.reord, invEq := r.invEq,
          costEq := r.costEq, fixedC := r.fixedC,
          segLen := by simp [segmentsFor] }

theorem ready_free {o : LinOpt h K} {inv} {vs : List (Vertex K)} {times : List K} {k : ℕ}
    (r : o.Ready inv vs times k) (fc : List (List K)) (hl : fc.length = o.dimension) :
    LinOpt.Ready { o with freeCompact := fc } inv vs times k :=
  { segDims := r.segDims, freeLen := hl, vertsEq := r.vertsEq, deriv := r.deriv,
    derivLt := r.derivLt, timesEq := r.timesEq, nVert := r.nVert, two := r.two, nSeg := r.nSeg,
    nAll := r.nAll, nFixed := r.nFixed, nFree := r.nFree, reord := r.reord, invEq := r.invEq,
    costEq := r.costEq, fixedC := r.fixedC, segLen := r.segLen }

theorem ready_solve {o o' : LinOpt h K} {inv solve} {vs : List (Vertex K)} {times : List K} {k : ℕ}
    (r : o.Ready inv vs times k) (hdim : 0 < o.dimension) (ho : o.solveLinear solve = .ok o') :
    o'.Ready inv vs times k ∧ o'.dimension = o.dimension ∧
      (∀ v ∈ o'.freeCompact, v.length = o'.nFree) ∧
      o'.segments = segmentsFor inv o.dimension vs times o'.freeCompact := by
  rcases solveLinear_inv ho with ⟨_, h1⟩ | ⟨_, fc, hl, h1⟩
  · obtain ⟨h2, h3, h4⟩ := ready_update r hdim h1
    exact ⟨h3, by rw [h2], h4, by rw [h2]⟩
  · obtain ⟨h2, h3, h4⟩ := ready_update (ready_free r fc hl) hdim h1
    exact ⟨h3, by rw [h2], h4, by rw [h2]⟩

theorem ready_setFree {o o' : LinOpt h K} {inv} {vs : List (Vertex K)} {times : List K} {k : ℕ}
    {fc : List (List K)}
    (r : o.Ready inv vs times k) (hdim : 0 < o.dimension) (ho : o.setFreeConstraints fc = .ok o') :
    o'.Ready inv vs times k ∧ o'.dimension = o.dimension ∧
      (∀ v ∈ o'.freeCompact, v.length = o'.nFree) ∧
      o'.segments = segmentsFor inv o.dimension vs times o'.freeCompact ∧ o'.freeCompact = fc := by
  obtain ⟨hl, _, h1⟩ := setFree_inv ho
  obtain ⟨h2, h3, h4⟩ := ready_update (ready_free r fc hl) hdim h1
  exact ⟨h3, by rw [h2], h4, by rw [h2], by rw [h2]⟩

theorem ready_times {o o' : LinOpt h K} {inv} {vs : List (Vertex K)} {times times' : List K} {k : ℕ}
    (r : o.Ready inv vs times k) (hN : h + h ≤ 22) (ho : o.updateSegmentTimes inv times' = .ok o') :
    o'.Ready inv vs times' k ∧ o'.dimension = o.dimension := by
  obtain ⟨hl, hpos, -⟩ := updateTimes_inv ho
  have h1 := updateTimes_ok inv o times' k r.derivLt hN r.deriv hl hpos
  rw [h1, Res.ok.injEq] at ho
  subst ho
  have hlt : times'.length = times.length := hl.trans r.nSeg
  exact ⟨{ segDims := r.segDims, freeLen := r.freeLen, vertsEq := r.vertsEq, deriv := r.deriv,
           derivLt := r.derivLt, timesEq := rfl, nVert := by rw [hlt]; exact r.nVert, two := r.two,
           nSeg := hl.symm, nAll := by rw [hlt]; exact r.nAll, nFixed := r.nFixed,
           nFree := r.nFree, reord := r.reord, invEq := rfl, costEq := rfl, fixedC := r.fixedC,
           segLen := by rw [hlt]; exact r.segLen }, rfl⟩

/-- What is known of the object at every point of a session. -/
theorem session_ready {inv solve} {vertices : List (Vertex K)} {k : ℕ} {times : List K}
    {o : LinOpt h K} (hs : Session inv solve vertices k times o) :
    k < h ∧ Problem h o.dimension vertices times ∧
      o.Ready inv (vertices.map (filt h o.dimension)) times k := by
  induction hs with
  | @setup o o' times hr hp ho =>
    have hk : k < h := by
      unfold LinOpt.setupFromVertices at ho
      rw [Res.bind_eq_ok] at ho
      obtain ⟨_, h1, -⟩ := ho
      have := Res.check_eq_ok.mp h1
      omega
    obtain ⟨o'', h1, h2, h3, -⟩ := setup_ok inv o (optReachable_sane hr) vertices times k hk hp
    rw [h1, Res.ok.injEq] at ho
    subst ho
    rw [h3]
    exact ⟨hk, hp, h2⟩
  | solveLinear _ ho ih =>
    obtain ⟨hk, hp, hr⟩ := ih
    obtain ⟨h1, h2, -⟩ := ready_solve hr hp.dim_pos ho
    rw [h2]
    exact ⟨hk, hp, h1⟩
  | setFree _ ho ih =>
    obtain ⟨hk, hp, hr⟩ := ih
    obtain ⟨h1, h2, -⟩ := ready_setFree hr hp.dim_pos ho
    rw [h2]
    exact ⟨hk, hp, h1⟩
  | @times o o' times times' _ ht ho ih =>
    obtain ⟨hk, hp, hr⟩ := ih
    obtain ⟨h1, h2⟩ := ready_times hr hp.small ho
    have hlen : times'.length = times.length := (updateTimes_inv ho).1.trans hr.nSeg
    rw [h2]
    exact ⟨hk, ⟨by rw [hlen]; exact hp.count, hp.two, ht, hp.wf, hp.dim_pos, hp.small⟩, h1⟩

/-- Constraints of order below `h` are the same before and after dropping the too high ones. -/
theorem meets_filt {dim : ℕ} {vertices : List (Vertex K)} {segs : List (Segment K)}
    (hwf : ∀ v ∈ vertices, v.WF ∧ v.D = dim) :
    MeetsConstraints h dim (vertices.map (filt h dim)) segs ↔ MeetsConstraints h dim vertices segs := by
  have key : ∀ v ∈ vertices, ∀ k < h, (filt h dim v).getConstraint (k : ℕ) =
      v.getConstraint (k : ℕ) := fun v hv k hk =>
    (filt_spec h dim v (hwf v hv).1 (hwf v hv).2).2.2.2 k (by omega)
  constructor
  · intro H i v hi k hk c hc
    exact H i (filt h dim v) (by rw [List.getElem?_map, hi]; rfl) k hk c
      (by rw [key v (List.mem_of_getElem? hi) k hk]; exact hc)
  · intro H i v' hi k hk c hc
    rw [List.getElem?_map, Option.map_eq_some_iff] at hi
    obtain ⟨v, hv, rfl⟩ := hi
    rw [key v (List.mem_of_getElem? hv) k hk] at hc
    exact H i v hv k hk c hc

end Order
end Verif
