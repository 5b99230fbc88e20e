import Verif.Proofs.NlOptBounds

/- Helper lemmas: the calls of the nonlinear optimiser return. -/
namespace Verif

open Spec Set

set_option linter.unusedSectionVars false

section Generic
variable {K : Type} [Field K] [LinearOrder K] [IsStrictOrderedRing K] {h : ℕ}

/-! #### The segments of every object can be evaluated -/

/-- What holds of the segments of every object. -/
structure LinOpt.Valid (o : LinOpt h K) : Prop where
  times : ∀ T ∈ o.segmentTimes, 0 < T
  polys : ∀ s ∈ o.segments, ∀ p ∈ s.polys, p.N = h + h
  durations : ∀ s ∈ o.segments, 0 ≤ s.time

theorem updateSegments_valid {o o' : LinOpt h K} (hv : o.Valid) (ho : o.updateSegments = .ok o') :
    o'.Valid := by
  unfold LinOpt.updateSegments at ho
  rw [Res.bind_eq_ok] at ho
  obtain ⟨segs, h1, h2⟩ := ho
  rw [Res.pure_eq, Res.ok.injEq] at h2
  have key : ∀ s ∈ segs, (∀ p ∈ s.polys, p.N = h + h) ∧ 0 ≤ s.time := by
    refine Res.foldlM_inv (fun segs : List (Segment K) => ∀ s ∈ segs,
      (∀ p ∈ s.polys, p.N = h + h) ∧ 0 ≤ s.time) (fun s hs => ⟨hv.polys s hs, hv.durations s hs⟩) ?_ h1
    intro s d s' _ hs hst
    rw [Res.bind_eq_ok] at hst
    obtain ⟨df, -, hst⟩ := hst
    rw [Res.bind_eq_ok] at hst
    obtain ⟨dp, -, hst⟩ := hst
    split_ifs at hst
    intro y hy
    obtain ⟨i, -, hi⟩ := Res.mapM_eq_ok hst y hy
    split_ifs at hi
    rw [Res.bind_eq_ok] at hi
    obtain ⟨A, -, hi⟩ := hi
    rw [Res.bind_eq_ok] at hi
    obtain ⟨T, hT, hi⟩ := hi
    rw [Res.bind_eq_ok] at hi
    obtain ⟨s0, hs0, hi⟩ := hi
    unfold Segment.set at hi
    rw [Res.bind_eq_ok] at hi
    obtain ⟨_, -, hi⟩ := hi
    rw [Res.pure_eq, Res.ok.injEq] at hi
    have hmem : s0 ∈ s := List.mem_of_getElem? (Res.at'_eq_ok.mp hs0)
    have hTm : T ∈ o.segmentTimes := List.mem_of_getElem? (Res.at'_eq_ok.mp hT)
    rw [← hi]
    refine ⟨?_, (hv.times T hTm).le⟩
    intro p hp
    rcases List.mem_or_eq_of_mem_set hp with hp | rfl
    · exact (hs s0 hmem).1 p hp
    · simp [Poly.N]
  rw [← h2]
  exact ⟨hv.times, fun s hs => (key s hs).1, fun s hs => (key s hs).2⟩

theorem optReachable_valid {inv solve} {o : LinOpt h K} (ho : OptReachable inv solve o) : o.Valid := by
  induction ho with
  | new dim => exact ⟨by simp [LinOpt.new], by simp [LinOpt.new], by simp [LinOpt.new]⟩
  | @setup o o' vs ts k _ ho ih =>
    unfold LinOpt.setupFromVertices at ho
    rw [Res.bind_eq_ok] at ho
    obtain ⟨_, -, ho⟩ := ho
    split_ifs at ho
    simp only at ho
    rw [Res.bind_eq_ok] at ho
    obtain ⟨_, -, ho⟩ := ho
    rw [Res.bind_eq_ok] at ho
    obtain ⟨_, -, ho⟩ := ho
    rw [Res.bind_eq_ok] at ho
    obtain ⟨o2, h2, ho⟩ := ho
    obtain ⟨-, hpos, c, m, rfl⟩ := updateTimes_inv h2
    unfold LinOpt.setupReordering at ho
    simp only at ho
    rw [Res.bind_eq_ok] at ho
    obtain ⟨df, -, ho⟩ := ho
    rw [Res.pure_eq, Res.ok.injEq] at ho
    subst ho
    refine ⟨hpos, ?_, ?_⟩
    · intro s hs'
      simp only at hs'
      rcases List.mem_append.mp hs' with hs' | hs'
      · exact ih.polys s (List.mem_of_mem_take hs')
      · obtain ⟨_, rfl⟩ := List.mem_replicate.mp hs'
        intro p hp
        obtain ⟨_, rfl⟩ := List.mem_replicate.mp hp
        simp [Poly.zero, Poly.N]
    · intro s hs'
      simp only at hs'
      rcases List.mem_append.mp hs' with hs' | hs'
      · exact ih.durations s (List.mem_of_mem_take hs')
      · obtain ⟨_, rfl⟩ := List.mem_replicate.mp hs'
        exact le_rfl
  | @solveLinear o o' _ h1 ih =>
    rcases solveLinear_inv h1 with ⟨_, h1⟩ | ⟨_, fc, hl, h1⟩
    · exact updateSegments_valid ih h1
    · exact updateSegments_valid (o := { o with freeCompact := fc })
        ⟨ih.times, ih.polys, ih.durations⟩ h1
  | @setFree o o' fc _ h1 ih =>
    obtain ⟨h2, -, h3⟩ := setFree_inv h1
    exact updateSegments_valid (o := { o with freeCompact := fc })
      ⟨ih.times, ih.polys, ih.durations⟩ h3
  | times _ h1 ih =>
    obtain ⟨-, hpos, c, m, rfl⟩ := updateTimes_inv h1
    exact ⟨hpos, ih.polys, ih.durations⟩

theorem session_reachable {inv solve} {vertices : List (Vertex K)} {k : ℕ} {times : List K}
    {l : LinOpt h K} (hs : Session inv solve vertices k times l) : OptReachable inv solve l := by
  induction hs with
  | setup h1 _ h2 => exact .setup h1 h2
  | solveLinear _ h1 ih => exact .solveLinear ih h1
  | setFree _ h1 ih => exact .setFree ih h1
  | times _ _ h1 ih => exact .times ih h1

/-! #### The calls of the linear optimiser return -/

/-- `solveLinear` returns: there is something to solve for, or the free derivatives stored are those of
this problem (none). -/
def Able (l : LinOpt h K) : Prop := l.nFree ≠ 0 ∨ ∀ v ∈ l.freeCompact, v.length = l.nFree

theorem lin_solve_ok {lib : NlLib h K} {vertices : List (Vertex K)} {k : ℕ} {l : LinOpt h K}
    (hs : LinSession lib vertices k l) (ha : Able l) : ∃ l', l.solveLinear lib.solve = .ok l' := by
  obtain ⟨-, hp, r⟩ := session_ready hs
  by_cases hf : l.nFree = 0
  · refine ⟨_, solve_none_ok r hp.dim_pos hf ?_⟩
    rcases ha with ha | ha
    · exact absurd hf ha
    · rw [← hf]
      exact ha
  · exact ⟨_, solve_free_ok r hp.dim_pos hf⟩

theorem able_of_solve {lib : NlLib h K} {vertices : List (Vertex K)} {k : ℕ} {l l' : LinOpt h K}
    (hs : LinSession lib vertices k l) (ho : l.solveLinear lib.solve = .ok l') : Able l := by
  by_cases hf : l.nFree = 0
  · right
    obtain ⟨-, hp, r⟩ := session_ready hs
    rcases solveLinear_inv ho with ⟨_, h1⟩ | ⟨h1, -⟩
    · obtain ⟨rfl, -, h2⟩ := ready_update r hp.dim_pos h1
      exact h2
    · exact absurd hf h1
  · exact .inl hf

theorem LinSolved.freeLens {lib : NlLib h K} {vertices : List (Vertex K)} {k : ℕ} {l : LinOpt h K}
    (hs : LinSolved lib vertices k l) : ∀ v ∈ l.freeCompact, v.length = l.nFree := by
  obtain ⟨l0, h1, h2⟩ := hs
  obtain ⟨-, hp, r⟩ := session_ready h1
  rcases h2 with h2 | ⟨free, h2⟩
  · exact (ready_solve r hp.dim_pos h2).2.2.1
  · exact (ready_setFree r hp.dim_pos h2).2.2.1

theorem LinSolved.able {lib : NlLib h K} {vertices : List (Vertex K)} {k : ℕ} {l : LinOpt h K}
    (hs : LinSolved lib vertices k l) : Able l := .inr hs.freeLens

theorem lin_update_ok {lib : NlLib h K} {vertices : List (Vertex K)} {k : ℕ} {l : LinOpt h K}
    {times : List K} (hs : LinSession lib vertices k l) (ht : ∀ T ∈ times, 1 / 2 ^ 52 ≤ T)
    (hl : times.length = vertices.length - 1) :
    ∃ l', l.updateSegmentTimes lib.inv times = .ok l' ∧ LinSession lib vertices k l' ∧
      l'.segmentTimes = times ∧ l'.dimension = l.dimension ∧ l'.nFree = l.nFree ∧
      l'.nSegments = l.nSegments ∧ (Able l → Able l') := by
  obtain ⟨hk, hp, r⟩ := session_ready hs
  have hn := nSegments_eq hs
  have h1 := updateTimes_ok lib.inv l times k hk hp.small r.deriv (by rw [hl, hn]) (fun T hT => by
    have := ht T hT
    have := dblEps_pos (K := K)
    linarith)
  obtain ⟨a1, a2, a3, a4, a5, -⟩ := lin_update hs ht h1
  exact ⟨_, h1, a1, a2, a3, a4, a5, id⟩

theorem lin_setFree_ok {lib : NlLib h K} {vertices : List (Vertex K)} {k : ℕ} {l : LinOpt h K}
    {free : List (List K)} (hs : LinSession lib vertices k l) (h1 : free.length = l.dimension)
    (h2 : ∀ v ∈ free, v.length = l.nFree) : ∃ l', l.setFreeConstraints free = .ok l' := by
  obtain ⟨-, hp, r⟩ := session_ready hs
  unfold LinOpt.setFreeConstraints
  rw [Res.check_of h1, Res.ok_bind, Res.check_of h2, Res.ok_bind]
  exact ⟨_, update_ok (ready_free r free h1) hp.dim_pos h2⟩

/-- A new set of times and the solution for it. -/
theorem lin_move_ok {lib : NlLib h K} {vertices : List (Vertex K)} {k : ℕ} {l : LinOpt h K}
    {times : List K} (hs : LinSession lib vertices k l) (ha : Able l) (ht : ∀ T ∈ times, 1 / 2 ^ 52 ≤ T)
    (hl : times.length = vertices.length - 1) :
    ∃ l1 l2, l.updateSegmentTimes lib.inv times = .ok l1 ∧ l1.solveLinear lib.solve = .ok l2 ∧
      LinSolved lib vertices k l2 ∧ l2.segmentTimes = times ∧ l2.dimension = l.dimension := by
  obtain ⟨l1, a1, a2, a3, a4, -, -, a5⟩ := lin_update_ok hs ht hl
  obtain ⟨l2, b1⟩ := lin_solve_ok a2 (a5 ha)
  obtain ⟨c1, c2, c3⟩ := lin_solve a2 b1
  exact ⟨l1, l2, a1, b1, c1, c2.trans a3, c3.trans a4⟩

/-! #### What is handed to NLopt -/

theorem flatten_getElem? {n : ℕ} (ls : List (List K)) (hl : ∀ v ∈ ls, v.length = n) {d j : ℕ}
    (hj : j < n) : ls.flatten[d * n + j]? = (ls[d]?).bind fun v => v[j]? := by
  induction ls generalizing d with
  | nil => simp
  | cons v ls ih =>
    have hv := hl v (by simp)
    rw [List.flatten_cons]
    cases d with
    | zero =>
      rw [Nat.zero_mul, Nat.zero_add, List.getElem?_append_left (by omega)]
      rfl
    | succ d =>
      rw [show (d + 1) * n + j = v.length + (d * n + j) by rw [hv]; ring,
        List.getElem?_append_right (by omega), Nat.add_sub_cancel_left,
        ih (fun w hw => hl w (by simp [hw])), List.getElem?_cons_succ]

theorem flatten_length {n : ℕ} (ls : List (List K)) (hl : ∀ v ∈ ls, v.length = n) :
    ls.flatten.length = ls.length * n := by
  induction ls with
  | nil => simp
  | cons v ls ih =>
    rw [List.flatten_cons, List.length_append, hl v (by simp), ih fun w hw => hl w (by simp [hw]),
      List.length_cons]
    ring

theorem fullArgs_ok {lib : NlLib h K} {vertices : List (Vertex K)} {k : ℕ} {o : NlOpt h K}
    (hs : LinSolved lib vertices k o.lin) : ∃ a, o.fullArgs = .ok a := by
  obtain ⟨hk, hp, r⟩ := session_ready hs.session
  have hfl := hs.freeLens
  have hfd := r.freeLen
  have hd := hp.dim_pos
  have hn := nSegments_eq hs.session
  have hseg : o.lin.segmentTimes.length = vertices.length - 1 := by rw [← r.nSeg, hn]
  have h2 := hp.two
  have hfront : ∃ v, o.lin.freeCompact[0]? = some v := by
    rw [List.getElem?_eq_getElem (by omega)]
    exact ⟨_, rfl⟩
  obtain ⟨front, hfront⟩ := hfront
  have hfrl := hfl front (List.mem_of_getElem? hfront)
  have hcols : (freeKeysFrom (k + 1) o.lin.vertices 0).length ≤ o.lin.nFree := by
    refine (freeKeysFrom_sublist (show k + 1 ≤ h by omega) _ _).length_le.trans ?_
    rw [freeKeysFrom_cols o.lin.dimension _ (by rw [r.vertsEq]; exact r.two), List.length_map, r.nFree,
      r.vertsEq]
  obtain ⟨lo, up, hb, hlo, hup⟩ := freeBounds_ok o.lin.dimension o.lin.nFree k o.lin.vertices
    o.constraints hcols
  have hsl : (o.lin.segmentTimes ++ o.lin.freeCompact.flatten).length =
      o.lin.segmentTimes.length + o.lin.dimension * o.lin.nFree := by
    rw [List.length_append, flatten_length _ hfl, hfd]
  have hll : (List.replicate o.lin.segmentTimes.length (1 / 10 : K) ++ lo).length =
      o.lin.segmentTimes.length + o.lin.dimension * o.lin.nFree := by
    rw [List.length_append, List.length_replicate, hlo.1]
  have hul : (List.replicate o.lin.segmentTimes.length (dblMax : K) ++ up).length =
      o.lin.segmentTimes.length + o.lin.dimension * o.lin.nFree := by
    rw [List.length_append, List.length_replicate, hup.1]
  unfold NlOpt.fullArgs
  dsimp only
  rw [Res.at'_eq_ok.mpr hfront, Res.ok_bind, Res.check_of (by omega), Res.ok_bind, r.deriv, hb,
    Res.ok_bind]
  dsimp only
  obtain ⟨adj, hadj⟩ : ∃ adj, (List.range (o.lin.segmentTimes ++ o.lin.freeCompact.flatten).length).mapM
      (fun i => (do
        let x ← Res.at' (o.lin.segmentTimes ++ o.lin.freeCompact.flatten) i
        let lo ← Res.at' (List.replicate o.lin.segmentTimes.length (1 / 10 : K) ++ lo) i
        let up ← Res.at' (List.replicate o.lin.segmentTimes.length (dblMax : K) ++ up) i
        pure (initialStep o.params.initialStepRel x,
          if x < lo then x else lo, if x < lo then up else if x > up then x else up) : Res (K × K × K))) =
      .ok adj := by
    refine ⟨_, Res.mapM_ok (g := fun i =>
      let x := (o.lin.segmentTimes ++ o.lin.freeCompact.flatten).getD i 0
      let lo := (List.replicate o.lin.segmentTimes.length (1 / 10 : K) ++ lo).getD i 0
      let up := (List.replicate o.lin.segmentTimes.length (dblMax : K) ++ up).getD i 0
      (initialStep o.params.initialStepRel x,
          if x < lo then x else lo, if x < lo then up else if x > up then x else up)) ?_⟩
    intro i hi
    rw [List.mem_range, hsl] at hi
    have get : ∀ (l : List K), l.length = o.lin.segmentTimes.length + o.lin.dimension * o.lin.nFree →
        Res.at' l i = .ok (l.getD i 0) := by
      intro l hl
      rw [Res.at'_eq_ok, List.getD_eq_getElem?_getD, List.getElem?_eq_getElem (by omega)]
      rfl
    rw [get _ hsl, Res.ok_bind, get _ hll, Res.ok_bind, get _ hul, Res.ok_bind, Res.pure_eq]
  rw [hadj, Res.ok_bind, Res.check_of (by rw [hll, hul]), Res.ok_bind, Res.check_of (by rw [hsl, hll]),
    Res.ok_bind, Res.check_of (by rw [hsl, hfd, hfrl]), Res.ok_bind]
  exact ⟨_, rfl⟩

theorem prepare_ok {lib : NlLib h K} {vertices : List (Vertex K)} {k : ℕ} {o : NlOpt h K}
    {hd : NlHandle K} (hs : LinSession lib vertices k o.lin) (hh : o.handle = some hd)
    (ha : isFull o.params.method → Able o.lin) (hu : o.params.method ≠ .unknown) :
    ∃ p a, o.prepare lib = .ok (p, a) := by
  have full : Able o.lin → ∃ p a, (do
      let o1 ← o.solveLinear lib
      let a ← o1.fullArgs
      match o1.handle with
      | none => Res.ub
      | some _ => pure (o1, a) : Res (NlOpt h K × NlArgs K)) = .ok (p, a) := by
    intro ha
    obtain ⟨l, h1⟩ := lin_solve_ok hs ha
    have hl := (lin_solve hs h1).1
    obtain ⟨a, h2⟩ := fullArgs_ok (o := { o with lin := l }) hl
    refine ⟨{ o with lin := l }, a, ?_⟩
    unfold NlOpt.solveLinear
    rw [h1, Res.ok_bind, Res.pure_eq, Res.ok_bind, h2, Res.ok_bind]
    simp only [hh]
    rfl
  unfold NlOpt.prepare
  cases hm : o.params.method
  · dsimp only; rw [hh]; exact ⟨_, _, rfl⟩
  · dsimp only; rw [hh]; exact ⟨_, _, rfl⟩
  · dsimp only; rw [hh]; exact ⟨_, _, rfl⟩
  · dsimp only; exact full (ha (.inl hm))
  · dsimp only; exact full (ha (.inr hm))
  · exact absurd hm hu

end Generic
end Verif
