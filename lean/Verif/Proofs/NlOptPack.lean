import Verif.Proofs.NlOptReturns

/- Helper lemmas: which entry of NLopt's vector stands for which derivative. -/
namespace Verif

open Spec

set_option linter.unusedSectionVars false

variable {K : Type} [Field K] [LinearOrder K] [IsStrictOrderedRing K] {h : ℕ}

/-! #### The order of the free derivatives -/

theorem freeOrder_mem (n : ℕ) (vs : List (Vertex K)) (i m : ℕ) :
    (i, m) ∈ freeOrder n vs ↔ m < n ∧ ∃ v, vs[i]? = some v ∧ v.getConstraint ((m : ℕ) : ℤ) = none := by
  unfold freeOrder
  rw [List.mem_flatMap]
  constructor
  · rintro ⟨i', hi', hm⟩
    obtain ⟨m', hm', he⟩ := List.mem_map.mp hm
    rw [Prod.mk.injEq] at he
    obtain ⟨rfl, rfl⟩ := he
    rw [List.mem_filter, List.mem_range] at hm'
    have hi := List.mem_range.mp hi'
    refine ⟨hm'.1, vs[i'], by simp [hi], ?_⟩
    have := hm'.2
    rw [List.getElem?_eq_getElem hi] at this
    simpa using this
  · rintro ⟨hm, v, hv, hn⟩
    have hi := (List.getElem?_eq_some_iff.mp hv).1
    refine ⟨i, by simp [hi], List.mem_map.mpr ⟨m, ?_, rfl⟩⟩
    rw [List.mem_filter, hv]
    exact ⟨by simp [hm], by simp [hn]⟩

theorem freeOrder_sorted (n : ℕ) (vs : List (Vertex K)) :
    (freeOrder n vs).Pairwise fun a b => keyLt a b = true := by
  unfold freeOrder
  rw [List.pairwise_flatMap]
  constructor
  · intro i _
    rw [List.pairwise_map]
    refine List.Pairwise.filter _ ?_
    refine List.pairwise_lt_range.imp ?_
    intro a b hab
    simp [keyLt, hab]
  · refine List.pairwise_lt_range.imp ?_
    intro i j hij a ha b hb
    obtain ⟨m, -, rfl⟩ := List.mem_map.mp ha
    obtain ⟨m', -, rfl⟩ := List.mem_map.mp hb
    simp [keyLt, hij]

theorem sorted_ext {l l' : List (ℕ × ℕ)} (h1 : l.Pairwise fun a b => keyLt a b = true)
    (h2 : l'.Pairwise fun a b => keyLt a b = true) (hm : ∀ x, x ∈ l ↔ x ∈ l') : l = l' := by
  have hperm : l.Perm l' := by
    rw [List.perm_ext_iff_of_nodup]
    · exact hm
    · exact h1.imp fun hk => keyLt_ne hk
    · exact h2.imp fun hk => keyLt_ne hk
  refine hperm.eq_of_pairwise ?_ h1 h2
  rintro ⟨a, a'⟩ ⟨b, b'⟩ - - h3 h4
  rw [keyLt_iff] at h3 h4
  dsimp only at h3 h4
  omega

/-- The loop over the stored vertices visits the free derivatives in this order. -/
theorem freeKeysFrom_order {n dim : ℕ} (hn : n ≤ h) {vertices : List (Vertex K)}
    (hw : ∀ v ∈ vertices, v.WF ∧ v.D = dim) :
    freeKeysFrom n (vertices.map (filt h dim)) 0 = freeOrder n vertices := by
  refine sorted_ext (freeKeysFrom_sorted _ _ _) (freeOrder_sorted _ _) ?_
  rintro ⟨i, m⟩
  rw [freeKeysFrom_mem, freeOrder_mem]
  have key : ∀ v ∈ vertices, m < n → ((filt h dim v).hasConstraint ((m : ℕ) : ℤ) = false ↔
      v.getConstraint ((m : ℕ) : ℤ) = none) := by
    intro v hv hm
    obtain ⟨h1, h2⟩ := hw v hv
    have h3 := (filt_spec h dim v h1 h2).2.2.2 (m : ℕ) (by exact_mod_cast (show m < h by omega))
    unfold Vertex.hasConstraint
    unfold Vertex.getConstraint at h3 ⊢
    rw [h3]
    simp
  rw [Nat.sub_zero, List.getElem?_map]
  constructor
  · rintro ⟨-, h1, w, h2, h3⟩
    cases hv : vertices[i]? with
    | none => rw [hv] at h2; cases h2
    | some v =>
      rw [hv] at h2
      simp only [Option.map_some, Option.some.injEq] at h2
      subst h2
      exact ⟨h1, v, rfl, (key v (List.mem_of_getElem? hv) h1).mp h3⟩
  · rintro ⟨h1, v, h2, h3⟩
    rw [h2]
    exact ⟨Nat.zero_le _, h1, _, rfl, (key v (List.mem_of_getElem? h2) h1).mpr h3⟩

theorem freeCols_order {dim : ℕ} {vertices : List (Vertex K)} (hw : ∀ v ∈ vertices, v.WF ∧ v.D = dim)
    (h2 : 2 ≤ vertices.length) :
    (freeCols h dim (vertices.map (filt h dim))).map Constr.key = freeOrder h vertices := by
  rw [← freeKeysFrom_order le_rfl hw, freeKeysFrom_cols dim _ (by simpa using h2)]

theorem session_nFree_order {lib : NlLib h K} {vertices : List (Vertex K)} {k : ℕ} {l : LinOpt h K}
    (hs : LinSession lib vertices k l) : l.nFree = (freeOrder h vertices).length := by
  obtain ⟨-, hp, r⟩ := session_ready hs
  rw [r.nFree, ← freeCols_order hp.wf hp.two, List.length_map]

/-! #### The value a free derivative gets -/

theorem LinSolved.segments_eq {lib : NlLib h K} {vertices : List (Vertex K)} {k : ℕ} {l : LinOpt h K}
    (hs : LinSolved lib vertices k l) :
    l.segments = segmentsFor lib.inv l.dimension (vertices.map (filt h l.dimension)) l.segmentTimes
      l.freeCompact := by
  obtain ⟨l0, h1, h2⟩ := hs
  obtain ⟨-, hp, r⟩ := session_ready h1
  rcases h2 with h2 | ⟨free, h2⟩
  · obtain ⟨-, b, -, c⟩ := ready_solve r hp.dim_pos h2
    rw [c, b]
  · obtain ⟨-, b, -, c, -⟩ := ready_setFree r hp.dim_pos h2
    rw [c, b]

theorem valueAt_free {dim : ℕ} {vs : List (Vertex K)} (h2 : 2 ≤ vs.length) {key : ℕ × ℕ} {c d : ℕ}
    (hc : ((freeCols h dim vs).map Constr.key)[c]? = some key) (f : List K) {y : K}
    (hy : f[c]? = some y) : valueAt h dim vs (fixedVals h dim vs d ++ f) key = y := by
  have hnd := colKeys_nodup h dim vs h2
  have hcol : colKeys h dim vs = (fixedCols h dim vs).map Constr.key ++ (freeCols h dim vs).map Constr.key := by
    unfold colKeys columns fixedCols freeCols
    rw [List.map_append]
  have hidx : (colKeys h dim vs)[(fixedCols h dim vs).length + c]? = some key := by
    rw [hcol, List.getElem?_append_right (by simp), List.length_map, Nat.add_sub_cancel_left, hc]
  obtain ⟨hlt, he⟩ := List.getElem?_eq_some_iff.mp hidx
  have : (colKeys h dim vs).idxOf key = (fixedCols h dim vs).length + c := by
    rw [← he]
    exact hnd.idxOf_getElem _ hlt
  unfold valueAt
  rw [this, List.getD_eq_getElem?_getD, List.getElem?_append_right (by simp [fixedVals])]
  simp [fixedVals, hy]

/-- Entry `c` of the free values of a dimension is the value of the `c`-th free derivative. -/
theorem LinSolved.free_value {lib : NlLib h K} (hinv : IsInverse lib.inv) {vertices : List (Vertex K)}
    {k : ℕ} {l : LinOpt h K} (hs : LinSolved lib vertices k l) {c i m d : ℕ}
    (hc : (freeOrder h vertices)[c]? = some (i, m)) (hd : d < l.dimension) {f : List K} {y : K}
    (hf : l.freeCompact[d]? = some f) (hy : f[c]? = some y) : AtVertex l.segments i d m y := by
  obtain ⟨-, hp, r⟩ := session_ready hs.session
  have hm := ((freeOrder_mem h vertices i m).mp (List.mem_of_getElem? hc)).1
  have hv := valueAt_free (h := h) (dim := l.dimension) (vs := vertices.map (filt h l.dimension))
    (d := d) (by simpa using hp.two) (by rw [freeCols_order hp.wf hp.two]; exact hc) f hy
  have hg : l.freeCompact.getD d [] = f := by rw [List.getD_eq_getElem?_getD, hf]; rfl
  constructor
  · intro s hseg
    rw [hs.segments_eq] at hseg
    have := (segmentsFor_deriv lib.inv hinv l.dimension _ _ hp.times_pos hp.small _ i s hseg d hd m hm).1
    rw [this, hg]
    exact hv
  · rintro j s rfl hseg
    rw [hs.segments_eq] at hseg
    have := (segmentsFor_deriv lib.inv hinv l.dimension _ _ hp.times_pos hp.small _ j s hseg d hd m hm).2
    rw [this, hg]
    exact hv

/-! #### Packing and unpacking -/

theorem unpack_get {x : List K} {nSeg nFree dim d c : ℕ} (hc : c < nFree) (hd : d < dim) :
    ∃ f, ((List.range dim).map fun d => (x.drop (nSeg + d * nFree)).take nFree)[d]? = some f ∧
      f[c]? = x[nSeg + d * nFree + c]? := by
  refine ⟨(x.drop (nSeg + d * nFree)).take nFree, by simp [hd], ?_⟩
  rw [List.getElem?_take_of_lt hc, List.getElem?_drop]

theorem unpack_pack {times : List K} {ls : List (List K)} {n : ℕ} (hl : ∀ v ∈ ls, v.length = n) :
    ((List.range ls.length).map fun d =>
      ((times ++ ls.flatten).drop (times.length + d * n)).take n) = ls := by
  refine List.ext_getElem? fun d => ?_
  rw [List.getElem?_map]
  by_cases hd : d < ls.length
  · rw [List.getElem?_range hd, List.getElem?_eq_getElem hd, Option.map_some]
    congr 1
    refine List.ext_getElem? fun j => ?_
    by_cases hj : j < n
    · rw [List.getElem?_take_of_lt hj, List.getElem?_drop, Nat.add_assoc,
        List.getElem?_append_right (by omega), Nat.add_sub_cancel_left, flatten_getElem? ls hl hj,
        List.getElem?_eq_getElem hd]
      rfl
    · rw [List.getElem?_take_eq_none (by omega), List.getElem?_eq_none]
      rw [hl _ (List.getElem_mem hd)]
      omega
  · rw [List.getElem?_eq_none (by simpa using hd), List.getElem?_eq_none (by omega)]
    rfl

theorem objectiveFull_free {lib : NlLib h K} {vertices : List (Vertex K)} {k : ℕ} {o o' : NlOpt h K}
    {x : List K} {g : Bool} {y : K} (hs : LinSession lib vertices k o.lin)
    (hx : ∀ T ∈ x.take o.lin.nSegments, 1 / 2 ^ 52 ≤ T)
    (ho : o.objectiveFull lib x g = .ok (y, o')) :
    o'.lin.freeCompact = (List.range o.lin.dimension).map fun d =>
      (x.drop (o.lin.nSegments + d * o.lin.nFree)).take o.lin.nFree := by
  unfold NlOpt.objectiveFull at ho
  dsimp only at ho
  rw [Res.bind_eq_ok] at ho
  obtain ⟨_, -, ho⟩ := ho
  rw [Res.bind_eq_ok] at ho
  obtain ⟨_, -, ho⟩ := ho
  rw [Res.bind_eq_ok] at ho
  obtain ⟨l1, h1, ho⟩ := ho
  rw [Res.bind_eq_ok] at ho
  obtain ⟨l2, h2, ho⟩ := ho
  obtain ⟨s1, -⟩ := lin_update hs hx h1
  have := (lin_setFree s1 h2).2.2.2
  rw [(totalCost_inv ho).1]
  exact this

/-! #### Bounds -/

theorem boundFor_eq (limits : List (Limit K)) (m : ℕ) (x : K) :
    boundFor limits (some m) x =
      (((limits.filter fun c => decide (c.derivative = ((m : ℕ) : ℤ))).getLast?).map fun c => |c.value|).getD x := by
  unfold boundFor
  induction limits generalizing x with
  | nil => rfl
  | cons c cs ih =>
    rw [List.foldl_cons, ih]
    by_cases hc : c.derivative = ((m : ℕ) : ℤ)
    · rw [List.filter_cons_of_pos (by simpa using hc), if_pos (by simp [hc])]
      cases hl : (cs.filter fun c => decide (c.derivative = ((m : ℕ) : ℤ))) with
      | nil => simp
      | cons a as =>
        rw [List.getLast?_cons_cons]
        rw [List.getLast?_eq_getLast_of_ne_nil (by simp)]
        rfl
    · rw [List.filter_cons_of_neg (by simpa using hc), if_neg (by
        simp only [Option.map_some, Option.some.injEq]
        exact fun h0 => hc h0.symm)]

theorem bound_nonneg (limits : List (Limit K)) (m : ℕ) : 0 ≤ bound limits m := by
  unfold bound
  cases (limits.filter fun c => decide (c.derivative = ((m : ℕ) : ℤ))).getLast? with
  | none => exact le_of_lt (lt_trans (by positivity) dblMax_gt)
  | some c => exact abs_nonneg _

end Verif
