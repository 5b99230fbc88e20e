import Verif.Proofs.LinOptMin
import Verif.Props.Trajectory

/-
Properties C28 - C34: the linear optimiser.

`inv` stands for Eigen's `inverse()` and `solve` for the sparse QR solver; what is assumed of them is
`Spec.IsInverse` and `Spec.IsSolver`. `Spec.Session inv solve vertices k times o` says that on the
object `o` the last setup was `setupFromVertices(vertices, ..., k)`, followed by any calls of
`updateSegmentTimes`, `solveLinear` and `setFreeConstraints`, and that `times` are the segment times
now in force. Nothing is assumed about what was done with the object before.
-/
namespace Verif

open Spec Set

set_option linter.unusedSectionVars false

variable {K : Type} [Field K] [LinearOrder K] [IsStrictOrderedRing K] {h : ℕ}

/-! ### Examples used below -/

/-- The inverse of a one by one matrix. -/
def inv1 (D : Matrix (Fin 1) (Fin 1) K) : Matrix (Fin 1) (Fin 1) K := fun _ _ => (D 0 0)⁻¹

omit [LinearOrder K] [IsStrictOrderedRing K] in
theorem inv1_isInverse : IsInverse (inv1 : Matrix (Fin 1) (Fin 1) K → _) := by
  intro D hD
  have hne : D 0 0 ≠ 0 := by
    rw [Matrix.isUnit_iff_isUnit_det, Matrix.det_fin_one] at hD
    exact hD.ne_zero
  ext i j
  have hi : i = 0 := Subsingleton.elim _ _
  have hj : j = 0 := Subsingleton.elim _ _
  subst hi hj
  simp [Matrix.mul_apply, inv1, hne]

/-- A solver that meets the specification. -/
noncomputable def anySolve (n : ℕ) (M : Matrix (Fin n) (Fin n) K) (b : Fin n → K) : Fin n → K :=
  open Classical in if hx : ∃ x, M.mulVec x = b then hx.choose else 0

omit [LinearOrder K] [IsStrictOrderedRing K] in
theorem anySolve_isSolver : IsSolver (anySolve : (n : ℕ) → Matrix (Fin n) (Fin n) K → _) := by
  intro n M b hx
  unfold anySolve
  rw [dif_pos hx]
  exact hx.choose_spec

/-- A solver for one unknown that can be executed. -/
def solve1 (n : ℕ) (M : Matrix (Fin n) (Fin n) K) (b : Fin n → K) : Fin n → K :=
  fun i => (M i i)⁻¹ * b i

/-- Three vertices in one dimension; the position of the middle one is free. -/
def exVertices : List (Vertex K) := [⟨1, [(0, [2])]⟩, ⟨1, []⟩, ⟨1, [(0, [5])]⟩]

theorem exProblem : Problem 1 1 (exVertices : List (Vertex K)) [1, 2] where
  count := rfl
  two := by simp [exVertices]
  times_pos := by
    intro T hT
    simp only [List.mem_cons, List.not_mem_nil, or_false] at hT
    rcases hT with rfl | rfl <;> norm_num
  wf := by
    intro v hv
    simp only [exVertices, List.mem_cons, List.not_mem_nil, or_false] at hv
    rcases hv with rfl | rfl | rfl <;> exact ⟨⟨by simp, by simp⟩, rfl⟩
  dim_pos := by norm_num
  small := by norm_num

theorem exSession : ∃ o : LinOpt 1 K, o.dimension = 1 ∧
    Session inv1 anySolve exVertices 0 [1, 2] o := by
  obtain ⟨o, h1, -, h3, -⟩ := setup_ok inv1 (LinOpt.new 1 : LinOpt 1 K)
    (optReachable_sane (.new (inv := inv1) (solve := anySolve) 1)) exVertices [1, 2] 0 (by norm_num)
    exProblem
  exact ⟨o, h3, .setup (.new 1) exProblem h1⟩

/-! ### C28 mapping matrix -/

/-- **C28**, for segment times of at least the machine epsilon `2^-52`. The product of the mapping
matrix with a coefficient vector lists the derivatives `0 .. N/2-1` at 0 and then at `T`. Missing:
times in `(0, 2^-52)`, for which the property fails (`C28_tiny_times_false`). -/
theorem C28_mapping_evaluates_partial (T : K) (hN : h + h ≤ 22) (hT : 1 / 2 ^ 52 ≤ T) :
    ∃ A : SqMat h K, setupMappingMatrix h T = .ok A ∧ ∀ (c : Fin (h + h) → K) (i : Fin h),
      A.mulVec c (Fin.castAdd h i) = derivAt (List.ofFn c) i 0 ∧
      A.mulVec c (Fin.natAdd h i) = derivAt (List.ofFn c) i T :=
  ⟨_, mapMat_ok T hN, mapMat_spec T hN hT⟩

/-- **C28**, for segment times of at least the machine epsilon. The computed inverse is a two-sided
inverse of the mapping matrix. -/
theorem C28_mapping_invertible_partial (T : K) (hN : h + h ≤ 22) (hT : 1 / 2 ^ 52 ≤ T)
    (inv : Matrix (Fin h) (Fin h) K → Matrix (Fin h) (Fin h) K) (hinv : IsInverse inv) :
    ∃ A : SqMat h K, setupMappingMatrix h T = .ok A ∧ invertMappingMatrix inv A * A = 1 ∧
      A * invertMappingMatrix inv A = 1 :=
  ⟨_, mapMat_ok T hN, mapMat_inv T hN hT inv hinv, mul_eq_one_comm.mp (mapMat_inv T hN hT inv hinv)⟩

/-- **C28**. The derivatives `0 .. N/2-1` at the two ends determine the polynomial. -/
theorem C28_endpoints_determine (c c' : List K) (hc : c.length = h + h) (hc' : c'.length = h + h)
    (T : K) (hT : T ≠ 0) (h0 : ∀ k < h, derivAt c k 0 = derivAt c' k 0)
    (h1 : ∀ k < h, derivAt c k T = derivAt c' k T) : c = c' := by
  have hl : ∀ t k, derivAt (List.zipWith (· - ·) c c') k t = derivAt c k t - derivAt c' k t := by
    intro t k
    rw [derivAt_eq_sum, derivAt_eq_sum, derivAt_eq_sum]
    simp only [List.length_zipWith, hc, hc', min_self]
    rw [← Finset.sum_sub_distrib]
    refine Finset.sum_congr rfl fun i hi => ?_
    have hi' : k + i < h + h := by simp at hi; omega
    have e : (List.zipWith (· - ·) c c').getD (k + i) 0 = c.getD (k + i) 0 - c'.getD (k + i) 0 := by
      rw [← hc] at hi'
      simp [List.getD_eq_getElem?_getD, hi', show k + i < c'.length by omega]
    rw [e]
    ring
  have hz := hermite_unique (h := h) (List.zipWith (· - ·) c c') (by simp [hc, hc']) T hT
    (fun k hk => by rw [hl, h0 k hk, sub_self]) (fun k hk => by rw [hl, h1 k hk, sub_self])
  apply List.ext_getElem (by rw [hc, hc'])
  intro i h2 h3
  have := hz i
  rw [List.getD_eq_getElem?_getD, List.getElem?_zipWith] at this
  simp only [List.getElem?_eq_getElem h2, List.getElem?_eq_getElem h3, Option.getD_some] at this
  exact sub_eq_zero.mp this

/-- **C28** is false for every positive segment time below the machine epsilon, although the optimiser
accepts it (impl:298 only checks `segment_time > 0`): the mapping matrix is singular. -/
theorem C28_tiny_times_false (T : K) (hh : 0 < h) (hN : h + h ≤ 22) (h0 : 0 < T)
    (hT : T < 1 / 2 ^ 52) :
    ∃ A : SqMat h K, setupMappingMatrix h T = .ok A ∧ ∀ B, B * A ≠ 1 := by
  obtain ⟨A, hA, hA2⟩ := mapping_ok h T hN
  refine ⟨A, hA, fun B hB => ?_⟩
  have heff : effTime T = 0 := by
    unfold effTime dblEpsilon
    rw [if_pos (by rw [abs_of_pos h0]; exact hT)]
  have hrow : A (Fin.castAdd h ⟨0, hh⟩) = A (Fin.natAdd h ⟨0, hh⟩) := by
    funext j
    have := hA2 (Pi.single j 1) ⟨0, hh⟩
    rw [heff, ← this.1] at this
    simpa using this.2.symm
  have hdet : A.det = 0 := by
    refine Matrix.det_zero_of_row_eq (i := Fin.castAdd h ⟨0, hh⟩) (j := Fin.natAdd h ⟨0, hh⟩) ?_ hrow
    intro e
    have := congrArg Fin.val e
    simp at this
    omega
  have := congrArg Matrix.det hB
  rw [Matrix.det_mul, hdet, mul_zero, Matrix.det_one] at this
  exact zero_ne_one this

example : (1 : ℚ) / 2 ^ 52 ≤ 3 ∧ (2 : ℕ) + 2 ≤ 22 := by norm_num
example : IsInverse (inv1 : Matrix (Fin 1) (Fin 1) ℚ → _) := inv1_isInverse
/-- With two coefficients and `T = 4` the mapping matrix is `[[1, 0], [1, 4]]`. -/
example : ∃ A : SqMat 1 ℚ, setupMappingMatrix 1 (4 : ℚ) = .ok A ∧
    (A 0 0, A 0 1, A 1 0, A 1 1) = (1, 0, 1, 4) := ⟨_, mapMat_ok _ (by norm_num), by decide +kernel⟩

/-! ### C29 bookkeeping -/

/-- The vertex and derivative order that row `p` of segment `i` stands for: first the derivatives
`0 .. h-1` at the vertex where the segment starts, then those at the vertex where it ends. -/
def Spec.endPoint (h i p : ℕ) : ℕ × ℕ := if p < h then (i, p) else (i + 1, p - h)

/-- Whether the vertex prescribes the derivative. -/
def Spec.prescribed (vertices : List (Vertex K)) (key : ℕ × ℕ) : Option (List K) :=
  vertices[key.1]?.bind fun v => v.getConstraint (key.2 : ℕ)

theorem prescribed_filt {dim : ℕ} {vertices : List (Vertex K)}
    (hwf : ∀ v ∈ vertices, v.WF ∧ v.D = dim) (key : ℕ × ℕ) (hk : key.2 < h) :
    (((vertices.map (filt h dim)).getD key.1 (Vertex.new 0)).getConstraint (key.2 : ℕ)) =
      prescribed vertices key := by
  unfold prescribed
  rw [List.getD_eq_getElem?_getD, List.getElem?_map]
  cases hv : vertices[key.1]? with
  | none => simp [Vertex.new, Vertex.getConstraint, mapFind]
  | some v =>
    simp only [Option.map_some, Option.getD_some, Option.bind_some]
    have hm := List.mem_of_getElem? hv
    exact (filt_spec h dim v (hwf v hm).1 (hwf v hm).2).2.2.2 key.2 (by omega)

/-- **C29.** The numbers of fixed and of free end-point derivatives: together one per vertex and order
below `N/2`; the fixed ones are those some vertex prescribes. -/
theorem C29_counts {inv solve} {vertices : List (Vertex K)} {k : ℕ} {times : List K} {o : LinOpt h K}
    (hs : Session inv solve vertices k times o) :
    o.nFixed + o.nFree = vertices.length * h ∧
    o.nFixed = ((Finset.range vertices.length ×ˢ Finset.range h).filter
      fun key => (prescribed vertices key).isSome).card ∧
    o.nAll = times.length * (h + h) := by
  obtain ⟨hk, hp, r⟩ := session_ready hs
  have hlen : (vertices.map (filt h o.dimension)).length = vertices.length := by simp
  refine ⟨?_, ?_, r.nAll⟩
  · rw [r.cols]
    have := columns_length h o.dimension (vertices.map (filt h o.dimension)) r.two
    unfold colKeys
    rw [List.length_map, this, hlen]
  · rw [r.nFixed]
    have hnd : ((fixedCols h o.dimension (vertices.map (filt h o.dimension))).map Constr.key).Nodup :=
      constraintSet_nodup _ _
    rw [← List.length_map (f := Constr.key), ← List.toFinset_card_of_nodup hnd]
    congr 1
    ext ⟨i, m⟩
    rw [List.mem_toFinset]
    unfold fixedCols
    rw [fixedKeys_mem _ _ _ _ r.two, hlen]
    simp only [Finset.mem_filter, Finset.mem_product, Finset.mem_range]
    constructor
    · rintro ⟨h1, h2, h3⟩
      exact ⟨⟨h1, h2⟩, by rw [← prescribed_filt (h := h) hp.wf (i, m) h2]; exact h3⟩
    · rintro ⟨⟨h1, h2⟩, h3⟩
      refine ⟨h1, h2, ?_⟩
      rw [← prescribed_filt (h := h) hp.wf (i, m) h2] at h3
      exact h3

/-- **C29.** Every row of the reordering matrix - the derivative `p` of segment `i` - has exactly one
entry different from zero, a one. It is in a fixed column exactly when the vertex prescribes the
derivative, and then the value stored for that column is the prescribed one. Two rows use the same
column exactly when they stand for the same derivative of the same vertex. -/
theorem C29_assignment {inv solve} {vertices : List (Vertex K)} {k : ℕ} {times : List K}
    {o : LinOpt h K} (hs : Session inv solve vertices k times o) :
    ∃ col : ℕ × ℕ → ℕ,
      (∀ i < times.length, ∀ p < h + h, col (endPoint h i p) < o.nFixed + o.nFree ∧
        (∀ c, o.reorderEntry (i * (h + h) + p) c = if c = col (endPoint h i p) then 1 else 0) ∧
        (col (endPoint h i p) < o.nFixed ↔ (prescribed vertices (endPoint h i p)).isSome) ∧
        ∀ v, prescribed vertices (endPoint h i p) = some v → ∀ d < o.dimension,
          (o.fixedCompact.getD d [])[col (endPoint h i p)]? = some (v.getD d 0)) ∧
      ∀ i < times.length, ∀ p < h + h, ∀ i' < times.length, ∀ p' < h + h,
        col (endPoint h i p) = col (endPoint h i' p') → endPoint h i p = endPoint h i' p' := by
  obtain ⟨hk, hp, r⟩ := session_ready hs
  set vs := vertices.map (filt h o.dimension) with hvs
  have hlen : vs.length = vertices.length := by simp [hvs]
  have hrk : ∀ i p, rowKey h i p = endPoint h i p := fun _ _ => rfl
  have hkh : ∀ i p, p < h + h → (endPoint h i p).2 < h := by
    intro i p hp
    unfold endPoint
    split_ifs <;> simp only <;> omega
  have hnd := colKeys_nodup h o.dimension vs r.two
  have hflen : (fixedCols h o.dimension vs).length = o.nFixed := r.nFixed.symm
  have hgetfix : ∀ c, (hc : c < o.nFixed) → (colKeys h o.dimension vs)[c]? =
      some ((fixedCols h o.dimension vs)[c]'(by omega)).key := by
    intro c hc
    unfold colKeys columns
    rw [List.map_append, List.getElem?_append_left (by
      rw [List.length_map]; change c < (fixedCols h o.dimension vs).length; omega),
      List.getElem?_map]
    change Option.map _ (fixedCols h o.dimension vs)[c]? = _
    rw [List.getElem?_eq_getElem (by omega)]
    rfl
  refine ⟨fun key => (colKeys h o.dimension vs).idxOf key, ?_, ?_⟩
  · intro i hi p hpp
    have hm : endPoint h i p ∈ colKeys h o.dimension vs := by
      rw [← hrk]; exact rowKey_mem r i hi p hpp
    have hlt := List.idxOf_lt_length_of_mem hm
    have hidx : (colKeys h o.dimension vs)[(colKeys h o.dimension vs).idxOf (endPoint h i p)]? =
        some (endPoint h i p) := by
      rw [List.getElem?_eq_getElem hlt, List.getElem_idxOf]
    have hfixiff : (colKeys h o.dimension vs).idxOf (endPoint h i p) < o.nFixed ↔
        (prescribed vertices (endPoint h i p)).isSome := by
      have e : (prescribed vertices (endPoint h i p)).isSome ↔
          endPoint h i p ∈ (fixedCols h o.dimension vs).map Constr.key := by
        obtain ⟨a, a', b⟩ : ∃ a b, endPoint h i p = (a, b) := ⟨_, _, rfl⟩
        have hkh' := hkh i p hpp
        rw [b] at hkh' hm ⊢
        rw [← prescribed_filt (h := h) hp.wf _ hkh']
        unfold fixedCols
        rw [fixedKeys_mem _ _ _ _ r.two]
        have := (colKeys_mem h o.dimension vs r.two _ _).mp hm
        tauto
      rw [e]
      constructor
      · intro hc
        have := hgetfix _ hc
        rw [hidx, Option.some.injEq] at this
        rw [this]
        exact List.mem_map.mpr ⟨_, List.getElem_mem _, rfl⟩
      · intro hmem
        obtain ⟨c, hc⟩ := List.mem_iff_getElem?.mp hmem
        have hcl := (List.getElem?_eq_some_iff.mp hc).1
        rw [List.length_map, hflen] at hcl
        have h1 := hgetfix c hcl
        rw [List.getElem?_map, List.getElem?_eq_getElem (by omega), Option.map_some,
          Option.some.injEq] at hc
        rw [hc] at h1
        have : (colKeys h o.dimension vs).idxOf (endPoint h i p) = c := by
          have hc2 := (List.getElem?_eq_some_iff.mp h1).1
          have := (List.getElem?_eq_some_iff.mp h1).2
          rw [← this]
          exact hnd.idxOf_getElem c hc2
        omega
    refine ⟨by rw [r.cols]; exact hlt, ?_, hfixiff, ?_⟩
    · intro c
      rw [r.reorderEntry i hi p hpp c, hrk]
      by_cases hc : c = (colKeys h o.dimension vs).idxOf (endPoint h i p)
      · rw [if_pos hc, hc, if_pos hidx]; simp
      · rw [if_neg hc, if_neg]
        · simp
        · intro hc2
          apply hc
          obtain ⟨hc3, hc4⟩ := List.getElem?_eq_some_iff.mp hc2
          rw [← hc4]
          exact (hnd.idxOf_getElem c hc3).symm
    · intro v hv d hd
      have hc := hfixiff.mpr (by rw [hv]; rfl)
      have h1 := hgetfix _ hc
      rw [hidx, Option.some.injEq] at h1
      set c := (colKeys h o.dimension vs).idxOf (endPoint h i p) with hcdef
      have hcm : (fixedCols h o.dimension vs)[c]'(by omega) ∈
          constraintSet true (pairRows h o.dimension vs 0) := List.getElem_mem _
      obtain ⟨-, h3, h4⟩ := columns_entry h o.dimension vs r.two _ hcm
      rw [← h1] at h3 h4
      rw [prescribed_filt (h := h) hp.wf _ h3, hv, Option.some.injEq] at h4
      rw [r.fixedC, List.getD_eq_getElem?_getD, List.getElem?_map, List.getElem?_range hd]
      simp only [Option.map_some, Option.getD_some]
      unfold fixedVals
      rw [List.getElem?_map, List.getElem?_eq_getElem (by omega), Option.map_some, h4]
  · intro i hi p hpp i' hi' p' hpp' e
    have hm : endPoint h i p ∈ colKeys h o.dimension vs := by
      rw [← hrk]; exact rowKey_mem r i hi p hpp
    exact (List.idxOf_inj hm).mp e

/-- **C29.** `getMpinv` is a left inverse of `getM`. -/
theorem C29_mpinv {inv solve} {vertices : List (Vertex K)} {k : ℕ} {times : List K}
    {o : LinOpt h K} (hs : Session inv solve vertices k times o) (a b : ℕ)
    (ha : a < o.nFixed + o.nFree) (hb : b < o.nFixed + o.nFree) :
    ((List.range o.nAll).map fun r => o.mpinvEntry a r * o.reorderEntry r b).sum =
      if a = b then 1 else 0 := by
  obtain ⟨hk, hp, r⟩ := session_ready hs
  obtain ⟨col, hcol, -⟩ := C29_assignment hs
  set vs := vertices.map (filt h o.dimension) with hvs
  have hh : 0 < h := by omega
  have hrow : ∀ x < o.nAll, ∃ c, ∀ c', o.reorderEntry x c' = if c' = c then 1 else 0 := by
    intro x hx
    rw [r.nAll] at hx
    have hi : x / (h + h) < times.length := Nat.div_lt_of_lt_mul (by rwa [Nat.mul_comm])
    have hpm : x % (h + h) < h + h := Nat.mod_lt _ (by omega)
    have := (hcol _ hi _ hpm).2.1
    have e : x / (h + h) * (h + h) + x % (h + h) = x := by
      rw [Nat.mul_comm]; exact Nat.div_add_mod x (h + h)
    rw [e] at this
    exact ⟨_, this⟩
  have hnn : ∀ x < o.nAll, ∀ c, 0 ≤ o.reorderEntry x c := by
    intro x hx c
    obtain ⟨c', hc'⟩ := hrow x hx
    rw [hc' c]
    split_ifs <;> norm_num
  have hhit : ∃ x < o.nAll, o.reorderEntry x a = 1 := by
    rw [r.cols] at ha
    obtain ⟨⟨i, m⟩, hkey⟩ : ∃ key, (colKeys h o.dimension vs)[a]? = some key :=
      ⟨_, List.getElem?_eq_getElem ha⟩
    have hmem := List.mem_of_getElem? hkey
    obtain ⟨h1, h2⟩ := (colKeys_mem h o.dimension vs r.two i m).mp hmem
    have hv := r.nVert
    have hpos : 0 < times.length := by have := r.two; omega
    rcases Nat.lt_or_ge i times.length with h3 | h3
    · refine ⟨i * (h + h) + m, ?_, ?_⟩
      · rw [r.nAll]
        calc i * (h + h) + m < i * (h + h) + (h + h) := by omega
          _ = (i + 1) * (h + h) := by ring
          _ ≤ _ := Nat.mul_le_mul_right _ h3
      · rw [r.reorderEntry i h3 m (by omega), hkey]
        simp [rowKey, h2]
    · have hi : i = times.length - 1 + 1 := by omega
      refine ⟨(times.length - 1) * (h + h) + (h + m), ?_, ?_⟩
      · rw [r.nAll]
        calc (times.length - 1) * (h + h) + (h + m) < (times.length - 1) * (h + h) + (h + h) := by omega
          _ = (times.length - 1 + 1) * (h + h) := by ring
          _ ≤ _ := Nat.mul_le_mul_right _ (by omega)
      · rw [r.reorderEntry _ (by omega) _ (by omega), hkey]
        simp [rowKey, hi]
  set S := ((List.range o.nAll).map fun r' => o.reorderEntry r' a).sum with hS
  have hSpos : S ≠ 0 := by
    rw [hS, list_sum_range]
    obtain ⟨x, hx, hx1⟩ := hhit
    have := Finset.single_le_sum (f := fun r' => o.reorderEntry r' a)
      (fun y hy => hnn y (by simpa using hy) a) (Finset.mem_range.mpr hx)
    rw [hx1] at this
    intro h0
    rw [h0] at this
    exact absurd this (by norm_num)
  have e : ((List.range o.nAll).map fun r => o.mpinvEntry a r * o.reorderEntry r b).sum =
      (∑ x ∈ Finset.range o.nAll, o.reorderEntry x a * o.reorderEntry x b) / S := by
    rw [list_sum_range, Finset.sum_div]
    refine Finset.sum_congr rfl fun x _ => ?_
    unfold LinOpt.mpinvEntry
    rw [← hS]
    ring
  rw [e]
  split_ifs with hab
  · subst hab
    rw [div_eq_one_iff_eq hSpos, hS, list_sum_range]
    refine Finset.sum_congr rfl fun x hx => ?_
    obtain ⟨c, hc⟩ := hrow x (by simpa using hx)
    rw [hc a]
    split_ifs <;> norm_num
  · rw [Finset.sum_eq_zero, zero_div]
    intro x hx
    obtain ⟨c, hc⟩ := hrow x (by simpa using hx)
    rw [hc a, hc b]
    split_ifs with h1 h2 <;> simp_all

example : ∃ o : LinOpt 1 ℚ, Session inv1 anySolve exVertices 0 [1, 2] o :=
  let ⟨o, _, ho⟩ := exSession (K := ℚ); ⟨o, ho⟩
/-- For the example, one segment after the other: rows and columns of the ones. Columns 0 and 1 are the
two fixed positions, column 2 is the free one. -/
example : (((LinOpt.new 1 : LinOpt 1 ℚ).setupFromVertices inv1 exVertices [1, 2] 0) >>= fun o =>
    .ok (o.nFixed, o.nFree, o.reordering)) =
    .ok (2, 1, [(0, 0), (1, 2), (2, 2), (3, 1)]) := by decide +kernel

/-! ### C30 constraints -/

/-- **C30.** After `solveLinear` every prescribed derivative of order at most `N/2-1` has its value on
the segments on both sides of the vertex, and the segments have the given durations. -/
theorem C30_solveLinear {inv solve} (hinv : IsInverse inv) {vertices : List (Vertex K)} {k : ℕ}
    {times : List K} {o o' : LinOpt h K} (hs : Session inv solve vertices k times o)
    (ho : o.solveLinear solve = .ok o') :
    MeetsConstraints h o.dimension vertices o'.segments ∧
    Shape (h + h) o.dimension times o'.segments := by
  obtain ⟨hk, hp, r⟩ := session_ready hs
  obtain ⟨-, -, -, h4⟩ := ready_solve r hp.dim_pos ho
  rw [h4]
  exact ⟨(meets_filt hp.wf).mp (segmentsFor_meets inv hinv _ _ r.two _ hp.times_pos hp.small _),
    segmentsFor_shape _ _ _ _ _⟩

/-- **C30**, for `setFreeConstraints` with any values of the free variables. -/
theorem C30_setFreeConstraints {inv solve} (hinv : IsInverse inv) {vertices : List (Vertex K)} {k : ℕ}
    {times : List K} {o o' : LinOpt h K} (hs : Session inv solve vertices k times o)
    (free : List (List K)) (ho : o.setFreeConstraints free = .ok o') :
    MeetsConstraints h o.dimension vertices o'.segments ∧
    Shape (h + h) o.dimension times o'.segments := by
  obtain ⟨hk, hp, r⟩ := session_ready hs
  obtain ⟨-, -, -, h4, -⟩ := ready_setFree r hp.dim_pos ho
  rw [h4]
  exact ⟨(meets_filt hp.wf).mp (segmentsFor_meets inv hinv _ _ r.two _ hp.times_pos hp.small _),
    segmentsFor_shape _ _ _ _ _⟩

/-- **C30.** `setFreeConstraints` returns for exactly the free variables of the right sizes, and aborts
for all others. -/
theorem C30_setFreeConstraints_returns {inv solve} {vertices : List (Vertex K)} {k : ℕ}
    {times : List K} {o : LinOpt h K} (hs : Session inv solve vertices k times o)
    (free : List (List K)) :
    ((∃ o', o.setFreeConstraints free = .ok o') ↔
      free.length = o.dimension ∧ ∀ v ∈ free, v.length = o.nFree) ∧
    ((∀ o', o.setFreeConstraints free ≠ .ok o') → o.setFreeConstraints free = .abort) := by
  obtain ⟨hk, hp, r⟩ := session_ready hs
  have hok : free.length = o.dimension ∧ (∀ v ∈ free, v.length = o.nFree) →
      ∃ o', o.setFreeConstraints free = .ok o' := by
    rintro ⟨h1, h2⟩
    unfold LinOpt.setFreeConstraints
    rw [Res.check_of h1, Res.ok_bind, Res.check_of h2, Res.ok_bind]
    exact ⟨_, update_ok (ready_free r free h1) hp.dim_pos h2⟩
  refine ⟨⟨fun ⟨o', h1⟩ => ⟨(setFree_inv h1).1, (setFree_inv h1).2.1⟩, hok⟩, fun hno => ?_⟩
  unfold LinOpt.setFreeConstraints
  by_cases h1 : free.length = o.dimension
  · by_cases h2 : ∀ v ∈ free, v.length = o.nFree
    · obtain ⟨o', h3⟩ := hok ⟨h1, h2⟩
      exact absurd h3 (hno o')
    · rw [Res.check_of h1, Res.ok_bind, Res.check_of_not h2]; rfl
  · rw [Res.check_of_not h1]; rfl

/-- **C30.** On a new optimiser object the two calls always return, for every problem. -/
theorem C30_returns {inv : Matrix (Fin h) (Fin h) K → Matrix (Fin h) (Fin h) K} {solve} {dim : ℕ}
    {vertices : List (Vertex K)} {times : List K} (hp : Problem h dim vertices times) (k : ℕ)
    (hk : k < h) :
    ∃ o o', (LinOpt.new dim : LinOpt h K).setupFromVertices inv vertices times k = .ok o ∧
      Session inv solve vertices k times o ∧ o.dimension = dim ∧ o.solveLinear solve = .ok o' := by
  have hr : OptReachable inv solve (LinOpt.new dim : LinOpt h K) := .new dim
  obtain ⟨o, h1, h2, h3, -, h5⟩ := setup_ok inv (LinOpt.new dim : LinOpt h K) (optReachable_sane hr)
    vertices times k hk hp
  have hd : 0 < o.dimension := by rw [h3]; exact hp.dim_pos
  have h3' : o.dimension = dim := h3
  have h2' : o.Ready inv (vertices.map (filt h dim)) times k := h2
  by_cases hf : o.nFree = 0
  · exact ⟨o, _, h1, .setup hr hp h1, h3', solve_none_ok h2' hd hf (by
      rw [h5]
      intro v hv
      have : v = [] := by
        have := List.mem_replicate.mp (show v ∈ List.replicate dim [] from hv)
        exact this.2
      rw [this]; rfl)⟩
  · exact ⟨o, _, h1, .setup hr hp h1, h3', solve_free_ok h2' hd hf⟩

/-- The trajectory `getTrajectory` returns. -/
theorem shape_trajectory {h dim : ℕ} {times : List ℝ} {o : LinOpt h ℝ}
    (hsh : Shape (h + h) dim times o.segments) (hN : ∀ s ∈ o.segments, s.N = h + h)
    (hne : times ≠ []) (ht : ∀ T ∈ times, 1 / 2 ^ 52 ≤ T) (hsmall : h + h ≤ 22) :
    ∃ tr, o.getTrajectory = .ok tr ∧ tr.WF ∧ tr.D = dim ∧ tr.maxTime = times.sum ∧
      tr.segments = o.segments ∧ tr.getSegmentTimes = times := by
  have hdur : o.segments.map (·.time) = times := hsh.durations
  refine ⟨⟨dim, h + h, times.sum, o.segments⟩, ?_, ?_, rfl, rfl, rfl, hdur⟩
  · unfold LinOpt.getTrajectory
    rw [setSegments_ok_iff]
    refine ⟨?_, fun s hs => ⟨hsh.dims s hs, hN s hs⟩, rfl, by rw [hdur]⟩
    intro h0
    rw [h0] at hdur
    exact hne hdur.symm
  · refine ⟨hsh.dims, hN, ?_, ?_, ?_⟩
    · change times.sum = (o.segments.map (·.time)).sum
      rw [hdur]
    · intro s hs
      exact ⟨fun p hp => by rw [hN s hs]; exact hsh.coeffs s hs p hp, by rw [hN s hs]; exact hsmall⟩
    · intro s hs
      have hmem : s.time ∈ times := by rw [← hdur]; exact List.mem_map.mpr ⟨s, hs, rfl⟩
      have := ht _ hmem
      have h2 := dblEps_pos (K := ℝ)
      linarith

theorem component_valuesAt (s : Segment ℝ) (d k : ℕ) (t : ℝ) (hd : d < s.polys.length) :
    component (.ok (valuesAt s.polys k t)) d = segDeriv s d k t := by
  simp only [component, valuesAt, segDeriv]
  rw [List.getD_eq_getElem?_getD, List.getElem?_map, List.getElem?_eq_getElem hd,
    List.getD_eq_getElem?_getD, List.getElem?_eq_getElem hd]
  simp [iteratedDeriv_curve]

/-- What both functions that compute segments guarantee. -/
theorem session_result {inv solve} (hinv : IsInverse inv) {vertices : List (Vertex K)} {k : ℕ}
    {times : List K} {o o' : LinOpt h K} (hs : Session inv solve vertices k times o)
    (ho : o.solveLinear solve = .ok o' ∨ ∃ free, o.setFreeConstraints free = .ok o') :
    MeetsConstraints h o.dimension vertices o'.segments ∧
    Shape (h + h) o.dimension times o'.segments ∧ Spec.Continuous h o.dimension o'.segments ∧
    (∀ s ∈ o'.segments, s.N = h + h) ∧
    o'.Ready inv (vertices.map (filt h o.dimension)) times k ∧ o'.dimension = o.dimension := by
  obtain ⟨hk, hp, r⟩ := session_ready hs
  have : ∃ fc, o'.segments =
      segmentsFor inv o.dimension (vertices.map (filt h o.dimension)) times fc ∧
      o'.Ready inv (vertices.map (filt h o.dimension)) times k ∧ o'.dimension = o.dimension := by
    rcases ho with ho | ⟨free, ho⟩
    · obtain ⟨h1, h2, _, h4⟩ := ready_solve r hp.dim_pos ho
      exact ⟨_, h4, h1, h2⟩
    · obtain ⟨h1, h2, _, h4, _⟩ := ready_setFree r hp.dim_pos ho
      exact ⟨_, h4, h1, h2⟩
  obtain ⟨fc, hfc, h1, h2⟩ := this
  refine ⟨?_, ?_, ?_, ?_, h1, h2⟩
  · rw [hfc]
    exact (meets_filt hp.wf).mp (segmentsFor_meets inv hinv _ _ r.two _ hp.times_pos hp.small _)
  · rw [hfc]
    exact segmentsFor_shape _ _ _ _ _
  · rw [hfc]
    exact segmentsFor_continuous inv hinv _ _ _ hp.times_pos hp.small _
  · intro s hs
    rw [hfc] at hs
    obtain ⟨i, hi⟩ := List.mem_iff_getElem?.mp hs
    obtain ⟨-, rfl⟩ := segmentsFor_get _ _ _ _ _ i s hi
    rfl

/-- **C30**, end to end over the reals: the trajectory returned by `getTrajectory` evaluates, at the
time of every vertex, to the prescribed value of every prescribed derivative of order at most
`N/2-1`. -/
theorem C30_trajectory {h : ℕ} {inv solve} (hinv : IsInverse inv) {vertices : List (Vertex ℝ)} {k : ℕ}
    {times : List ℝ} {o o' : LinOpt h ℝ} (hs : Session inv solve vertices k times o)
    (ho : o.solveLinear solve = .ok o' ∨ ∃ free, o.setFreeConstraints free = .ok o') :
    ∃ tr, o'.getTrajectory = .ok tr ∧ tr.WF ∧ tr.D = o.dimension ∧ tr.maxTime = times.sum ∧
      ∀ i v, vertices[i]? = some v → ∀ m < h, ∀ c, v.getConstraint (m : ℕ) = some c →
        ∀ d < o.dimension, component (tr.evaluate (startTime times i) m) d = c.getD d 0 := by
  obtain ⟨hk, hp, r⟩ := session_ready hs
  obtain ⟨hm, hsh, -, hN, -, -⟩ := session_result hinv hs ho
  have hcount := hp.count
  have hlen := hp.two
  have hne : times ≠ [] := by
    intro h0
    rw [h0] at hcount
    simp at hcount
    omega
  obtain ⟨tr, h1, h2, h3, h4, h5, h6⟩ := shape_trajectory hsh hN hne hp.times_pos hp.small
  refine ⟨tr, h1, h2, h3, h4, ?_⟩
  intro i v hv m hm' c hc d hd
  have hslen : tr.segments.length = times.length := by rw [h5, ← hsh.durations]; simp
  have hiv := (List.getElem?_eq_some_iff.mp hv).1
  have hpoly : ∀ s ∈ tr.segments, d < s.polys.length := by
    intro s hs
    rw [h5] at hs
    rw [hsh.dims s hs]
    exact hd
  rcases Nat.lt_or_ge i times.length with hi | hi
  · have hi' : i < tr.segments.length := by omega
    have hst : startTime times (i + 1) = startTime times i + times[i] := startTime_succ times i hi
    have hpos := hp.times_pos _ (List.getElem_mem hi)
    have heps := dblEps_pos (K := ℝ)
    rw [C09_inside tr h2 i hi' (startTime times i) (by rw [h6]) (by rw [h6, hst]; linarith) m, h6,
      sub_self, component_valuesAt _ _ _ _ (hpoly _ (List.getElem_mem hi'))]
    refine (hm i v hv m hm' c hc d hd).1 _ ?_
    rw [← h5]
    exact List.getElem?_eq_getElem hi'
  · have hie : i = times.length := by omega
    have hsne : tr.segments ≠ [] := by
      intro h0
      rw [h0] at hslen
      simp at hslen
      omega
    rw [hie, startTime_length, ← h4, C09_end tr h2 hsne m,
      component_valuesAt _ _ _ _ (hpoly _ (List.getLast_mem hsne))]
    refine (hm i v hv m hm' c hc d hd).2 (times.length - 1) _ (by omega) ?_
    rw [← h5, ← hslen, List.getLast_eq_getElem]
    exact List.getElem?_eq_getElem (by omega)

example : ∃ o o' : LinOpt 1 ℝ, Session inv1 anySolve exVertices 0 [1, 2] o ∧
    o.solveLinear anySolve = .ok o' :=
  let ⟨o, o', _, h2, _, h4⟩ := C30_returns (K := ℝ) (inv := inv1) (solve := anySolve) exProblem 0
    (by norm_num)
  ⟨o, o', h2, h4⟩
/-- For the example, minimising the integral of the square: from 2 to 0, and from 0 to 5. -/
example : (((LinOpt.new 1 : LinOpt 1 ℚ).setupFromVertices inv1 exVertices [1, 2] 0) >>= fun o =>
    o.solveLinear solve1 >>= fun o' => .ok (o'.segments.map fun s => (s.polys, s.time))) =
    .ok [([⟨[2, -4]⟩], 1), ([⟨[-2, 7 / 2]⟩], 2)] := by decide +kernel

/-! ### C31 continuity -/

/-- **C31.** At every interior vertex the derivatives `0 .. N/2-1` of the two segments agree. -/
theorem C31_continuous {inv solve} (hinv : IsInverse inv) {vertices : List (Vertex K)} {k : ℕ}
    {times : List K} {o o' : LinOpt h K} (hs : Session inv solve vertices k times o)
    (ho : o.solveLinear solve = .ok o' ∨ ∃ free, o.setFreeConstraints free = .ok o') :
    Spec.Continuous h o.dimension o'.segments :=
  (session_result hinv hs ho).2.2.1

/-- **C31**, end to end over the reals: every derivative of order below `N/2` of the trajectory
returned by `getTrajectory`, as evaluated by `evaluate`, is continuous over its whole duration. -/
theorem C31_trajectory {h : ℕ} {inv solve} (hinv : IsInverse inv) {vertices : List (Vertex ℝ)} {k : ℕ}
    {times : List ℝ} {o o' : LinOpt h ℝ} (hs : Session inv solve vertices k times o)
    (ho : o.solveLinear solve = .ok o' ∨ ∃ free, o.setFreeConstraints free = .ok o') :
    ∃ tr, o'.getTrajectory = .ok tr ∧ ∀ m < h, ∀ d < o.dimension,
      ContinuousOn (fun t => component (tr.evaluate t m) d) (Icc 0 times.sum) := by
  obtain ⟨hk, hp, r⟩ := session_ready hs
  obtain ⟨hm, hsh, hcont, hN, -, -⟩ := session_result hinv hs ho
  have hcount := hp.count
  have hlen := hp.two
  have hne : times ≠ [] := by
    intro h0
    rw [h0] at hcount
    simp at hcount
    omega
  obtain ⟨tr, h1, h2, h3, h4, h5, h6⟩ := shape_trajectory hsh hN hne hp.times_pos hp.small
  refine ⟨tr, h1, fun m hm' d hd => ?_⟩
  have hslen : tr.segments.length = times.length := by rw [h5, ← hsh.durations]; simp
  have hsne : tr.segments ≠ [] := by
    intro h0
    rw [h0] at hslen
    exact hne (List.eq_nil_of_length_eq_zero hslen.symm)
  rw [← h4]
  refine C10_continuous tr h2 hsne m ?_ d (by rw [h3]; exact hd)
  intro i hi
  have hg : ∀ j, (hj : j < tr.segments.length) → o'.segments[j]? = some tr.segments[j] := by
    intro j hj
    rw [← h5]
    exact List.getElem?_eq_getElem hj
  have hc := hcont i _ _ (hg i (by omega)) (hg (i + 1) hi) m hm'
  have hl : ∀ j, (hj : j < tr.segments.length) → (tr.segments[j]).polys.length = o.dimension := by
    intro j hj
    exact hsh.dims _ (by rw [← h5]; exact List.getElem_mem hj)
  apply List.ext_getElem
  · simp [valuesAt, hl]
  · intro d' h7 h8
    have hd' : d' < o.dimension := by simpa [valuesAt, hl] using h7
    have := hc d' hd'
    unfold segDeriv at this
    simp only [valuesAt, List.getElem_map, iteratedDeriv_curve]
    rw [List.getD_eq_getElem?_getD, List.getElem?_eq_getElem (by rw [hl]; exact hd'),
      List.getD_eq_getElem?_getD, List.getElem?_eq_getElem (by rw [hl]; exact hd')] at this
    simpa using this

/-! ### C32 cost -/

/-- **C32.** `cᵀ Q c / 2` is the integral of the squared `k`-th derivative. -/
theorem C32_cost_matrix (h k : ℕ) (hN : h + h ≤ 22) (hk : k < h + h) (T : ℝ) :
    ∃ Q : SqMat h ℝ, computeQuadraticCostJacobian h k T = .ok Q ∧ ∀ c : Fin (h + h) → ℝ,
      c ⬝ᵥ Q.mulVec c / 2 = ∫ t in (0 : ℝ)..T, (iteratedDeriv k (curve (List.ofFn c)) t) ^ 2 := by
  refine ⟨costMat h k T, ?_, fun c => ?_⟩
  · unfold computeQuadraticCostJacobian
    rw [Res.check_of (by omega), Res.ok_bind, if_neg (by unfold kMaxConvolutionSize; omega)]
    rfl
  · rw [costMat_integral h k hN hk]
    ring

/-- **C32.** `computeCost` is the sum of those integrals over all segments and dimensions. -/
theorem C32_computeCost {h : ℕ} {inv solve} (hinv : IsInverse inv) {vertices : List (Vertex ℝ)}
    {k : ℕ} {times : List ℝ} {o o' : LinOpt h ℝ} (hs : Session inv solve vertices k times o)
    (ho : o.solveLinear solve = .ok o' ∨ ∃ free, o.setFreeConstraints free = .ok o') :
    o'.computeCost = .ok (cost k o'.segments) := by
  obtain ⟨hk, hp, r⟩ := session_ready hs
  obtain ⟨-, hsh, -, -, hr, hd⟩ := session_result hinv hs ho
  exact computeCost_ok hr hp.small (by rw [hd]; exact hsh)

/-- **C32**, outside the stated situation: between `updateSegmentTimes` and the next solution
`computeCost` combines the new times with the polynomials of the old ones. Here the segment lasts one
second and has the cost 4, but after `updateSegmentTimes` to two seconds the result is 8. -/
example : (((LinOpt.new 1 : LinOpt 1 ℚ).setupFromVertices inv1
      [⟨1, [(0, [2])]⟩, ⟨1, [(0, [2])]⟩] [1] 0) >>= fun o => o.solveLinear solve1 >>= fun o' =>
      o'.computeCost >>= fun c => o'.updateSegmentTimes inv1 [2] >>= fun o'' =>
      o''.computeCost >>= fun c' => .ok (c, c', o''.segments.map (·.time))) =
    .ok (4, 8, [1]) := by decide +kernel

/-! ### C33 optimality -/

/-- **C33.** No competitor - any list of segments with the same numbers of coefficients and dimensions,
the same durations, the prescribed vertex constraints and continuity up to order `N/2-1` - has a
smaller cost than the solution of `solveLinear`, which is itself such a list. -/
theorem C33_optimal {h : ℕ} {inv solve} (hinv : IsInverse inv) (hsolve : IsSolver solve)
    {vertices : List (Vertex ℝ)} {k : ℕ} {times : List ℝ} {o o' : LinOpt h ℝ}
    (hs : Session inv solve vertices k times o) (ho : o.solveLinear solve = .ok o') :
    (Shape (h + h) o.dimension times o'.segments ∧
      MeetsConstraints h o.dimension vertices o'.segments ∧
      Spec.Continuous h o.dimension o'.segments) ∧
    ∀ segs, Shape (h + h) o.dimension times segs → MeetsConstraints h o.dimension vertices segs →
      Spec.Continuous h o.dimension segs → cost k o'.segments ≤ cost k segs := by
  obtain ⟨hk, hp, r⟩ := session_ready hs
  obtain ⟨hm, hsh, hcont, -, -, -⟩ := session_result hinv hs (.inl ho)
  exact ⟨⟨hsh, hm, hcont⟩, fun segs h1 h2 h3 =>
    solve_min hinv hsolve hp.small r hp.dim_pos hp.times_pos ho segs h1
      ((meets_filt hp.wf).mpr h2) h3⟩

/-- **C33.** The normal equations `R_pp d_p = - R_pf d_f` handed to the solver have a solution, in
every dimension. -/
theorem C33_solvable {h : ℕ} {inv solve} {vertices : List (Vertex ℝ)} {k : ℕ} {times : List ℝ}
    {o : LinOpt h ℝ} (hs : Session inv solve vertices k times o) (df : ℕ → ℝ) :
    ∃ x : Fin o.nFree → ℝ, ∀ a : Fin o.nFree,
      ∑ b : Fin o.nFree, o.rEntry (o.nFixed + a) (o.nFixed + b) * x b =
        - ∑ b : Fin o.nFixed, o.rEntry (o.nFixed + a) b * df b := by
  obtain ⟨hk, hp, r⟩ := session_ready hs
  obtain ⟨x, hx⟩ := normal_solvable o.rEntry o.nFixed o.nFree (rEntry_symm r hp.small)
    (rform_nonneg r hp.small hp.times_pos) df
  refine ⟨x, fun a => ?_⟩
  have := congrFun hx a
  rw [Matrix.neg_mulVec] at this
  simpa only [Matrix.mulVec, dotProduct, Pi.neg_apply, Matrix.of_apply] using this

/-- **C33.** A fresh object solves every problem, so the theorem above is never about nothing. -/
theorem C33_solves {h : ℕ} {inv : Matrix (Fin h) (Fin h) ℝ → Matrix (Fin h) (Fin h) ℝ} {solve}
    (hinv : IsInverse inv) (hsolve : IsSolver solve) {dim : ℕ} {vertices : List (Vertex ℝ)}
    {times : List ℝ} (hp : Problem h dim vertices times) (k : ℕ) (hk : k < h) :
    ∃ o o', (LinOpt.new dim : LinOpt h ℝ).setupFromVertices inv vertices times k = .ok o ∧
      o.solveLinear solve = .ok o' ∧
      o'.computeCost = .ok (cost k o'.segments) ∧
      ∀ segs, Shape (h + h) dim times segs → MeetsConstraints h dim vertices segs →
        Spec.Continuous h dim segs → cost k o'.segments ≤ cost k segs := by
  obtain ⟨o, o', h1, h2, h3, h4⟩ := C30_returns (inv := inv) (solve := solve) hp k hk
  subst h3
  exact ⟨o, o', h1, h4, C32_computeCost hinv h2 (.inl h4), (C33_optimal hinv hsolve h2 h4).2⟩

example : IsInverse (inv1 : Matrix (Fin 1) (Fin 1) ℝ → _) ∧
    IsSolver (anySolve : (n : ℕ) → Matrix (Fin n) (Fin n) ℝ → _) ∧
    Problem 1 1 (exVertices : List (Vertex ℝ)) [1, 2] :=
  ⟨inv1_isInverse, anySolve_isSolver, exProblem⟩

/-! ### C34 re-use -/

/-- **C34**, for problems with at least one free derivative: whatever was done before with two objects
of the same dimension, after the same setup and `solveLinear` they are equal in every respect. Missing:
problems in which every derivative is prescribed, for which the property fails (`C34_reuse_false`). -/
theorem C34_reuse_partial {inv : Matrix (Fin h) (Fin h) K → Matrix (Fin h) (Fin h) K} {solve}
    {o₁ o₂ : LinOpt h K} (h₁ : OptReachable inv solve o₁) (h₂ : OptReachable inv solve o₂)
    (hdim : o₁.dimension = o₂.dimension) {vertices : List (Vertex K)} {times : List K} {k : ℕ}
    (hk : k < h) (hp : Problem h o₁.dimension vertices times)
    (hfree : ∃ i < vertices.length, ∃ m < h, prescribed vertices (i, m) = none) :
    ∃ a₁ a₂ r, o₁.setupFromVertices inv vertices times k = .ok a₁ ∧
      o₂.setupFromVertices inv vertices times k = .ok a₂ ∧
      a₁.solveLinear solve = .ok r ∧ a₂.solveLinear solve = .ok r := by
  obtain ⟨a₁, e₁, r₁, d₁, n₁, -⟩ := setup_ok inv o₁ (optReachable_sane h₁) vertices times k hk hp
  obtain ⟨a₂, e₂, r₂, d₂, n₂, -⟩ := setup_ok inv o₂ (optReachable_sane h₂) vertices times k hk
    (hdim ▸ hp)
  have hdd : a₁.dimension = a₂.dimension := by rw [d₁, d₂, hdim]
  rw [← hdim] at r₂
  set vs := vertices.map (filt h o₁.dimension) with hvs
  have hf : a₁.nFree ≠ 0 := by
    obtain ⟨i, hi, m, hm, hpr⟩ := hfree
    rw [← prescribed_filt (h := h) hp.wf (i, m) hm] at hpr
    intro h0
    rw [r₁.nFree] at h0
    have hmem := (fixedKeys_mem false h a₁.dimension vs r₁.two i m).mpr
      ⟨by simpa [hvs] using hi, hm, by rw [hpr]; rfl⟩
    have : freeCols h a₁.dimension vs = [] := List.eq_nil_of_length_eq_zero h0
    unfold freeCols at this
    rw [this] at hmem
    simp at hmem
  have hff : a₂.nFree = a₁.nFree := by rw [r₂.nFree, r₁.nFree, hdd]
  have hpos : 0 < a₁.dimension := by rw [d₁]; exact hp.dim_pos
  refine ⟨a₁, a₂, _, e₁, e₂, solve_free_ok r₁ hpos hf, ?_⟩
  rw [solve_free_ok r₂ (hdd ▸ hpos) (hff ▸ hf)]
  have e1 := r₁.deriv
  have e2 := r₁.vertsEq
  have e3 := r₁.timesEq
  have e4 := r₁.nSeg
  have e5 := r₁.nAll
  have e6 := r₁.nFixed
  have e8 := r₁.reord
  have e9 := r₁.invEq
  have e10 := r₁.costEq
  have e11 := r₁.fixedC
  rw [← r₂.deriv] at e1
  rw [← r₂.vertsEq] at e2
  rw [← r₂.timesEq] at e3
  rw [← r₂.nSeg] at e4
  rw [← r₂.nAll] at e5
  rw [hdd, ← r₂.nFixed] at e6
  rw [hdd, ← r₂.reord] at e8
  rw [← r₂.invEq] at e9
  rw [← r₂.costEq] at e10
  rw [hdd, ← r₂.fixedC] at e11
  rw [← n₂] at n₁
  clear e₁ e₂ r₁ r₂ d₁ d₂ n₂ hf hpos
  cases a₁
  cases a₂
  simp only at hdd e1 e2 e3 e4 e5 e6 hff e8 e9 e10 e11 n₁
  subst hdd e1 e2 e3 e4 e5 e6 hff e8 e9 e10 e11 n₁
  rfl

/-- **C34**, for fully prescribed problems: it holds when the object never had a free derivative to
solve for (for instance a new one). -/
theorem C34_fully_prescribed_partial {inv : Matrix (Fin h) (Fin h) K → Matrix (Fin h) (Fin h) K}
    {solve} {o₁ o₂ : LinOpt h K} (h₁ : OptReachable inv solve o₁) (h₂ : OptReachable inv solve o₂)
    (hdim : o₁.dimension = o₂.dimension) (hf₁ : ∀ v ∈ o₁.freeCompact, v = [])
    (hf₂ : ∀ v ∈ o₂.freeCompact, v = []) {vertices : List (Vertex K)} {times : List K} {k : ℕ}
    (hk : k < h) (hp : Problem h o₁.dimension vertices times)
    (hfree : ∀ i < vertices.length, ∀ m < h, (prescribed vertices (i, m)).isSome) :
    ∃ a₁ a₂ r₁ r₂, o₁.setupFromVertices inv vertices times k = .ok a₁ ∧
      o₂.setupFromVertices inv vertices times k = .ok a₂ ∧
      a₁.solveLinear solve = .ok r₁ ∧ a₂.solveLinear solve = .ok r₂ ∧ r₁.segments = r₂.segments := by
  obtain ⟨a₁, e₁, r₁, d₁, n₁, c₁⟩ := setup_ok inv o₁ (optReachable_sane h₁) vertices times k hk hp
  obtain ⟨a₂, e₂, r₂, d₂, n₂, c₂⟩ := setup_ok inv o₂ (optReachable_sane h₂) vertices times k hk
    (hdim ▸ hp)
  have hdd : a₁.dimension = a₂.dimension := by rw [d₁, d₂, hdim]
  rw [← hdim] at r₂
  set vs := vertices.map (filt h o₁.dimension) with hvs
  have hz : ∀ dim, (freeCols h dim vs).length = 0 := by
    intro dim
    rw [List.length_eq_zero_iff, List.eq_nil_iff_forall_not_mem]
    intro c hc
    have hmem : c.key ∈ (constraintSet false (pairRows h dim vs 0)).map Constr.key :=
      List.mem_map.mpr ⟨c, hc, rfl⟩
    obtain ⟨i, m, hkey⟩ : ∃ i m, c.key = (i, m) := ⟨_, _, rfl⟩
    rw [hkey] at hmem
    obtain ⟨h3, h4, h5⟩ := (fixedKeys_mem false h dim vs r₁.two i m).mp hmem
    have := hfree i (by simpa [hvs] using h3) m h4
    rw [← prescribed_filt (h := h) hp.wf (i, m) h4, h5] at this
    exact absurd this (by simp)
  have hpos : 0 < a₁.dimension := by rw [d₁]; exact hp.dim_pos
  have l₁ : ∀ v ∈ a₁.freeCompact, v.length = 0 := by
    rw [c₁]; intro v hv; rw [hf₁ v hv]; rfl
  have l₂ : ∀ v ∈ a₂.freeCompact, v.length = 0 := by
    rw [c₂]; intro v hv; rw [hf₂ v hv]; rfl
  refine ⟨a₁, a₂, _, _, e₁, e₂, solve_none_ok r₁ hpos (by rw [r₁.nFree, hz]) l₁,
    solve_none_ok r₂ (hdd ▸ hpos) (by rw [r₂.nFree, hz]) l₂, ?_⟩
  simp only
  rw [hdd]
  have hfc : a₁.freeCompact = a₂.freeCompact := by
    apply List.ext_getElem
    · rw [r₁.freeLen, r₂.freeLen, hdd]
    · intro i h3 h4
      rw [List.eq_nil_of_length_eq_zero (l₁ _ (List.getElem_mem h3)),
        List.eq_nil_of_length_eq_zero (l₂ _ (List.getElem_mem h4))]
  rw [hfc]

/-- **C34** is false: an object on which a problem with a free derivative was solved keeps the old
free values (`setupFromVertices` does not clear them), and solving a fully prescribed problem with it
afterwards writes the compact vector with too many entries, while a new object solves that problem. -/
theorem C34_reuse_false :
    ∃ (o r : LinOpt 1 ℚ) (vertices : List (Vertex ℚ)) (times : List ℚ),
      OptReachable inv1 solve1 o ∧ Problem 1 1 vertices times ∧
      ((LinOpt.new 1 : LinOpt 1 ℚ).setupFromVertices inv1 vertices times 0 >>= fun a =>
        a.solveLinear solve1) = .ok r ∧
      (o.setupFromVertices inv1 vertices times 0 >>= fun a => a.solveLinear solve1) = .ub := by
  have hprob : Problem 1 1 ([⟨1, [(0, [2])]⟩, ⟨1, [(0, [5])]⟩] : List (Vertex ℚ)) [1] := by
    refine ⟨rfl, by simp, by simp; norm_num, ?_, by norm_num, by norm_num⟩
    intro v hv
    simp only [List.mem_cons, List.not_mem_nil, or_false] at hv
    rcases hv with rfl | rfl <;> exact ⟨⟨by simp, by simp⟩, rfl⟩
  obtain ⟨a, o, h1, -, -, h2⟩ := C30_returns (K := ℚ) (inv := inv1) (solve := solve1) exProblem 0
    (by norm_num)
  obtain ⟨b, r, h3, -, -, h4⟩ := C30_returns (K := ℚ) (inv := inv1) (solve := solve1) hprob 0
    (by norm_num)
  refine ⟨o, r, _, [1], .solveLinear (.setup (.new 1) h1) h2, hprob, ?_, ?_⟩
  · have h3' : (LinOpt.new 1 : LinOpt 1 ℚ).setupFromVertices inv1 [⟨1, [(0, [2])]⟩, ⟨1, [(0, [5])]⟩]
      [1] 0 = .ok b := h3
    rw [h3', Res.ok_bind, h4]
  · have hub : ∀ x : Res (LinOpt 1 ℚ), x.isUb = true → x = .ub := by
      intro x hx
      cases x <;> simp_all [Res.isUb]
    have hrun : ((LinOpt.new 1 : LinOpt 1 ℚ).setupFromVertices inv1 exVertices [1, 2] (0 : ℕ) >>=
        fun a => a.solveLinear solve1 >>= fun o =>
        o.setupFromVertices inv1 [⟨1, [(0, [2])]⟩, ⟨1, [(0, [5])]⟩] [1] 0 >>= fun a =>
        a.solveLinear solve1).isUb = true := by decide +kernel
    rw [h1, Res.ok_bind, h2, Res.ok_bind] at hrun
    exact hub _ hrun

example : OptReachable inv1 anySolve (LinOpt.new 1 : LinOpt 1 ℚ) ∧
    ∃ i < (exVertices : List (Vertex ℚ)).length, ∃ m < 1,
      prescribed (exVertices : List (Vertex ℚ)) (i, m) = none :=
  ⟨.new 1, 1, by decide, 0, by decide, by decide +kernel⟩
example : ∀ v ∈ (LinOpt.new 1 : LinOpt 1 ℚ).freeCompact, v = [] := by decide +kernel

/-! ### C52 the route does not matter -/

theorem ready_solve_segments {inv : Matrix (Fin h) (Fin h) K → Matrix (Fin h) (Fin h) K} {solve}
    {vs : List (Vertex K)} {times : List K} {k : ℕ} {o₁ o₂ r₁ r₂ : LinOpt h K}
    (h₁ : o₁.Ready inv vs times k) (h₂ : o₂.Ready inv vs times k)
    (hdd : o₁.dimension = o₂.dimension) (hpos : 0 < o₁.dimension)
    (e₁ : o₁.solveLinear solve = .ok r₁) (e₂ : o₂.solveLinear solve = .ok r₂) :
    r₁.segments = r₂.segments := by
  have hff : o₂.nFree = o₁.nFree := by rw [h₂.nFree, h₁.nFree, hdd]
  have hpos' : 0 < o₂.dimension := hdd ▸ hpos
  by_cases hf : o₁.nFree = 0
  · obtain ⟨a1, b1, c1, d1⟩ := ready_solve h₁ hpos e₁
    obtain ⟨a2, b2, c2, d2⟩ := ready_solve h₂ hpos' e₂
    rw [d1, d2, hdd]
    congr 1
    have n1 : r₁.nFree = 0 := by rw [a1.nFree, b1, ← h₁.nFree, hf]
    have n2 : r₂.nFree = 0 := by rw [a2.nFree, b2, ← h₂.nFree, hff, hf]
    apply List.ext_getElem
    · rw [a1.freeLen, a2.freeLen, b1, b2, hdd]
    · intro i h3 h4
      rw [List.eq_nil_of_length_eq_zero ((c1 _ (List.getElem_mem h3)).trans n1),
        List.eq_nil_of_length_eq_zero ((c2 _ (List.getElem_mem h4)).trans n2)]
  · rw [solve_free_ok h₁ hpos hf, Res.ok.injEq] at e₁
    rw [solve_free_ok h₂ hpos' (hff ▸ hf), Res.ok.injEq] at e₂
    subst e₁ e₂
    have e6 := h₁.nFixed
    have e8 := h₁.reord
    have e9 := h₁.invEq
    have e10 := h₁.costEq
    rw [hdd, ← h₂.nFixed] at e6
    rw [hdd, ← h₂.reord] at e8
    rw [← h₂.invEq] at e9
    rw [← h₂.costEq] at e10
    clear h₁ h₂ hf hpos hpos'
    cases o₁
    cases o₂
    simp only at hdd e6 hff e8 e9 e10
    subst hdd e6 hff e8 e9 e10
    rfl

/-- **C52.** The segments `solveLinear` computes depend only on the vertices, the order of the
derivative and the segment times now in force - not on how the object got there: two objects of the
same dimension that were set up with the same vertices, at whatever times, and then moved to the same
times by `updateSegmentTimes`, with any other calls in between, agree. -/
theorem C52_route_independent {inv : Matrix (Fin h) (Fin h) K → Matrix (Fin h) (Fin h) K} {solve}
    {vertices : List (Vertex K)} {times : List K} {k : ℕ} {o₁ o₂ r₁ r₂ : LinOpt h K}
    (h₁ : Session inv solve vertices k times o₁) (h₂ : Session inv solve vertices k times o₂)
    (hdim : o₁.dimension = o₂.dimension)
    (e₁ : o₁.solveLinear solve = .ok r₁) (e₂ : o₂.solveLinear solve = .ok r₂) :
    r₁.segments = r₂.segments := by
  obtain ⟨-, hp, q₁⟩ := session_ready h₁
  obtain ⟨-, -, q₂⟩ := session_ready h₂
  rw [← hdim] at q₂
  exact ready_solve_segments q₁ q₂ hdim hp.dim_pos e₁ e₂

/-- **C52.** Changing the segment times always succeeds for positive times, so the previous theorem
covers every sequence of times tried by an outer optimisation. -/
theorem C52_update_times {inv : Matrix (Fin h) (Fin h) K → Matrix (Fin h) (Fin h) K} {solve}
    {vertices : List (Vertex K)} {times : List K} {k : ℕ} {o : LinOpt h K}
    (hs : Session inv solve vertices k times o) (times' : List K)
    (hl : times'.length = times.length) (ht : ∀ T ∈ times', 1 / 2 ^ 52 ≤ T) :
    ∃ o', o.updateSegmentTimes inv times' = .ok o' ∧ Session inv solve vertices k times' o' ∧
      o'.dimension = o.dimension := by
  obtain ⟨hk, hp, r⟩ := session_ready hs
  have h1 := updateTimes_ok inv o times' k hk hp.small r.deriv (by rw [hl, r.nSeg]) (fun T hT => by
    have := ht T hT
    have := dblEps_pos (K := K)
    linarith)
  exact ⟨_, h1, .times hs ht h1, rfl⟩

example : ∃ o : LinOpt 1 ℚ, Session inv1 anySolve exVertices 0 [3, 4] o :=
  let ⟨_, _, ho⟩ := exSession (K := ℚ)
  let ⟨o', _, h2, _⟩ := C52_update_times ho [3, 4] rfl (by
    intro T hT
    simp only [List.mem_cons, List.not_mem_nil, or_false] at hT
    rcases hT with rfl | rfl <;> norm_num)
  ⟨o', h2⟩

end Verif
