import Verif.Proofs.LinearGetters
import Verif.Props.LinearOptimization

/-
C87: the matrices the linear optimiser hands out.
-/
namespace Verif
open Spec Matrix
set_option linter.unusedSectionVars false

variable {h : ℕ}

section
variable {K : Type} [Field K] [LinearOrder K] [IsStrictOrderedRing K]

theorem block_coeffs {n : ℕ} (x : Fin (n * (h + h)) → K) (i : Fin n) :
    ((List.ofFn x).drop (i * (h + h))).take (h + h) = List.ofFn fun q => x (blockRow i q) := by
  have hle : (i : ℕ) * (h + h) + (h + h) ≤ n * (h + h) := by
    have := Nat.mul_le_mul_right (h + h) (Nat.succ_le_of_lt i.2)
    rw [Nat.succ_mul] at this
    exact this
  apply List.ext_getElem
  · simp; omega
  · intro q h1 h2
    simp only [List.getElem_take, List.getElem_drop, List.getElem_ofFn]
    congr 1
    exact Fin.ext (by rw [blockRow_val])

/-- **C87.** The matrix `A`, applied to the coefficients of all segments one after the other, gives the
derivatives `0 .. N/2-1` at the beginning and at the end of every segment. -/
theorem C87_A {inv solve} {vertices : List (Vertex K)} {k : ℕ} {times : List K} {o : LinOpt h K}
    (hs : Session inv solve vertices k times o) :
    ∃ A, o.getA = .ok A ∧ ∀ (x : Fin (o.nSegments * (h + h)) → K) (i p : ℕ), i < times.length →
      p < h + h → ∀ r : Fin (o.nSegments * (h + h)), (r : ℕ) = i * (h + h) + p →
        A.mulVec x r = if p < h
          then derivAt (((List.ofFn x).drop (i * (h + h))).take (h + h)) p 0
          else derivAt (((List.ofFn x).drop (i * (h + h))).take (h + h)) (p - h) (times.getD i 0) := by
  obtain ⟨hk, hp, r⟩ := session_ready hs
  refine ⟨_, getA_ok r hp.small hp.times_pos, ?_⟩
  intro x i p hi hpN row hrow
  have hi' : i < o.nSegments := by rw [r.nSeg]; exact hi
  have e : row = blockRow ⟨i, hi'⟩ ⟨p, hpN⟩ := Fin.ext (by rw [blockRow_val]; exact hrow)
  rw [e, blockDiag_mulVec]
  have hb := block_coeffs x ⟨i, hi'⟩
  dsimp only at hb
  rw [hb]
  have hT := hp.times_pos _ (getD_mem_times hi)
  split_ifs with hlt
  · have := (mapMat_spec (times.getD i 0) hp.small hT (fun q => x (blockRow ⟨i, hi'⟩ q)) ⟨p, hlt⟩).1
    rw [← this]
    rfl
  · have := (mapMat_spec (times.getD i 0) hp.small hT (fun q => x (blockRow ⟨i, hi'⟩ q))
      ⟨p - h, by omega⟩).2
    rw [← this]
    congr 1
    exact Fin.ext (by simp; omega)

/-- **C87.** The two matrices `getA` and `getAInverse` return are inverse to each other. -/
theorem C87_inverse {inv solve} (hinv : IsInverse inv) {vertices : List (Vertex K)} {k : ℕ}
    {times : List K} {o : LinOpt h K} (hs : Session inv solve vertices k times o) :
    ∃ A B, o.getA = .ok A ∧ o.getAInverse = .ok B ∧ A * B = 1 ∧ B * A = 1 := by
  obtain ⟨hk, hp, r⟩ := session_ready hs
  have hBA : (blockDiag fun i : Fin o.nSegments => invertMappingMatrix inv (mapMat h (times.getD i 0))) *
      (blockDiag fun i : Fin o.nSegments => mapMat h (times.getD i 0)) = 1 := by
    rw [blockDiag_mul, ← blockDiag_one]
    congr 1
    funext i
    have hi : (i : ℕ) < times.length := lt_of_lt_of_eq i.2 r.nSeg
    exact mapMat_inv _ hp.small (hp.times_pos _ (getD_mem_times hi)) inv hinv
  exact ⟨_, _, getA_ok r hp.small hp.times_pos, getAInverse_ok r, mul_eq_one_comm.mp hBA, hBA⟩

end

/-- **C87.** The vectors and matrices handed out determine the solution: the coefficients of all
segments, one after the other, are `A⁻¹ M d`, where `d` are the fixed followed by the free
constraints. -/
theorem C87_coefficients {inv solve} {vertices : List (Vertex ℝ)} {k : ℕ} {times : List ℝ}
    {o o' : LinOpt h ℝ} (hs : Session inv solve vertices k times o)
    (ho : o.solveLinear solve = .ok o' ∨ ∃ free, o.setFreeConstraints free = .ok o') :
    (∀ d < o.dimension, (o'.getFixedConstraints.getD d []).length = o'.nFixed ∧
      (o'.getFreeConstraints.getD d []).length = o'.nFree) ∧
    ∃ B, ∃ e : o'.nAll = o'.nSegments * (h + h), o'.getAInverse = .ok B ∧
      ∀ d < o.dimension, ∀ (i : ℕ) (s : Segment ℝ), o'.segments[i]? = some s → ∀ p < h + h,
        ∀ r : Fin (o'.nSegments * (h + h)), (r : ℕ) = i * (h + h) + p →
        (s.polys.getD d ⟨[]⟩).coeffs[p]? = some (B.mulVec (fun row => o'.getM.mulVec
          (fun c => (o'.getFixedConstraints.getD d [] ++ o'.getFreeConstraints.getD d []).getD c 0)
          (Fin.cast e.symm row)) r) := by
  obtain ⟨hk, hp, r₀⟩ := session_ready hs
  obtain ⟨r, hd, hfc, hseg⟩ : o'.Ready inv (vertices.map (filt h o.dimension)) times k ∧
      o'.dimension = o.dimension ∧ (∀ v ∈ o'.freeCompact, v.length = o'.nFree) ∧
      o'.segments = segmentsFor inv o.dimension (vertices.map (filt h o.dimension)) times o'.freeCompact := by
    rcases ho with ho | ⟨free, ho⟩
    · exact ready_solve r₀ hp.dim_pos ho
    · obtain ⟨a, b, c, d, -⟩ := ready_setFree r₀ hp.dim_pos ho
      exact ⟨a, b, c, d⟩
  have hfix : ∀ d < o.dimension, o'.getFixedConstraints.getD d [] =
      fixedVals h o.dimension (vertices.map (filt h o.dimension)) d := by
    intro d hdd
    unfold LinOpt.getFixedConstraints
    rw [r.fixedC, hd, List.getD_eq_getElem?_getD, List.getElem?_map, List.getElem?_range hdd]
    rfl
  have e : o'.nAll = o'.nSegments * (h + h) := by rw [r.nAll, r.nSeg]
  refine ⟨fun d hdd => ⟨?_, ?_⟩, _, e, getAInverse_ok r, ?_⟩
  · rw [hfix d hdd, r.nFixed, hd]
    simp [fixedVals]
  · unfold LinOpt.getFreeConstraints
    have hl : d < o'.freeCompact.length := by rw [r.freeLen, hd]; exact hdd
    rw [List.getD_eq_getElem?_getD, List.getElem?_eq_getElem hl, Option.getD_some]
    exact hfc _ (List.getElem_mem hl)
  · intro d hdd i s hsi p hpN row hrow
    have hsi' := hsi
    rw [hseg] at hsi'
    rw [segmentsFor_cols inv o.dimension _ times o'.freeCompact i s hsi' d hdd]
    obtain ⟨hi, -⟩ := segmentsFor_get _ _ _ _ _ _ _ hsi'
    have hi' : i < o'.nSegments := by rw [r.nSeg]; exact hi
    have er : row = blockRow ⟨i, hi'⟩ ⟨p, hpN⟩ := Fin.ext (by rw [blockRow_val]; exact hrow)
    rw [er, blockDiag_mulVec, List.getElem?_ofFn, dif_pos hpN]
    congr 1
    unfold colCoeffs
    congr 1
    funext q
    rw [hfix d hdd]
    have hap := reorder_apply r i hi (fun c => (fixedVals h o.dimension
      (vertices.map (filt h o.dimension)) d ++ o'.freeCompact.getD d []).getD c 0) q
    rw [hd] at hap
    refine hap.symm.trans ?_
    simp only [Matrix.mulVec, dotProduct, LinOpt.getM, LinOpt.getFreeConstraints, Fin.val_cast, blockRow_val]
    rw [Finset.sum_range]

/-- **C87.** The matrix `R` is symmetric and positive semidefinite, and half of the sum of its values at
the constraints of all dimensions is the cost `computeCost` returns. -/
theorem C87_R {inv solve} {vertices : List (Vertex ℝ)} {k : ℕ} {times : List ℝ}
    {o o' : LinOpt h ℝ} (hinv : IsInverse inv) (hs : Session inv solve vertices k times o)
    (ho : o.solveLinear solve = .ok o' ∨ ∃ free, o.setFreeConstraints free = .ok o') :
    ∃ R, o'.getR = .ok R ∧ R.transpose = R ∧ (∀ x, 0 ≤ x ⬝ᵥ R.mulVec x) ∧
      o'.computeCost = .ok (1 / 2 * ∑ d ∈ Finset.range o.dimension,
        (fun c : Fin (o'.nFixed + o'.nFree) =>
          (o'.getFixedConstraints.getD d [] ++ o'.getFreeConstraints.getD d []).getD c 0) ⬝ᵥ
        R.mulVec fun c : Fin (o'.nFixed + o'.nFree) =>
          (o'.getFixedConstraints.getD d [] ++ o'.getFreeConstraints.getD d []).getD c 0) := by
  obtain ⟨hk, hp, r₀⟩ := session_ready hs
  obtain ⟨r, hd, hfc, hseg⟩ : o'.Ready inv (vertices.map (filt h o.dimension)) times k ∧
      o'.dimension = o.dimension ∧ (∀ v ∈ o'.freeCompact, v.length = o'.nFree) ∧
      o'.segments = segmentsFor inv o.dimension (vertices.map (filt h o.dimension)) times o'.freeCompact := by
    rcases ho with ho | ⟨free, ho⟩
    · exact ready_solve r₀ hp.dim_pos ho
    · obtain ⟨a, b, c, d, -⟩ := ready_setFree r₀ hp.dim_pos ho
      exact ⟨a, b, c, d⟩
  have hform : ∀ X : ℕ → ℝ, (fun c : Fin (o'.nFixed + o'.nFree) => X c) ⬝ᵥ
      Matrix.mulVec (fun a b : Fin (o'.nFixed + o'.nFree) => o'.rEntry a b) (fun c => X c) =
      form o'.rEntry (o'.nFixed + o'.nFree) X X := by
    intro X
    unfold form
    rw [Finset.sum_range]
    simp only [Matrix.mulVec, dotProduct, Finset.mul_sum]
    refine Finset.sum_congr rfl fun a _ => ?_
    rw [Finset.sum_range]
    exact Finset.sum_congr rfl fun b _ => by ring
  have hfix : ∀ d < o.dimension, o'.getFixedConstraints.getD d [] =
      fixedVals h o.dimension (vertices.map (filt h o.dimension)) d := by
    intro d hdd
    unfold LinOpt.getFixedConstraints
    rw [r.fixedC, hd, List.getD_eq_getElem?_getD, List.getElem?_map, List.getElem?_range hdd]
    rfl
  refine ⟨_, getR_ok r, ?_, ?_, ?_⟩
  · ext a b
    exact rEntry_symm r hp.small b a
  · intro x
    have := rform_nonneg r hp.small hp.times_pos
      (fun c => if hc : c < o'.nFixed + o'.nFree then x ⟨c, hc⟩ else 0)
    rw [← hform] at this
    simpa using this
  · rw [C32_computeCost hinv hs ho]
    congr 1
    have := cost_cols (inv := inv) hp.small hk (vertices.map (filt h o.dimension)) times
      (fun d c => (fixedVals h o.dimension (vertices.map (filt h o.dimension)) d ++
        o'.freeCompact.getD d []).getD c 0) o'.segments
      (by rw [hseg]; exact segmentsFor_shape _ _ _ _ _)
      (fun i s hs' d hdd => segmentsFor_cols inv o.dimension _ times _ i s (by rw [← hseg]; exact hs') d hdd)
    rw [show cost k o'.segments = 1 / 2 * (2 * cost k o'.segments) by ring, this]
    congr 1
    refine Finset.sum_congr rfl fun d hdd => ?_
    refine Eq.trans ?_ (hform fun c =>
      (o'.getFixedConstraints.getD d [] ++ o'.getFreeConstraints.getD d []).getD c 0).symm
    rw [rform r, hd, hfix d (by simpa using hdd)]
    rfl

/-- The hypotheses of the four theorems can be met. -/
example : ∃ (o o' : LinOpt 1 ℝ), IsInverse (inv1 : Matrix (Fin 1) (Fin 1) ℝ → _) ∧
    Session inv1 anySolve exVertices 0 [1, 2] o ∧ o.solveLinear anySolve = .ok o' := by
  obtain ⟨o, o', -, h2, -, h4⟩ := C30_returns (inv := inv1) (solve := anySolve) (exProblem (K := ℝ)) 0
    (by norm_num)
  exact ⟨o, o', inv1_isInverse, h2, h4⟩

end Verif
