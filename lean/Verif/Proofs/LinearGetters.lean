import Verif.Proofs.LinOptMin
import Verif.Model.LinearGetters

/- Block diagonal matrices and the matrices of the linear optimiser. -/
namespace Verif
set_option linter.unusedSectionVars false
open Spec Matrix

variable {K : Type} [Field K] [LinearOrder K] {h : ℕ}

/-- Row `p` of the block of segment `i`. -/
def blockRow {n : ℕ} (i : Fin n) (p : Fin (h + h)) : Fin (n * (h + h)) := finProdFinEquiv (i, p)

theorem blockRow_val {n : ℕ} (i : Fin n) (p : Fin (h + h)) :
    (blockRow i p : ℕ) = i * (h + h) + p := by
  simp only [blockRow, finProdFinEquiv_apply_val]; ring

theorem blockRow_div {n : ℕ} (i : Fin n) (p : Fin (h + h)) : (blockRow i p).divNat = i :=
  congrArg Prod.fst (finProdFinEquiv.symm_apply_apply (i, p))

theorem blockRow_mod {n : ℕ} (i : Fin n) (p : Fin (h + h)) : (blockRow i p).modNat = p :=
  congrArg Prod.snd (finProdFinEquiv.symm_apply_apply (i, p))

theorem blockRow_surj {n : ℕ} (r : Fin (n * (h + h))) : ∃ i p, r = blockRow i p :=
  ⟨r.divNat, r.modNat, (finProdFinEquiv.apply_symm_apply r).symm⟩

theorem sum_blockRow {n : ℕ} (f : Fin (n * (h + h)) → K) :
    ∑ r, f r = ∑ i : Fin n, ∑ p : Fin (h + h), f (blockRow i p) := by
  rw [← Fintype.sum_prod_type' (f := fun i p => f (blockRow i p))]
  exact (Equiv.sum_comp finProdFinEquiv f).symm

theorem blockDiag_apply {n : ℕ} (B : Fin n → SqMat h K) (i j : Fin n) (p q : Fin (h + h)) :
    blockDiag B (blockRow i p) (blockRow j q) = if i = j then B i p q else 0 := by
  unfold blockDiag
  rw [blockRow_div, blockRow_div, blockRow_mod, blockRow_mod]

theorem blockDiag_mulVec {n : ℕ} (B : Fin n → SqMat h K) (x : Fin (n * (h + h)) → K) (i : Fin n)
    (p : Fin (h + h)) :
    (blockDiag B).mulVec x (blockRow i p) = (B i).mulVec (fun q => x (blockRow i q)) p := by
  simp only [Matrix.mulVec, dotProduct]
  rw [sum_blockRow]
  simp only [blockDiag_apply]
  rw [Finset.sum_eq_single i]
  · simp
  · intro j _ hj
    simp [Ne.symm hj]
  · simp

theorem blockDiag_mul {n : ℕ} (B C : Fin n → SqMat h K) :
    blockDiag B * blockDiag C = blockDiag fun i => B i * C i := by
  ext r c
  obtain ⟨i, p, rfl⟩ := blockRow_surj r
  obtain ⟨j, q, rfl⟩ := blockRow_surj c
  rw [Matrix.mul_apply, sum_blockRow, blockDiag_apply]
  simp only [blockDiag_apply]
  rw [Finset.sum_eq_single i]
  · by_cases hij : i = j
    · subst hij; simp [Matrix.mul_apply]
    · simp [hij]
  · intro l _ hl
    simp [Ne.symm hl]
  · simp

theorem blockDiag_one {n : ℕ} : blockDiag (fun _ : Fin n => (1 : SqMat h K)) = 1 := by
  ext r c
  obtain ⟨i, p, rfl⟩ := blockRow_surj r
  obtain ⟨j, q, rfl⟩ := blockRow_surj c
  rw [blockDiag_apply, Matrix.one_apply, Matrix.one_apply]
  by_cases hij : i = j
  · subst hij
    by_cases hpq : p = q
    · subst hpq; simp
    · have : blockRow i p ≠ blockRow i q := fun e => hpq (by
        have := congrArg Fin.modNat e; rwa [blockRow_mod, blockRow_mod] at this)
      simp [hpq, this]
  · have : blockRow i p ≠ blockRow j q := fun e => hij (by
      have := congrArg Fin.divNat e; rwa [blockRow_div, blockRow_div] at this)
    simp [hij, this]

section
variable [IsStrictOrderedRing K]

theorem getAInverse_ok {o : LinOpt h K} {inv} {vs : List (Vertex K)} {times : List K} {k : ℕ}
    (r : o.Ready inv vs times k) : o.getAInverse =
      .ok (blockDiag fun i => invertMappingMatrix inv (mapMat h (times.getD i 0))) := by
  unfold LinOpt.getAInverse
  have hn := r.nSeg
  rw [Res.mapM_ok (g := fun i : ℕ => invertMappingMatrix inv (mapMat h (times.getD i 0)))]
  · rw [Res.ok_bind, Res.pure_eq]
    congr 2
    funext i
    rw [List.getD_eq_getElem?_getD, List.getElem?_map, List.getElem?_range i.2]
    rfl
  · intro i hi'
    have hi : i < times.length := by rw [List.mem_range] at hi'; omega
    rw [r.invEq, Res.at'_of_lt (by simpa using hi)]
    simp [List.getD_eq_getElem?_getD, hi]

theorem getA_ok {o : LinOpt h K} {inv} {vs : List (Vertex K)} {times : List K} {k : ℕ}
    (r : o.Ready inv vs times k) (hN : h + h ≤ 22) (ht : ∀ T ∈ times, 1 / 2 ^ 52 ≤ T) :
    o.getA = .ok (blockDiag fun i => mapMat h (times.getD i 0)) := by
  unfold LinOpt.getA
  have hn := r.nSeg
  rw [Res.mapM_ok (g := fun i : ℕ => mapMat h (times.getD i 0))]
  · rw [Res.ok_bind, Res.pure_eq]
    congr 2
    funext i
    rw [List.getD_eq_getElem?_getD, List.getElem?_map, List.getElem?_range i.2]
    rfl
  · intro i hi'
    have hi : i < times.length := by rw [List.mem_range] at hi'; omega
    have hT := ht _ (List.getElem_mem hi)
    have hpos := dblEps_pos (K := K)
    rw [r.timesEq, Res.at'_of_lt hi, Res.ok_bind, Res.check_of (by linarith), Res.ok_bind, mapMat_ok _ hN]
    simp [List.getD_eq_getElem?_getD, hi]

theorem getR_ok {o : LinOpt h K} {inv} {vs : List (Vertex K)} {times : List K} {k : ℕ}
    (r : o.Ready inv vs times k) : o.getR = .ok fun a b => o.rEntry a b := by
  unfold LinOpt.getR
  rw [if_neg]
  rw [r.nAll, r.nSeg, r.invEq, r.costEq]
  simp [Nat.mul_comm]

end
end Verif
