import Verif.Props.NonlinearOptimization
import Verif.Proofs.NlOptLast

/-! Property C67, the other side: the Mellinger method without a velocity or acceleration limit. -/

set_option linter.unusedSectionVars false

namespace Verif

open Spec Set

variable {h : ℕ}

theorem limitOf_none {d : ℤ} {limits : List (Limit ℝ)} (hl : ∀ c ∈ limits, c.derivative ≠ d) :
    limitOf d limits = 0 := by
  unfold limitOf
  induction limits with
  | nil => rfl
  | cons c cs ih =>
    rw [List.foldl_cons, if_neg (hl c (by simp))]
    exact ih fun c' hc' => hl c' (by simp [hc'])

theorem scale_missing {lib : NlLib h ℝ} {o o' : NlOpt h ℝ}
    (hmiss : (∀ c ∈ o.constraints, c.derivative ≠ 1) ∨ ∀ c ∈ o.constraints, c.derivative ≠ 2) :
    o.scaleWithViolation lib ≠ .ok o' := by
  intro ho
  unfold NlOpt.scaleWithViolation at ho
  rw [Res.bind_eq_ok] at ho
  obtain ⟨tr, -, ho⟩ := ho
  dsimp only at ho
  have : limitOf 1 o.constraints = 0 ∨ limitOf 2 o.constraints = 0 :=
    hmiss.imp limitOf_none limitOf_none
  rw [if_pos this] at ho
  cases ho

/-- C67: with the Mellinger method, and without a limit on the velocity or without one on the
acceleration, no call of `optimize` in which NLopt gets as far as a result has a defined outcome: the code goes on to
stretch the segment times by the ratio of the actual maximum to a limit that is zero, and a division by
zero is not an outcome `ok` of the model (with IEEE numbers the segment times become infinite). -/
theorem C67_missing_limit {lib : NlLib h ℝ} {o : NlOpt h ℝ} {run : NlRun ℝ}
    (hm : o.params.method = .mellingerOuterLoop) (ht : run.setupThrows = false)
    (hcode : run.code ≠ none)
    (hmiss : (∀ c ∈ o.constraints, c.derivative ≠ 1) ∨ ∀ c ∈ o.constraints, c.derivative ≠ 2)
    (code : ℤ) (o' : NlOpt h ℝ) : o.optimize lib run ≠ .ok (code, o') := by
  intro ho
  unfold NlOpt.optimize at ho
  dsimp only at ho
  rw [if_neg (by rw [hm]; decide), Res.bind_eq_ok] at ho
  obtain ⟨r, ho, -⟩ := ho
  unfold NlOpt.optimizeWith at ho
  rw [Res.bind_eq_ok] at ho
  obtain ⟨⟨p, a⟩, hp, ho⟩ := ho
  rw [if_neg (by rw [ht]; decide), Res.bind_eq_ok] at ho
  obtain ⟨⟨ys, q⟩, hq, ho⟩ := ho
  dsimp only at ho hq
  rw [if_pos hm, if_neg (fun hc => hcode hc.1), Res.bind_eq_ok] at ho
  obtain ⟨o2, ho, -⟩ := ho
  refine scale_missing ?_ ho
  have h1 := (prepare_same hp).constraints
  have h2 := (answers_same hq).constraints
  rw [h2, h1]
  exact hmiss

/-- An object set up for the Mellinger method without limits, and a run of NLopt on it with a result. -/
example : ∃ (o : NlOpt 2 ℝ) (run : NlRun ℝ) (x : List ℝ),
    NlSession (exLib 2) exVertices2 1 True o ∧ o.params.method = .mellingerOuterLoop ∧
      RunOf (exLib 2) true o run ∧ run.setupThrows = false ∧ points run.queries = [x] ∧
      run.code ≠ none ∧ ∀ code o', o.optimize (exLib 2) run ≠ .ok (code, o') := by
  obtain ⟨o, h1, h2, h3, -, h5, h6⟩ := exNl ⟨1 / 10, 1, true, 1, .mellingerOuterLoop⟩
  have hm : o.params.method = .mellingerOuterLoop := by rw [h2]
  obtain ⟨run, x, a1, a2, a3, a4, -⟩ := run_exists h1 (by rw [hm]; decide) true h6
    (.inr (by
      rw [h5]
      have := dblMax_gt (K := ℝ)
      intro T hT
      simp only [List.mem_cons, List.not_mem_nil, or_false] at hT
      rcases hT with rfl | rfl <;> constructor <;> linarith))
  have hc : run.code ≠ none := by rw [a4]; simp
  exact ⟨o, run, x, h1, hm, a1, a2, a3, hc, C67_missing_limit hm a2 hc (.inl (by rw [h3]; simp))⟩

end Verif
