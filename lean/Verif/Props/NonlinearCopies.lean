import Verif.Proofs.NonlinearCopies

/-! Property C110: several optimisers in one program, and copies of them. -/

set_option linter.unusedSectionVars false

namespace Verif

open Spec

variable {K : Type} {h : ℕ}

/-- **C110**, partial. In every program - any number of optimisers, made, set up, solved, limited, optimised,
copied, assigned and destroyed in any order - each call returns what it returns if every optimiser is a value
of its own, and fails in the same way, and the optimisers are the same afterwards, provided that an optimiser
is copied or assigned to another one only before limits are added to it (and, if limits are hard, before it is
set up); the one assigned to may have limits. Missing: other copies, for which the claim is false
(`C110_limits_false`, `C110_destroyed_false`, `C110_hard_false`, `C110_assigned_false`). -/
theorem C110_independent_partial [Field K] [LinearOrder K] (lib : NlLib h K) (ops : List (NlOp K))
    (hc : CopiesSafe lib ops) :
    (fun r => (r.1, r.2.world)) <$> NlHeap.runs lib ops ⟨[], []⟩ = worldRuns lib ops [] :=
  heap_runs (lib := lib) ops ⟨[], []⟩ ⟨by simp, by simp, by simp, by simp, by simp⟩ hc

/-- A library on rational numbers for straight lines (`h = 1`): the inverse and the (empty) system of equations
are exact, and so are the square roots of squares of integers. The exponential is replaced by a polynomial. -/
def lineLib : NlLib 1 ℚ where
  rf := fun _ => (true, [])
  sq := fun x => match (List.range (x.num.toNat + 1)).find? fun m => (m : ℚ) * m = x with
    | some m => m
    | none => x
  ex := fun x => 1 + x + x ^ 2
  inv := fun M i j => (M i j)⁻¹
  solve := fun _ _ b => b

/-- A straight line from 0 to `x`. -/
def lineTo (x : ℚ) : List (Vertex ℚ) := [⟨1, [(0, [0])]⟩, ⟨1, [(0, [x])]⟩]

/-- Soft limits; time penalty and weight 1. -/
def softParams : NlParams ℚ := ⟨1 / 10, 1, true, 1, .squaredTime⟩

/-- Hard limits. -/
def hardParams : NlParams ℚ := ⟨1 / 10, 1, false, 1, .squaredTime⟩

/-- What the calls of a program return. -/
def outputs {α : Type} (x : Res (List (NlOut ℚ) × α)) : Res (List (NlOut ℚ)) := (fun r => r.1) <$> x

/-- **C110 is false for an optimiser with limits.** A copy of it, set up with other vertices, still
evaluates the limits on the trajectory of the original: the cost of a position 8 with the limit 1 is the cost
of the position 2 of the original. -/
theorem C110_limits_false :
    let ops : List (NlOp ℚ) := [.new 1 softParams, .setup 0 (lineTo 2) [1] 0, .solve 0, .limit 0 true 0 1,
      .copy 0, .setup 1 (lineTo 8) [1] 0, .solve 1, .total 1]
    (∃ outs, outputs (NlHeap.runs lineLib ops ⟨[], []⟩) = .ok outs ∧ outs[7]? = some (.value (76 / 3))) ∧
    (∃ outs, outputs (worldRuns lineLib ops []) = .ok outs ∧ outs[7]? = some (.value (238 / 3))) := by
  refine ⟨⟨[.nothing, .nothing, .nothing, .flag true, .nothing, .nothing, .nothing, .value (76 / 3)], ?_, rfl⟩,
    ⟨[.nothing, .nothing, .nothing, .flag true, .nothing, .nothing, .nothing, .value (238 / 3)], ?_, rfl⟩⟩ <;>
  decide +kernel

/-- **C110 is false when the original is destroyed**: the copy, unchanged, then uses an object that does not
exist any more. This is the case for an optimiser with limits returned from a function (unless the compiler
elides the copy) or stored in a growing `std::vector`. -/
theorem C110_destroyed_false :
    let ops : List (NlOp ℚ) := [.new 1 softParams, .setup 0 (lineTo 2) [1] 0, .solve 0, .limit 0 true 0 1,
      .copy 0, .destroy 0, .total 1]
    outputs (NlHeap.runs lineLib ops ⟨[], []⟩) = .ub ∧
    ∃ outs, outputs (worldRuns lineLib ops []) = .ok outs ∧ outs[6]? = some (.value (16 / 3)) := by
  refine ⟨by decide +kernel,
    ⟨[.nothing, .nothing, .nothing, .flag true, .nothing, .nothing, .value (16 / 3)], ?_, rfl⟩⟩
  decide +kernel

/-- **C110 is false for assignment**: an optimiser that gets a temporary one with limits assigned
(`optimizer = makeOptimizer()`) uses, for the limits, an object that does not exist any more, even after it was
set up anew. -/
theorem C110_assigned_false :
    let ops : List (NlOp ℚ) := [.new 1 softParams, .new 1 softParams, .limit 1 true 0 1, .assign 1 0,
      .destroy 1, .setup 0 (lineTo 2) [1] 0, .solve 0, .total 0]
    outputs (NlHeap.runs lineLib ops ⟨[], []⟩) = .ub ∧
    ∃ outs, outputs (worldRuns lineLib ops []) = .ok outs ∧ outs[7]? = some (.value (16 / 3)) := by
  refine ⟨by decide +kernel,
    ⟨[.nothing, .nothing, .flag true, .nothing, .nothing, .nothing, .nothing, .value (16 / 3)], ?_, rfl⟩⟩
  decide +kernel

/-- **C110 is false for hard limits after `setupFromVertices`**: the copy shares the NLopt object, and a
limit added to the copy becomes a constraint of the original (evaluated, moreover, on the trajectory of the
copy). -/
theorem C110_hard_false :
    let ops : List (NlOp ℚ) := [.new 1 hardParams, .setup 0 (lineTo 2) [1] 0, .solve 0, .copy 0,
      .limit 1 true 0 1, .callback 0 (.constraint 0 [1] false)]
    (∃ outs, outputs (NlHeap.runs lineLib ops ⟨[], []⟩) = .ok outs ∧ outs[5]? = some (.value 1)) ∧
    outputs (worldRuns lineLib ops []) = .ub := by
  refine ⟨⟨[.nothing, .nothing, .nothing, .nothing, .flag true, .value 1], ?_, rfl⟩, ?_⟩ <;> decide +kernel

/-- A program with a copy that is safe: two optimisers, one of them copied from the other, with limits of
their own. -/
example : ∃ ops : List (NlOp ℚ), (.copy 0) ∈ ops ∧ CopiesSafe lineLib ops ∧
    outputs (NlHeap.runs lineLib ops ⟨[], []⟩) = .ok [.nothing, .nothing, .nothing, .nothing, .nothing,
      .nothing, .flag true, .flag true, .value (16 / 3), .value (238 / 3)] := by
  refine ⟨[.new 1 softParams, .copy 0, .setup 0 (lineTo 2) [1] 0, .setup 1 (lineTo 8) [1] 0, .solve 0, .solve 1,
    .limit 0 true 0 1, .limit 1 true 0 1, .total 0, .total 1], by simp, ?_, by decide +kernel⟩
  intro pre op a post outs W o hops hop hrun ha
  have h1 := congrArg (fun l => l[pre.length]?) hops
  rw [List.getElem?_append_right le_rfl, Nat.sub_self, List.getElem?_cons_zero] at h1
  have h2 : pre.length = 1 := by
    rcases hn : pre.length with _ | _ | _ | _ | _ | _ | _ | _ | _ | _ | n <;> rw [hn] at h1 <;>
      first | rfl | (rcases hop with rfl | ⟨b, -, rfl⟩ <;> exact absurd h1 (by simp))
  have h3 : pre = [.new 1 softParams] := by
    have := congrArg (List.take 1) hops
    rw [← h2, List.take_left', h2] at this
    exact this.symm
    rfl
  subst h3
  have h4 : W = [some (NlOpt.new 1 softParams)] := by
    have : (.ok ([.nothing], [some (NlOpt.new 1 softParams)]) :
      Res (List (NlOut ℚ) × NlWorld 1 ℚ)) = .ok (outs, W) := hrun
    rw [Res.ok.injEq, Prod.mk.injEq] at this
    exact this.2.symm
  subst h4
  rcases a with _ | a
  · simp only [List.getElem?_cons_zero, Option.some.injEq] at ha
    subst ha
    exact ⟨rfl, .inl rfl⟩
  · simp at ha

/-- One with a safe assignment: the optimiser assigned to has a limit before, and gets another one after. -/
example : ∃ ops : List (NlOp ℚ), (.assign 0 1) ∈ ops ∧ CopiesSafe lineLib ops ∧
    outputs (NlHeap.runs lineLib ops ⟨[], []⟩) = .ok [.nothing, .nothing, .flag true, .nothing, .nothing, .nothing,
      .flag true, .value (238 / 3)] := by
  refine ⟨[.new 1 softParams, .new 1 softParams, .limit 1 true 0 7, .assign 0 1, .setup 1 (lineTo 8) [1] 0,
    .solve 1, .limit 1 true 0 1, .total 1], by simp, ?_, by decide +kernel⟩
  intro pre op a post outs W o hops hop hrun ha
  have h1 := congrArg (fun l => l[pre.length]?) hops
  rw [List.getElem?_append_right le_rfl, Nat.sub_self, List.getElem?_cons_zero] at h1
  have h2 : pre.length = 3 := by
    rcases hn : pre.length with _ | _ | _ | _ | _ | _ | _ | _ | n <;> rw [hn] at h1 <;>
      first | rfl | (rcases hop with rfl | ⟨b, -, rfl⟩ <;> exact absurd h1 (by simp))
  have h0 : op = .assign 0 1 := by
    rw [h2] at h1
    exact (Option.some.inj h1).symm
  have ha0 : a = 0 := by
    rw [h0] at hop
    rcases hop with hop | ⟨b, -, hop⟩
    · cases hop
    · exact (NlOp.assign.inj hop).1.symm
  have h3 : pre = [.new 1 softParams, .new 1 softParams, .limit 1 true 0 7] := by
    have := congrArg (List.take 3) hops
    rw [← h2, List.take_left', h2] at this
    exact this.symm
    rfl
  subst h3 ha0
  have h4 : ∃ x, W = [some (NlOpt.new 1 softParams), x] := by
    have h5 : worldRuns lineLib [.new 1 softParams, .new 1 softParams, .limit 1 true 0 7] [] =
        .ok ([.nothing, .nothing, .flag true], [some (NlOpt.new 1 softParams),
          some { NlOpt.new 1 softParams with constraints := [⟨0, 7⟩] }]) := by
      rfl
    rw [h5, Res.ok.injEq, Prod.mk.injEq] at hrun
    exact ⟨_, hrun.2.symm⟩
  obtain ⟨x, rfl⟩ := h4
  simp only [List.getElem?_cons_zero, Option.some.injEq] at ha
  subst ha
  exact ⟨rfl, .inl rfl⟩

end Verif
