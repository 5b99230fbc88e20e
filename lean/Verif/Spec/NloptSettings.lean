import Verif.Model.NloptSettings
import Verif.Spec.NonlinearOptimization

/-! Specification side for what is handed over to NLopt. -/
namespace Verif.Spec

variable {K : Type}

/-- The call with the reading of the clock left out. -/
def withoutClock : ProgCall K → ProgCall K
  | .setup id vertices times k _ => .setup id vertices times k 0
  | e => e

/-- A call that makes an optimiser makes it with a fixed seed. -/
def FixedSeed : ProgCall K → Prop
  | .new _ _ _ search => 0 ≤ search.randomSeed
  | _ => True

/-- Calls on other optimisers are no set-ups and no optimisations. -/
def Undisturbed (id : ℕ) (calls : List (ProgCall K)) : Prop :=
  ∀ e ∈ calls, e.id = id ∨ match e with
    | .setup _ _ _ _ _ => False
    | .optimize _ => False
    | _ => True

/-- The calls on one optimiser. -/
def callsOn (id : ℕ) (calls : List (ProgCall K)) : List (ProgCall K) := calls.filter fun e => e.id = id

/-- The answers of one optimiser. -/
def answersOf (id : ℕ) (answers : List (ℕ × ProgAnswer)) : List (ℕ × ProgAnswer) := answers.filter fun a => a.1 = id

/-- The parameters an optimiser was last made with. -/
def madeWith (id : ℕ) (calls : List (ProgCall K)) : Option (NlParams K × NlSearch K) :=
  calls.foldl (fun r e => match e with
    | .new i _ params search => if i = id then some (params, search) else r
    | _ => r) none

/-- NLopt makes no more evaluations than it was allowed; 0 and negative numbers are no limit. -/
def RespectsMaxeval {S : Type} {h : ℕ} (X : NloptLib S h K) : Prop :=
  ∀ g s o, 0 < s.maxeval → ((points (X.run g s o).1.queries).length : ℤ) ≤ s.maxeval

end Verif.Spec
