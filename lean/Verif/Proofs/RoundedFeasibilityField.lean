import Verif.Model.RoundedFeasibility
import Verif.Model.Feasibility
import Verif.Proofs.AnalysesRoots

/-
The recursive check without laws: it is the one of `Model/Feasibility` with a field, and it settles when the root finder does.
-/
set_option linter.unusedSectionVars false
namespace Verif

open Filter

variable {K : Type}

section Field
variable [Field K] [LinearOrder K]

theorem stdMaxVal_eq (a b : K) : stdMaxVal a b = max a b := by
  unfold stdMaxVal
  split_ifs with h
  · exact (max_eq_right h.le).symm
  · exact (max_eq_left (not_lt.mp h)).symm

theorem stdMinVal_eq (a b : K) : stdMinVal a b = min a b := by
  unfold stdMinVal
  split_ifs with h
  · exact (min_eq_right h.le).symm
  · exact (min_eq_left (not_lt.mp h)).symm

theorem fieldFeas_norm (sq : K → K) (a : Fin 3 → K) : sq ((fieldFeasLib sq).dot 3 a a) = norm3 sq a := by
  unfold norm3 dot3
  change sq (∑ i, a i * a i) = _
  rw [Fin.sum_univ_three]

theorem evaluateThrustG_field (sq : K → K) (g : Fin 3 → K) (s : Segment K) (t : K) :
    evaluateThrustG (fieldFeasLib sq) g s t = evaluateThrust sq g s t := by
  unfold evaluateThrustG evaluateThrust
  simp only [← fieldFeas_norm]
  rfl

theorem evaluateSpeedG_field (sq : K → K) (s : Segment K) (t : K) :
    evaluateSpeedG (fieldFeasLib sq) s t = evaluateSpeed sq s t := by
  unfold evaluateSpeedG evaluateSpeed
  simp only [← fieldFeas_norm]
  rfl

theorem limitSuchThatG_eq (ic : InputConstraints K) (type : ℤ) (p : K → Bool) :
    limitSuchThatG ic type p = limitSuchThat ic type p := rfl

theorem thrustAtEndsG_field (sq : K → K) (ic : InputConstraints K) (g : Fin 3 → K) (s : Segment K) (t1 t2 : K) :
    thrustAtEndsG (fieldFeasLib sq) ic g s t1 t2 = thrustAtEnds sq ic g s t1 t2 := by
  unfold thrustAtEndsG thrustAtEnds
  simp only [evaluateThrustG_field, limitSuchThatG, stdMaxVal_eq, stdMinVal_eq]
  congr 1
  congr 1
  funext f1
  congr 1
  funext f2
  cases ic.getConstraint kFMin <;> cases ic.getConstraint kFMax <;> simp only [decide_eq_true_eq, Bool.false_eq_true, if_false]
  all_goals split_ifs <;> rfl

theorem speedAtEndsG_field (sq : K → K) (ic : InputConstraints K) (s : Segment K) (t1 t2 : K) :
    speedAtEndsG (fieldFeasLib sq) ic s t1 t2 = speedAtEnds sq ic s t1 t2 := by
  unfold speedAtEndsG speedAtEnds
  simp only [evaluateSpeedG_field, stdMaxVal_eq]
  rfl

theorem axisMinMaxG_field (sq : K → K) (s : Segment K) (d : ℤ) (roots : List (List (K × K))) (t1 t2 : K) (i : ℕ) :
    axisMinMaxG (fieldFeasLib sq) s d roots t1 t2 i = axisMinMax s d roots t1 t2 i := rfl

theorem maxAbsG_field (sq : K → K) (a b : K) : maxAbsG (fieldFeasLib sq) a b = max |a| |b| := by
  unfold maxAbsG
  rw [stdMaxVal_eq]
  rfl

theorem pow2_field (sq : K → K) (a : K) : (fieldFeasLib sq).pow2 a = a ^ 2 := rfl

theorem velocityLoopG_field (sq : K → K) (s : Segment K) (lim : K) (roots : List (List (K × K))) (t1 t2 : K) (is : List ℕ)
    (acc : K) : velocityLoopG (fieldFeasLib sq) s lim roots t1 t2 is acc = velocityLoop s lim roots t1 t2 is acc := by
  induction is generalizing acc with
  | nil => rfl
  | cons i is ih =>
    simp only [velocityLoopG, velocityLoop, axisMinMaxG_field, stdMaxVal_eq, maxAbsG_field, pow2_field, ih]

theorem thrustLoopG_field (sq : K → K) (ic : InputConstraints K) (g : Fin 3 → K) (s : Segment K)
    (roots : List (List (K × K))) (t1 t2 : K) (is : List (Fin 3)) (acc : K × K) :
    thrustLoopG (fieldFeasLib sq) ic g s roots t1 t2 is acc = thrustLoop ic g s roots t1 t2 is acc := by
  induction is generalizing acc with
  | nil => rfl
  | cons i is ih =>
    simp only [thrustLoopG, thrustLoop, axisMinMaxG_field, lowerTermG, stdMinVal_eq, maxAbsG_field, pow2_field, ih]
    rfl

theorem jerkLoopG_field (sq : K → K) (s : Segment K) (roots : List (List (K × K))) (t1 t2 : K) (is : List ℕ)
    (acc : K) : jerkLoopG (fieldFeasLib sq) s roots t1 t2 is acc = jerkLoop s roots t1 t2 is acc := by
  induction is generalizing acc with
  | nil => rfl
  | cons i is ih =>
    simp only [jerkLoopG, jerkLoop, axisMinMaxG_field, maxAbsG_field, pow2_field, ih]

theorem classifyG_field (sq : K → K) (ic : InputConstraints K) (a b c d : K) :
    classifyG (fieldFeasLib sq) ic a b c d = classify sq ic a b c d := rfl

theorem sectionCheckG_field (sq : K → K) (ic : InputConstraints K) (g : Fin 3 → K) (s : Segment K)
    (ra rj rs : List (List (K × K))) (t1 t2 : K) :
    sectionCheckG (fieldFeasLib sq) ic g s ra rj rs t1 t2 = sectionCheck sq ic g s ra rj rs t1 t2 := by
  unfold sectionCheckG sectionCheck velocityPartG velocityPart
  simp only [thrustAtEndsG_field, speedAtEndsG_field, velocityLoopG_field, thrustLoopG_field, jerkLoopG_field, classifyG_field]
  rfl

theorem recursiveG_field (sq : K → K) (ic : InputConstraints K) (g : Fin 3 → K) (m : K) (s : Segment K)
    (ra rj rs : List (List (K × K))) (fuel : ℕ) (t1 t2 : K) :
    recursiveFeasibilityG (fieldFeasLib sq) ic g m s ra rj rs fuel t1 t2 =
      recursiveFeasibility sq ic g m s ra rj rs fuel t1 t2 := by
  induction fuel generalizing t1 t2 with
  | zero => rfl
  | succ n ih =>
    simp only [recursiveFeasibilityG, recursiveFeasibility, sectionCheckG_field, ih]
    rfl

theorem rootsLoopG_field (rf : RootFinder K) (s : Segment K) (d : ℤ) (is : List ℕ) (acc : List (List (K × K))) :
    rootsLoopG (fun c => .ok (rf c)) s d is acc = rootsLoop rf s d is acc := by
  induction is generalizing acc with
  | nil => rfl
  | cons i is ih =>
    simp only [rootsLoopG, rootsLoop, Poly.getRoots, Res.ok_bind, Res.pure_eq, ih]
    congr 1
    funext p
    cases p.getCoefficients d <;> rfl

theorem yawCheckG_field (rf : RootFinder K) (sq : K → K) (ic : InputConstraints K) (s : Segment K) (type d : ℤ)
    (bad : Verdict) : yawCheckG (fieldFeasLib sq) (fun c => .ok (rf c)) ic s type d bad = yawCheck rf ic s type d bad := by
  unfold yawCheckG yawCheck
  cases ic.getConstraint type with
  | none => rfl
  | some lim =>
    dsimp only
    congr 1
    funext p
    rw [← C114_same_code]
    have e : p.computeMinMaxM (fieldFeasLib sq).abs (fieldFeasLib sq).eps (fieldFeasLib sq).max (fun c => .ok (rf c)) 0 s.time d =
        p.computeMinMaxG (fun x => |x|) dblEpsilon dblMax rf 0 s.time d := by
      have h := computeMinMaxM_on (rc := fun _ c => Res.ok (rf c)) (rf := rf) (fun x : K => |x|) dblEpsilon dblMax p 0 s.time d
        (fun c _ => .of_forall fun _ => rfl)
      exact h.exists.choose_spec
    rw [e]
    simp only [maxAbsG_field]
    rfl

theorem checkRecursiveG_field (rf : RootFinder K) (sq : K → K) (ic : InputConstraints K) (g : Fin 3 → K)
    (m : K) (fuel : ℕ) (s : Segment K) :
    s.checkRecursiveG (fieldFeasLib sq) (fun c => .ok (rf c)) ic g m fuel = s.checkRecursive rf sq ic g m fuel := by
  unfold Segment.checkRecursiveG Segment.checkRecursive yawChecksG yawChecks
  simp only [rootsLoopG_field, recursiveG_field, yawCheckG_field]
  rfl

end Field

section Settles
variable [Zero K] [One K] [Add K] [Sub K] [Mul K] [Div K] [Neg K] [NatCast K] [LT K] [DecidableLT K]

theorem rootsLoopG_on {rc : ℕ → RootCall K} {rf : RootFinder K} (s : Segment K) (d : ℤ) (is : List ℕ)
    (acc : List (List (K × K))) (hl : ∀ p ∈ s.polys, ∀ c, p.getCoefficients d = .ok c → SettlesOn rc rf c) :
    ∀ᶠ n in atTop, rootsLoopG (rc n) s d is acc = rootsLoopG (fun c => .ok (rf c)) s d is acc := by
  induction is generalizing acc with
  | nil => exact ev_rfl
  | cons i is ih =>
    simp only [rootsLoopG]
    refine ev_bind_const fun p hp => ?_
    have hmem : p ∈ s.polys := segment_get_mem s i p hp
    refine ev_bind_const fun c hc => ?_
    filter_upwards [hl p hmem c hc, ih (acc ++ [(rf c).2])] with n h1 h2
    rw [h1, Res.ok_bind, Res.ok_bind, h2]

theorem yawCheckG_on {rc : ℕ → RootCall K} {rf : RootFinder K} (lib : FeasLib K) (ic : InputConstraints K) (s : Segment K)
    (type d : ℤ) (bad : Verdict) (hl : ∀ p ∈ s.polys, ∀ c, p.getCoefficients (d + 1) = .ok c → SettlesOn rc rf c) :
    ∀ᶠ n in atTop, yawCheckG lib (rc n) ic s type d bad = yawCheckG lib (fun c => .ok (rf c)) ic s type d bad := by
  unfold yawCheckG
  cases ic.getConstraint type with
  | none => exact ev_rfl
  | some lim =>
    dsimp only
    refine ev_bind_const fun p hp => ?_
    have hmem : p ∈ s.polys := segment_get_mem s 3 p hp
    have e := computeMinMaxM_on (rc := fun _ c => Res.ok (rf c)) (rf := rf) lib.abs lib.eps lib.max p 0 s.time d
        (fun c _ => .of_forall fun _ => rfl)
    rw [e.exists.choose_spec]
    exact ev_bind (computeMinMaxM_on _ _ _ p 0 s.time d (hl p hmem)) fun m _ => ev_rfl

theorem yawChecksG_on {rc : ℕ → RootCall K} {rf : RootFinder K} (lib : FeasLib K) (ic : InputConstraints K) (s : Segment K)
    (hl : ∀ p ∈ s.polys, ∀ d : ℤ, 2 ≤ d → ∀ c, p.getCoefficients d = .ok c → SettlesOn rc rf c) :
    ∀ᶠ n in atTop, yawChecksG lib (rc n) ic s = yawChecksG lib (fun c => .ok (rf c)) ic s := by
  unfold yawChecksG
  refine ev_ite (fun _ => ?_) fun _ => ev_rfl
  refine ev_bind (yawCheckG_on lib ic s _ 1 _ fun p hp => hl p hp _ (by norm_num)) fun r _ => ?_
  cases r with
  | some r => exact ev_rfl
  | none => exact yawCheckG_on lib ic s _ 2 _ fun p hp => hl p hp _ (by norm_num)

theorem checkRecursiveG_on {rc : ℕ → RootCall K} {rf : RootFinder K} (lib : FeasLib K) (ic : InputConstraints K) (g : Fin 3 → K)
    (minSection : K) (s : Segment K)
    (hl : ∀ p ∈ s.polys, ∀ d : ℤ, 2 ≤ d → ∀ c, p.getCoefficients d = .ok c → SettlesOn rc rf c) :
    ∀ᶠ n in atTop, ∀ fuel, s.checkRecursiveG lib (rc n) ic g minSection fuel =
      s.checkRecursiveG lib (fun c => .ok (rf c)) ic g minSection fuel := by
  unfold Segment.checkRecursiveG
  refine ev_ite_all (fun _ => ?_) fun _ => ev_rfl_all
  refine ev_bind_all (ev_ite (fun _ => rootsLoopG_on s 2 _ _ fun p hp => hl p hp _ (by norm_num)) fun _ => ev_rfl)
    fun ra _ => ?_
  cases ra with
  | none => exact ev_rfl_all
  | some ra =>
  dsimp only
  refine ev_bind_all (ev_ite (fun _ => rootsLoopG_on s 3 _ _ fun p hp => hl p hp _ (by norm_num)) fun _ => ev_rfl)
    fun rj _ => ?_
  cases rj with
  | none => exact ev_rfl_all
  | some rj =>
  dsimp only
  refine ev_bind_all (ev_ite (fun _ => rootsLoopG_on s 4 _ _ fun p hp => hl p hp _ (by norm_num)) fun _ => ev_rfl)
    fun rs _ => ?_
  cases rs with
  | none => exact ev_rfl_all
  | some rs =>
  dsimp only
  filter_upwards [yawChecksG_on lib ic s hl] with n h fuel
  rw [h]

end Settles

end Verif
