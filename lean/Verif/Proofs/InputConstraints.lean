import Mathlib.Algebra.Order.Ring.Abs
import Mathlib.Tactic.Linarith
import Mathlib.Tactic.Positivity
import Verif.Model.InputConstraints
import Verif.Proofs.LinOptResult
import Verif.Proofs.Vertex
import Verif.Spec.Io

/- Helper lemmas for `InputConstraints`. -/
set_option linter.unusedSectionVars false

namespace Verif

open Spec

variable {K S : Type}

/-- Keys in increasing order. -/
def KeysSorted (l : List (ℤ × K)) : Prop := (l.map Prod.fst).Pairwise (· < ·)

theorem KeysSorted.insert {l : List (ℤ × K)} (h : KeysSorted l) (k : ℤ) (v : K) :
    KeysSorted (mapInsert k v l) := mapInsert_sorted k v l h

theorem KeysSorted.erase {l : List (ℤ × K)} (h : KeysSorted l) (k : ℤ) : KeysSorted (mapErase k l) :=
  mapErase_sorted k l h

namespace InputConstraints

section Order
variable [Field K] [LinearOrder K] [IsStrictOrderedRing K]

/-- What every history keeps. -/
structure Ok (c : InputConstraints K) : Prop where
  sorted : KeysSorted c.constraints
  nonneg : ∀ t v, c.getConstraint t = some v → 0 ≤ v
  thrust : ∀ a b, c.getConstraint kFMin = some a → c.getConstraint kFMax = some b → a ≤ b

theorem ok_empty : (empty : InputConstraints K).Ok :=
  ⟨List.Pairwise.nil, by simp [getConstraint, empty, mapFind], by simp [getConstraint, empty, mapFind]⟩

/-- What `addConstraint` does to every entry. -/
theorem getConstraint_add (c : InputConstraints K) (type : ℤ) (value : K) (t : ℤ) :
    (c.addConstraint type value).getConstraint t =
      if t = type then some |value|
      else if type = kFMin ∧ t = kFMax then (c.getConstraint kFMax).map (max |value|)
      else if type = kFMax ∧ t = kFMin then (c.getConstraint kFMin).map (min |value|)
      else c.getConstraint t := by
  unfold addConstraint getConstraint
  simp only
  rw [mapFind_insert]
  by_cases h : t = type
  · simp [h]
  · simp only [if_neg h]
    by_cases h1 : type = kFMin
    · simp only [if_pos h1]
      have h2 : ¬ type = kFMax := by rw [h1]; decide
      cases hm : mapFind kFMax c.constraints with
      | none =>
        by_cases h3 : t = kFMax
        · simp [h1, h3, hm]
        · simp [h1, h3, show kFMin ≠ kFMax by decide]
      | some m =>
        simp only [mapFind_insert]
        by_cases h3 : t = kFMax
        · simp only [h1, h3, and_self, if_true, Option.map_some, Option.some.injEq]
          split
          · next h4 => rw [max_eq_left (le_of_lt h4)]
          · next h4 => rw [max_eq_right (not_lt.mp h4)]
        · simp [h1, h3, show kFMin ≠ kFMax by decide]
    · simp only [h1, false_and, if_false]
      by_cases h2 : type = kFMax
      · simp only [if_pos h2]
        cases hm : mapFind kFMin c.constraints with
        | none =>
          by_cases h3 : t = kFMin
          · simp [h2, h3, hm]
          · simp [h2, h3]
        | some m =>
          simp only [mapFind_insert]
          by_cases h3 : t = kFMin
          · simp only [h2, h3, and_self, if_true, Option.map_some, Option.some.injEq]
            split
            · next h4 => rw [min_eq_left (le_of_lt h4)]
            · next h4 => rw [min_eq_right (not_lt.mp h4)]
          · simp [h2, h3]
      · simp [h2]

theorem sorted_add {c : InputConstraints K} (h : KeysSorted c.constraints) (type : ℤ) (value : K) :
    KeysSorted (c.addConstraint type value).constraints := by
  unfold addConstraint
  simp only
  apply KeysSorted.insert
  split
  · split
    · exact h.insert _ _
    · exact h
  · split
    · split
      · exact h.insert _ _
      · exact h
    · exact h

theorem Ok.add {c : InputConstraints K} (h : c.Ok) (type : ℤ) (value : K) :
    (c.addConstraint type value).Ok := by
  refine ⟨sorted_add h.sorted _ _, ?_, ?_⟩
  · intro t v hv
    rw [getConstraint_add] at hv
    split at hv
    · simp only [Option.some.injEq] at hv
      rw [← hv]; exact abs_nonneg _
    · split at hv
      · obtain ⟨m, hm, rfl⟩ := Option.map_eq_some_iff.mp hv
        exact le_trans (abs_nonneg _) (le_max_left _ _)
      · split at hv
        · obtain ⟨m, hm, rfl⟩ := Option.map_eq_some_iff.mp hv
          exact le_min (abs_nonneg _) (h.nonneg _ _ hm)
        · exact h.nonneg t v hv
  · intro a b ha hb
    rw [getConstraint_add] at ha hb
    by_cases h1 : type = kFMin
    · subst h1
      simp only [if_true, Option.some.injEq] at ha
      rw [if_neg (by decide), if_pos ⟨rfl, rfl⟩] at hb
      obtain ⟨m, hm, rfl⟩ := Option.map_eq_some_iff.mp hb
      rw [← ha]; exact le_max_left _ _
    · by_cases h2 : type = kFMax
      · subst h2
        simp only [if_true, Option.some.injEq] at hb
        rw [if_neg (by decide), if_neg (by decide), if_pos ⟨rfl, rfl⟩] at ha
        obtain ⟨m, hm, rfl⟩ := Option.map_eq_some_iff.mp ha
        rw [← hb]; exact min_le_left _ _
      · rw [if_neg (Ne.symm h1), if_neg (by tauto), if_neg (by tauto)] at ha
        rw [if_neg (Ne.symm h2), if_neg (by tauto), if_neg (by tauto)] at hb
        exact h.thrust a b ha hb

theorem getConstraint_remove (c : InputConstraints K) (type t : ℤ) :
    (c.removeConstraint type).2.getConstraint t =
      if t = type then none else c.getConstraint t := by
  unfold removeConstraint hasConstraint getConstraint
  split
  · simp only [mapFind_erase]
  · next h =>
    simp only
    split
    · next h2 => subst h2; simpa using h
    · rfl

theorem Ok.remove {c : InputConstraints K} (h : c.Ok) (type : ℤ) : (c.removeConstraint type).2.Ok := by
  refine ⟨?_, ?_, ?_⟩
  · unfold removeConstraint
    split
    · exact h.sorted.erase _
    · exact h.sorted
  · intro t v hv
    rw [getConstraint_remove] at hv
    split at hv
    · simp at hv
    · exact h.nonneg t v hv
  · intro a b ha hb
    rw [getConstraint_remove] at ha hb
    split at ha
    · simp at ha
    · split at hb
      · simp at hb
      · exact h.thrust a b ha hb

theorem getConstraint_defaults (g pi : K) (c : InputConstraints K) (t : ℤ) :
    (c.setDefaultValues g pi).getConstraint t =
      if t = kOmegaZDotMax then some (2 * pi) else if t = kOmegaZMax then some (pi / 2)
      else if t = kOmegaXYMax then some (pi / 2) else if t = kVMax then some 3
      else if t = kFMax then some (3 / 2 * g) else if t = kFMin then some (1 / 2 * g)
      else c.getConstraint t := by
  unfold setDefaultValues getConstraint
  simp only [mapFind_insert]

theorem Ok.defaults {c : InputConstraints K} (h : c.Ok) {g pi : K} (hg : 0 ≤ g) (hpi : 0 ≤ pi) :
    (c.setDefaultValues g pi).Ok := by
  refine ⟨?_, ?_, ?_⟩
  · exact ((((((h.sorted.insert _ _).insert _ _).insert _ _).insert _ _).insert _ _).insert _ _)
  · intro t v hv
    rw [getConstraint_defaults] at hv
    split_ifs at hv
    all_goals first
      | exact h.nonneg t v hv
      | (simp only [Option.some.injEq] at hv; rw [← hv]; positivity)
  · intro a b ha hb
    rw [getConstraint_defaults] at ha hb
    simp only [show kFMin ≠ kOmegaZDotMax by decide, show kFMin ≠ kOmegaZMax by decide,
      show kFMin ≠ kOmegaXYMax by decide, show kFMin ≠ kVMax by decide,
      show kFMin ≠ kFMax by decide, if_false, if_true, Option.some.injEq] at ha
    simp only [show kFMax ≠ kOmegaZDotMax by decide, show kFMax ≠ kOmegaZMax by decide,
      show kFMax ≠ kOmegaXYMax by decide, show kFMax ≠ kVMax by decide,
      if_false, if_true, Option.some.injEq] at hb
    rw [← ha, ← hb]
    linarith

theorem Ok.loadOne {cd : Codec K S} {node : YNode S} {c c' : InputConstraints K} {type : ℤ}
    (h : c.Ok) (hr : fromYamlOne cd node c type = .ok c') : c'.Ok := by
  unfold fromYamlOne at hr
  obtain ⟨n, _, h2⟩ := Res.bind_eq_ok.mp hr
  cases n with
  | none =>
    simp only [Res.pure_eq, Res.ok.injEq] at h2
    rw [← h2]; exact h
  | some y =>
    obtain ⟨v, _, h3⟩ := Res.bind_eq_ok.mp h2
    simp only [Res.pure_eq, Res.ok.injEq] at h3
    rw [← h3]; exact h.add _ _

theorem Ok.load {cd : Codec K S} {node : YNode S} {c c' : InputConstraints K}
    (h : c.Ok) (hr : c.fromYaml cd node = .ok c') : c'.Ok := by
  unfold fromYaml at hr
  exact Res.foldlM_inv (fun c : InputConstraints K => c.Ok) h
    (fun a x b _ ha hx => Ok.loadOne ha hx) hr

/-! #### YAML round trip -/

/-- The six types with a name. -/
def Named (t : ℤ) : Prop := 0 ≤ t ∧ t ≤ 5

instance (t : ℤ) : Decidable (Named t) := by unfold Named; infer_instance

theorem constraintName_inj {t t' : ℤ} (h : Named t) (hn : constraintName t = constraintName t') :
    t = t' := by
  have e : ∀ t : ℤ, ¬ Named t → constraintName t = "Unknown!" := by
    intro t ht
    unfold Named at ht
    unfold constraintName kFMin kFMax kVMax kOmegaXYMax kOmegaZMax kOmegaZDotMax
    rw [if_neg (by omega), if_neg (by omega), if_neg (by omega), if_neg (by omega), if_neg (by omega),
      if_neg (by omega)]
  have fin : ∀ t : ℤ, Named t → t = 0 ∨ t = 1 ∨ t = 2 ∨ t = 3 ∨ t = 4 ∨ t = 5 := by
    intro t ht; unfold Named at ht; omega
  by_cases h' : Named t'
  · rcases fin t h with rfl | rfl | rfl | rfl | rfl | rfl <;>
    rcases fin t' h' with rfl | rfl | rfl | rfl | rfl | rfl <;>
    first | rfl | (exfalso; revert hn; decide)
  · rw [e t' h'] at hn
    rcases fin t h with rfl | rfl | rfl | rfl | rfl | rfl <;> (exfalso; revert hn; decide)

theorem setKey_cons (key : String) (y : Yaml S) (e : String × Yaml S) (l : List (String × Yaml S)) :
    setKey key y (e :: l) = if e.1 = key then (key, y) :: l else e :: setKey key y l := rfl

theorem lookup_cons_if (key : String) (e : String × Yaml S) (l : List (String × Yaml S)) :
    (e :: l).lookup key = if key = e.1 then some e.2 else l.lookup key := by
  obtain ⟨a, b⟩ := e
  rw [List.lookup_cons]
  by_cases h : key = a
  · simp [h]
  · have : (key == a) = false := by simpa using h
    rw [this]; simp [h]

theorem lookup_setKey (key key' : String) (y : Yaml S) (l : List (String × Yaml S)) :
    (setKey key y l).lookup key' = if key' = key then some y else l.lookup key' := by
  induction l with
  | nil => rw [setKey, lookup_cons_if]
  | cons e l ih =>
    rw [setKey_cons]
    by_cases he : e.1 = key
    · rw [if_pos he, lookup_cons_if, lookup_cons_if, he]
      split
      · rfl
      · rfl
    · rw [if_neg he, lookup_cons_if, lookup_cons_if, ih]
      by_cases h2 : key' = e.1
      · have : key' ≠ key := by rw [h2]; exact he
        simp only [if_pos h2, if_neg this]
      · simp only [if_neg h2]

/-- The entries written for a sorted map. -/
theorem lookup_written (cd : Codec K S) (l : List (ℤ × K)) (hs : KeysSorted l)
    (acc : List (String × Yaml S)) (t : ℤ) (ht : Named t) :
    (l.foldl (fun l e => setKey (constraintName e.1) (.scalar (cd.putD e.2)) l) acc).lookup
        (constraintName t) =
      match mapFind t l with
      | some v => some (.scalar (cd.putD v))
      | none => acc.lookup (constraintName t) := by
  induction l generalizing acc with
  | nil => simp [mapFind]
  | cons e l ih =>
    unfold KeysSorted at hs
    rw [List.map_cons, List.pairwise_cons] at hs
    rw [List.foldl_cons, ih hs.2, mapFind_cons]
    by_cases he : e.1 = t
    · rw [if_pos he]
      have hnone : mapFind t l = none := by
        cases hf : mapFind t l with
        | none => rfl
        | some v =>
          have := hs.1 t (List.mem_map.mpr ⟨_, mapFind_mem hf, rfl⟩)
          omega
      rw [hnone]
      simp only
      rw [lookup_setKey, if_pos (by rw [he])]
    · rw [if_neg he]
      cases hf : mapFind t l with
      | some v => rfl
      | none =>
        simp only
        rw [lookup_setKey, if_neg]
        intro hn
        exact he (constraintName_inj ht hn).symm

theorem setKey_ne_nil (key : String) (y : Yaml S) (l : List (String × Yaml S)) : setKey key y l ≠ [] := by
  cases l with
  | nil => simp [setKey]
  | cons e l => rw [setKey_cons]; split <;> simp

theorem foldl_setKey_ne_nil (cd : Codec K S) (l : List (ℤ × K)) (acc : List (String × Yaml S))
    (h : acc ≠ []) :
    l.foldl (fun l e => setKey (constraintName e.1) (.scalar (cd.putD e.2)) l) acc ≠ [] := by
  induction l generalizing acc with
  | nil => simpa using h
  | cons e l ih => rw [List.foldl_cons]; exact ih _ (setKey_ne_nil _ _ _)

/-- Reading a named key of the written node. -/
theorem get_toYaml (cd : Codec K S) (c : InputConstraints K) (hs : KeysSorted c.constraints) (t : ℤ)
    (ht : Named t) :
    YNode.get (some (c.toYaml cd)) (constraintName t) =
      .ok ((c.getConstraint t).map fun v => .scalar (cd.putD v)) := by
  have h := lookup_written cd c.constraints hs [] t ht
  unfold toYaml
  simp only
  split
  · next he =>
    rw [List.isEmpty_iff.mp he] at h
    unfold getConstraint
    cases hf : mapFind t c.constraints with
    | none => rfl
    | some v => rw [hf] at h; simp at h
  · unfold getConstraint
    simp only [YNode.get]
    rw [h]
    cases hf : mapFind t c.constraints <;> rfl

theorem fromYamlOne_toYaml {cd : Codec K S} {rnd : K → K} (hcd : ReadsBack cd rnd)
    {c : InputConstraints K} (hs : KeysSorted c.constraints) (c0 : InputConstraints K) {t : ℤ}
    (ht : Named t) :
    fromYamlOne cd (some (c.toYaml cd)) c0 t =
      .ok (match c.getConstraint t with
        | none => c0
        | some v => c0.addConstraint t (rnd v)) := by
  unfold fromYamlOne
  rw [get_toYaml cd c hs t ht, Res.ok_bind]
  cases c.getConstraint t with
  | none => rfl
  | some v => simp [YNode.as, hcd.doubles]

/-- The result of loading into an empty object. -/
theorem load_result {cd : Codec K S} {rnd : K → K} (hcd : ReadsBack cd rnd)
    (hmono : ∀ x y, x ≤ y → rnd x ≤ rnd y) (h0 : ∀ x, 0 ≤ x → 0 ≤ rnd x) (c : InputConstraints K)
    (h : c.Ok) :
    ∃ c', InputConstraints.empty.fromYaml cd (some (c.toYaml cd)) = .ok c' ∧
      ∀ t, c'.getConstraint t = if Named t then (c.getConstraint t).map rnd else none := by
  set st := fun (c0 : InputConstraints K) (t : ℤ) => (match c.getConstraint t with
        | none => c0
        | some v => c0.addConstraint t (rnd v)) with hst
  have hn : ∀ t : ℤ, 0 ≤ t → t ≤ 5 → Named t := fun t a b => ⟨a, b⟩
  have hone : ∀ c0 (t : ℤ), Named t → fromYamlOne cd (some (c.toYaml cd)) c0 t = .ok (st c0 t) :=
    fun c0 t ht => fromYamlOne_toYaml hcd h.sorted c0 ht
  -- one step, for entries other than the thrust pair
  have hget : ∀ c0 t t', t' ≠ t → ¬ (t = kFMin ∧ t' = kFMax) → ¬ (t = kFMax ∧ t' = kFMin) →
      (st c0 t).getConstraint t' = c0.getConstraint t' := by
    intro c0 t t' h1 h2 h3
    simp only [hst]
    cases c.getConstraint t with
    | none => rfl
    | some v =>
      simp only
      rw [getConstraint_add, if_neg h1, if_neg h2, if_neg h3]
  have hself : ∀ c0 t, c0.getConstraint t = none →
      (st c0 t).getConstraint t = (c.getConstraint t).map rnd := by
    intro c0 t hc0
    simp only [hst]
    cases hv : c.getConstraint t with
    | none => simpa using hc0
    | some v =>
      simp only
      rw [getConstraint_add, if_pos rfl, abs_of_nonneg (h0 v (h.nonneg t v hv))]
      rfl
  set c0 : InputConstraints K := InputConstraints.empty
  set c1 := st c0 kFMin with hc1
  set c2 := st c1 kFMax with hc2
  set c3 := st c2 kVMax with hc3
  set c4 := st c3 kOmegaXYMax with hc4
  set c5 := st c4 kOmegaZMax with hc5
  set c6 := st c5 kOmegaZDotMax with hc6
  have e0 : ∀ t, c0.getConstraint t = none := fun t => rfl
  refine ⟨c6, ?_, ?_⟩
  · unfold fromYaml
    simp only [List.foldlM_cons, List.foldlM_nil]
    rw [hone _ _ (hn _ (by decide) (by decide)), Res.ok_bind, hone _ _ (hn _ (by decide) (by decide)),
      Res.ok_bind, hone _ _ (hn _ (by decide) (by decide)), Res.ok_bind,
      hone _ _ (hn _ (by decide) (by decide)), Res.ok_bind, hone _ _ (hn _ (by decide) (by decide)),
      Res.ok_bind, hone _ _ (hn _ (by decide) (by decide)), Res.ok_bind]
    rfl
  · intro t
    -- entries of `c2` for the thrust pair
    have f1 : c1.getConstraint kFMin = (c.getConstraint kFMin).map rnd := hself _ _ (e0 _)
    have f1' : c1.getConstraint kFMax = none := by
      rw [hc1]
      simp only [hst]
      cases c.getConstraint kFMin with
      | none => rfl
      | some v =>
        simp only
        rw [getConstraint_add, if_neg (by decide), if_pos ⟨rfl, rfl⟩, e0]; rfl
    have f2 : c2.getConstraint kFMax = (c.getConstraint kFMax).map rnd := hself _ _ f1'
    have f3 : c2.getConstraint kFMin = (c.getConstraint kFMin).map rnd := by
      rw [hc2]
      simp only [hst]
      cases hb : c.getConstraint kFMax with
      | none => exact f1
      | some b =>
        simp only
        rw [getConstraint_add, if_neg (by decide), if_neg (by decide), if_pos ⟨rfl, rfl⟩, f1]
        cases ha : c.getConstraint kFMin with
        | none => rfl
        | some a =>
          have hab := h.thrust a b ha hb
          simp only [Option.map_some, Option.some.injEq]
          rw [abs_of_nonneg (h0 b (h.nonneg _ _ hb)), min_eq_right (hmono _ _ hab)]
    by_cases ht : Named t
    · rw [if_pos ht]
      have : t = 0 ∨ t = 1 ∨ t = 2 ∨ t = 3 ∨ t = 4 ∨ t = 5 := by unfold Named at ht; omega
      rcases this with rfl | rfl | rfl | rfl | rfl | rfl
      · rw [hc6, hget _ _ _ (by decide) (by decide) (by decide), hc5,
          hget _ _ _ (by decide) (by decide) (by decide), hc4,
          hget _ _ _ (by decide) (by decide) (by decide), hc3,
          hget _ _ _ (by decide) (by decide) (by decide)]
        exact f3
      · rw [hc6, hget _ _ _ (by decide) (by decide) (by decide), hc5,
          hget _ _ _ (by decide) (by decide) (by decide), hc4,
          hget _ _ _ (by decide) (by decide) (by decide), hc3,
          hget _ _ _ (by decide) (by decide) (by decide)]
        exact f2
      · rw [hc6, hget _ _ _ (by decide) (by decide) (by decide), hc5,
          hget _ _ _ (by decide) (by decide) (by decide), hc4,
          hget _ _ _ (by decide) (by decide) (by decide), hc3]
        refine hself _ _ ?_
        rw [hc2, hget _ _ _ (by decide) (by decide) (by decide), hc1,
          hget _ _ _ (by decide) (by decide) (by decide), e0]
      · rw [hc6, hget _ _ _ (by decide) (by decide) (by decide), hc5,
          hget _ _ _ (by decide) (by decide) (by decide), hc4]
        refine hself _ _ ?_
        rw [hc3, hget _ _ _ (by decide) (by decide) (by decide),
          hc2, hget _ _ _ (by decide) (by decide) (by decide), hc1,
          hget _ _ _ (by decide) (by decide) (by decide), e0]
      · rw [hc6, hget _ _ _ (by decide) (by decide) (by decide), hc5]
        refine hself _ _ ?_
        rw [hc4, hget _ _ _ (by decide) (by decide) (by decide),
          hc3, hget _ _ _ (by decide) (by decide) (by decide),
          hc2, hget _ _ _ (by decide) (by decide) (by decide), hc1,
          hget _ _ _ (by decide) (by decide) (by decide), e0]
      · rw [hc6]
        refine hself _ _ ?_
        rw [hc5, hget _ _ _ (by decide) (by decide) (by decide),
          hc4, hget _ _ _ (by decide) (by decide) (by decide),
          hc3, hget _ _ _ (by decide) (by decide) (by decide),
          hc2, hget _ _ _ (by decide) (by decide) (by decide), hc1,
          hget _ _ _ (by decide) (by decide) (by decide), e0]
    · rw [if_neg ht]
      have hne : ∀ k : ℤ, 0 ≤ k → k ≤ 5 → t ≠ k := by
        intro k h1 h2 h3
        rw [h3] at ht
        exact ht ⟨h1, h2⟩
      have n0 := hne kFMin (by decide) (by decide)
      have n1 := hne kFMax (by decide) (by decide)
      have go : ∀ cc k, 0 ≤ k → k ≤ 5 → (st cc k).getConstraint t = cc.getConstraint t :=
        fun cc k a b => hget cc k t (hne k a b) (by tauto) (by tauto)
      rw [hc6, go _ _ (by decide) (by decide), hc5, go _ _ (by decide) (by decide), hc4,
        go _ _ (by decide) (by decide), hc3, go _ _ (by decide) (by decide), hc2,
        go _ _ (by decide) (by decide), hc1, go _ _ (by decide) (by decide), e0]

end Order
end InputConstraints
end Verif
