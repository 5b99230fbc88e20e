import Verif.Proofs.InputConstraints
import Verif.Spec.Io

/-
Properties C46 and C57: class `InputConstraints`.
-/
set_option linter.unusedSectionVars false
set_option linter.unusedSimpArgs false

namespace Verif

open Spec InputConstraints

variable {K S : Type} [Field K] [LinearOrder K] [IsStrictOrderedRing K]

/-! ### C46 consistency over any history -/

/-- **C46.** After any history of `addConstraint`, `removeConstraint`, `setDefaultValues` and `fromYaml`
calls on a new object, every stored limit is non-negative, and when both thrust limits are stored the
lower one does not exceed the upper one. -/
theorem C46_history (cd : Codec K S) (g pi : K) (hg : 0 ≤ g) (hpi : 0 ≤ pi)
    (calls : List (ConstraintCall K S)) (c : InputConstraints K)
    (h : calls.foldlM (ConstraintCall.apply cd g pi) InputConstraints.empty = .ok c) :
    (∀ t v, c.getConstraint t = some v → 0 ≤ v) ∧
      ∀ a b, c.getConstraint kFMin = some a → c.getConstraint kFMax = some b → a ≤ b := by
  have := Res.foldlM_inv (fun c : InputConstraints K => c.Ok) ok_empty
    (by
      intro s x s' _ hs hx
      cases x with
      | add t v => simp only [ConstraintCall.apply, Res.ok.injEq] at hx; rw [← hx]; exact hs.add t v
      | remove t => simp only [ConstraintCall.apply, Res.ok.injEq] at hx; rw [← hx]; exact hs.remove t
      | defaults =>
        simp only [ConstraintCall.apply, Res.ok.injEq] at hx
        rw [← hx]; exact hs.defaults hg hpi
      | load node => exact hs.load hx) h
  exact ⟨this.nonneg, this.thrust⟩

/-- **C46.** A limit just added is stored as its absolute value. Adding the minimum (maximum) thrust
raises (lowers) the other thrust limit when they would contradict, and does not touch it otherwise. No
other limit changes. This holds in every state. -/
theorem C46_add (c : InputConstraints K) (t : ℤ) (v : K) :
    (c.addConstraint t v).getConstraint t = some |v| ∧
    (t = kFMin → ∀ m, c.getConstraint kFMax = some m →
      (c.addConstraint t v).getConstraint kFMax = some (max m |v|)) ∧
    (t = kFMax → ∀ m, c.getConstraint kFMin = some m →
      (c.addConstraint t v).getConstraint kFMin = some (min m |v|)) ∧
    (∀ t', t' ≠ t → c.getConstraint t' = none → (c.addConstraint t v).getConstraint t' = none) ∧
    ∀ t', t' ≠ t → ¬ (t = kFMin ∧ t' = kFMax) → ¬ (t = kFMax ∧ t' = kFMin) →
      (c.addConstraint t v).getConstraint t' = c.getConstraint t' := by
  refine ⟨?_, ?_, ?_, ?_, ?_⟩
  · rw [getConstraint_add, if_pos rfl]
  · rintro rfl m hm
    rw [getConstraint_add, if_neg (by decide), if_pos ⟨rfl, rfl⟩, hm, Option.map_some, max_comm]
  · rintro rfl m hm
    rw [getConstraint_add, if_neg (by decide), if_neg (by decide), if_pos ⟨rfl, rfl⟩, hm,
      Option.map_some, min_comm]
  · intro t' h hn
    rw [getConstraint_add, if_neg h]
    split
    · next h1 => rw [← h1.2, hn]; rfl
    · split
      · next h1 => rw [← h1.2, hn]; rfl
      · exact hn
  · intro t' h h1 h2
    rw [getConstraint_add, if_neg h, if_neg h1, if_neg h2]

/-- **C46.** `removeConstraint` tells whether the limit was set, afterwards it is not, and no other
limit changes. -/
theorem C46_remove (c : InputConstraints K) (t : ℤ) :
    ((c.removeConstraint t).1 = true ↔ ∃ v, c.getConstraint t = some v) ∧
    (c.removeConstraint t).2.getConstraint t = none ∧
    ∀ t', t' ≠ t → (c.removeConstraint t).2.getConstraint t' = c.getConstraint t' := by
  refine ⟨?_, ?_, ?_⟩
  · unfold removeConstraint hasConstraint getConstraint
    cases mapFind t c.constraints <;> simp
  · rw [getConstraint_remove, if_pos rfl]
  · intro t' h
    rw [getConstraint_remove, if_neg h]

/-- **C46.** `setDefaultValues` sets the six limits whatever was stored before, and nothing else. -/
theorem C46_defaults (g pi : K) (c : InputConstraints K) :
    (c.setDefaultValues g pi).getConstraint kFMin = some (g / 2) ∧
    (c.setDefaultValues g pi).getConstraint kFMax = some (3 * g / 2) ∧
    (c.setDefaultValues g pi).getConstraint kVMax = some 3 ∧
    (c.setDefaultValues g pi).getConstraint kOmegaXYMax = some (pi / 2) ∧
    (c.setDefaultValues g pi).getConstraint kOmegaZMax = some (pi / 2) ∧
    (c.setDefaultValues g pi).getConstraint kOmegaZDotMax = some (2 * pi) ∧
    ∀ t, t < 0 ∨ 5 < t → (c.setDefaultValues g pi).getConstraint t = c.getConstraint t := by
  simp only [getConstraint_defaults]
  refine ⟨?_, ?_, ?_, ?_, ?_, ?_, ?_⟩
  · simp [kFMin, kFMax, kVMax, kOmegaXYMax, kOmegaZMax, kOmegaZDotMax]; ring
  · simp [kFMin, kFMax, kVMax, kOmegaXYMax, kOmegaZMax, kOmegaZDotMax]; ring
  · simp [kFMin, kFMax, kVMax, kOmegaXYMax, kOmegaZMax, kOmegaZDotMax]
  · simp [kFMin, kFMax, kVMax, kOmegaXYMax, kOmegaZMax, kOmegaZDotMax]
  · simp [kFMin, kFMax, kVMax, kOmegaXYMax, kOmegaZMax, kOmegaZDotMax]
  · simp [kFMin, kFMax, kVMax, kOmegaXYMax, kOmegaZMax, kOmegaZDotMax]
  · intro t ht
    unfold kFMin kFMax kVMax kOmegaXYMax kOmegaZMax kOmegaZDotMax
    rw [if_neg (by omega), if_neg (by omega), if_neg (by omega), if_neg (by omega), if_neg (by omega),
      if_neg (by omega)]

/-- A codec on numbers themselves. -/
def idCodec : Codec ℚ ℚ :=
  ⟨id, some, fun n => (n : ℚ), fun q => if q.den = 1 then some q.num else none, fun n => (n : ℚ),
    fun q => if q.den = 1 ∧ 0 ≤ q.num then some q.num.toNat else none, fun _ => none⟩

/-- A history with all kinds of calls: the maximum thrust -8 is stored as 8, the minimum thrust 9 then
raises it, removing an absent limit does nothing, and loading overwrites the speed limit. -/
example : ([.defaults, .add kFMax (-8), .add kFMin 9, .remove 17, .add 17 (-1), .remove kOmegaZMax,
      .load (some (.map [("v_max", .scalar (-7)), ("foo", .null)]))] : List (ConstraintCall ℚ ℚ)).foldlM
      (ConstraintCall.apply idCodec 10 3) InputConstraints.empty =
    .ok ⟨[(0, 9), (1, 9), (2, 7), (3, 3 / 2), (5, 6), (17, 1)]⟩ := by decide +kernel

/-! ### C57 YAML round trip -/

/-- **C57.** Whatever history led to the stored limits: writing them with `toYaml` and loading the node
into a new object with `fromYaml` succeeds and gives back every limit of the six known types, as the
text represents it (`rnd`, a monotone rounding that keeps signs; the identity when enough digits are
written), and no other limit. -/
theorem C57_roundtrip (cd : Codec K S) (rnd : K → K) (hcd : ReadsBack cd rnd)
    (hmono : ∀ x y, x ≤ y → rnd x ≤ rnd y) (h0 : ∀ x, 0 ≤ x → 0 ≤ rnd x) (g pi : K) (hg : 0 ≤ g)
    (hpi : 0 ≤ pi) (calls : List (ConstraintCall K S)) (c : InputConstraints K)
    (h : calls.foldlM (ConstraintCall.apply cd g pi) InputConstraints.empty = .ok c) :
    ∃ c', InputConstraints.empty.fromYaml cd (some (c.toYaml cd)) = .ok c' ∧
      (∀ t, 0 ≤ t → t ≤ 5 → c'.getConstraint t = (c.getConstraint t).map rnd) ∧
      ∀ t, t < 0 ∨ 5 < t → c'.getConstraint t = none := by
  have hok := Res.foldlM_inv (fun c : InputConstraints K => c.Ok) ok_empty
    (by
      intro s x s' _ hs hx
      cases x with
      | add t v => simp only [ConstraintCall.apply, Res.ok.injEq] at hx; rw [← hx]; exact hs.add t v
      | remove t => simp only [ConstraintCall.apply, Res.ok.injEq] at hx; rw [← hx]; exact hs.remove t
      | defaults =>
        simp only [ConstraintCall.apply, Res.ok.injEq] at hx
        rw [← hx]; exact hs.defaults hg hpi
      | load node => exact hs.load hx) h
  obtain ⟨c', h1, h2⟩ := load_result hcd hmono h0 c hok
  refine ⟨c', h1, ?_, ?_⟩
  · intro t a b
    rw [h2, if_pos ⟨a, b⟩]
  · intro t ht
    rw [h2, if_neg]
    rintro ⟨a, b⟩
    omega

theorem idCodec_readsBack : ReadsBack idCodec id :=
  ⟨fun _ => rfl, fun n _ _ => by simp [idCodec], fun n _ => by simp [idCodec]⟩

/-- A limit of an unknown type is written under the name "Unknown!" and not read again. -/
example : InputConstraints.empty.fromYaml idCodec (some ((⟨[(0, 9), (1, 9), (5, 6), (17, 1)]⟩ :
    InputConstraints ℚ).toYaml idCodec)) = .ok ⟨[(0, 9), (1, 9), (5, 6)]⟩ := by decide +kernel

/-- **C57.** A present limit that is not a number makes `fromYaml` throw. -/
theorem C57_rejected (cd : Codec K S) (c : InputConstraints K) (l : List (String × Yaml S)) (t : ℤ)
    (h0 : 0 ≤ t) (h5 : t ≤ 5) (y : Yaml S) (hy : l.lookup (constraintName t) = some y)
    (hbad : ∀ s, y = .scalar s → cd.getD s = none) :
    c.fromYaml cd (some (.map l)) = .throws := by
  have key : ∀ (ts : List ℤ) (c0 : InputConstraints K), t ∈ ts →
      ts.foldlM (fromYamlOne cd (some (.map l))) c0 = .throws := by
    intro ts
    induction ts with
    | nil => intro c0 h; simp at h
    | cons a ts ih =>
      intro c0 h
      rw [List.foldlM_cons]
      have hthrow : fromYamlOne cd (some (.map l)) c0 t = .throws := by
        unfold fromYamlOne
        simp only [YNode.get, hy, Res.ok_bind]
        have : YNode.as cd.getD (some y) = .throws := by
          cases y with
          | scalar s => simp [YNode.as, hbad s rfl]
          | null => rfl
          | seq _ => rfl
          | map _ => rfl
        rw [this]; rfl
      by_cases hat : a = t
      · rw [hat, hthrow]; rfl
      · have ht : t ∈ ts := by
          rcases List.mem_cons.mp h with h | h
          · exact absurd h.symm hat
          · exact h
        have : ∀ (x : Res (InputConstraints K)), x = .throws ∨ (∃ c1, x = .ok c1) →
            (x >>= fun c1 => ts.foldlM (fromYamlOne cd (some (.map l))) c1) = .throws := by
          rintro x (rfl | ⟨c1, rfl⟩)
          · rfl
          · exact ih c1 ht
        apply this
        unfold fromYamlOne
        simp only [YNode.get, Res.ok_bind]
        cases l.lookup (constraintName a) with
        | none => exact Or.inr ⟨_, rfl⟩
        | some y' =>
          simp only
          cases y' with
          | scalar s =>
            simp only [YNode.as]
            cases cd.getD s with
            | none => exact Or.inl rfl
            | some v => exact Or.inr ⟨_, rfl⟩
          | null => exact Or.inl rfl
          | seq _ => exact Or.inl rfl
          | map _ => exact Or.inl rfl
  unfold fromYaml
  apply key
  have : t = 0 ∨ t = 1 ∨ t = 2 ∨ t = 3 ∨ t = 4 ∨ t = 5 := by omega
  rcases this with rfl | rfl | rfl | rfl | rfl | rfl <;> decide

example : ([("v_max", .null)] : List (String × Yaml ℚ)).lookup (constraintName 2) = some .null ∧
    InputConstraints.empty.fromYaml idCodec (some (.map [("v_max", .null)])) = .throws :=
  ⟨rfl, by decide +kernel⟩

end Verif
