import Verif.Proofs.NlOptMax

/- Helper lemmas: the bounds on the free derivatives. -/
namespace Verif

open Spec

set_option linter.unusedSectionVars false

variable {K : Type} [Field K] [LinearOrder K] [IsStrictOrderedRing K] {h : ℕ}

/-! #### The order in which the free derivatives are visited -/

/-- The free derivatives of order below `n` of the vertices, the first one having index `i`. -/
def freeKeysFrom (n : ℕ) : List (Vertex K) → ℕ → List (ℕ × ℕ)
  | [], _ => []
  | v :: vs, i => ((List.range n).filter fun m => !v.hasConstraint ((m : ℕ) : ℤ)).map (fun m => (i, m)) ++
      freeKeysFrom n vs (i + 1)

theorem freeKeysFrom_mem (n : ℕ) (vs : List (Vertex K)) (i0 i m : ℕ) :
    (i, m) ∈ freeKeysFrom n vs i0 ↔ i0 ≤ i ∧ m < n ∧ ∃ v, vs[i - i0]? = some v ∧
      v.hasConstraint ((m : ℕ) : ℤ) = false := by
  induction vs generalizing i0 with
  | nil => simp [freeKeysFrom]
  | cons v vs ih =>
    rw [freeKeysFrom, List.mem_append, ih]
    constructor
    · rintro (h1 | ⟨h1, h2, w, h3, h4⟩)
      · obtain ⟨m', h2, h3⟩ := List.mem_map.mp h1
        rw [Prod.mk.injEq] at h3
        obtain ⟨rfl, rfl⟩ := h3
        rw [List.mem_filter, List.mem_range] at h2
        exact ⟨le_rfl, h2.1, v, by simp, by simpa using h2.2⟩
      · refine ⟨by omega, h2, w, ?_, h4⟩
        rw [show i - i0 = i - (i0 + 1) + 1 by omega, List.getElem?_cons_succ]
        exact h3
    · rintro ⟨h1, h2, w, h3, h4⟩
      rcases h1.eq_or_lt with rfl | h1
      · left
        simp at h3
        subst h3
        exact List.mem_map.mpr ⟨m, by simp [h2, h4], rfl⟩
      · right
        refine ⟨h1, h2, w, ?_, h4⟩
        rw [show i - i0 = i - (i0 + 1) + 1 by omega, List.getElem?_cons_succ] at h3
        exact h3

theorem freeKeysFrom_sorted (n : ℕ) (vs : List (Vertex K)) (i0 : ℕ) :
    (freeKeysFrom n vs i0).Pairwise fun a b => keyLt a b = true := by
  induction vs generalizing i0 with
  | nil => simp [freeKeysFrom]
  | cons v vs ih =>
    rw [freeKeysFrom, List.pairwise_append]
    refine ⟨?_, ih _, ?_⟩
    · rw [List.pairwise_map]
      refine List.Pairwise.filter _ ?_
      refine List.pairwise_lt_range.imp ?_
      intro a b hab
      simp [keyLt, hab]
    · intro a ha b hb
      obtain ⟨m, -, rfl⟩ := List.mem_map.mp ha
      obtain ⟨i, m'⟩ := b
      have := ((freeKeysFrom_mem n vs (i0 + 1) i m').mp hb).1
      have : i0 < i := by omega
      simp [keyLt, this]

/-- All free derivatives, in the order of the optimiser's columns. -/
theorem freeKeysFrom_cols (dim : ℕ) (vs : List (Vertex K)) (hv : 2 ≤ vs.length) :
    freeKeysFrom h vs 0 = (freeCols h dim vs).map Constr.key := by
  have hs1 := freeKeysFrom_sorted h vs 0
  have hs2 : ((freeCols h dim vs).map Constr.key).Pairwise fun a b => keyLt a b = true := by
    rw [List.pairwise_map]
    exact constraintSet_sorted _ _
  have hmem : ∀ x, x ∈ freeKeysFrom h vs 0 ↔ x ∈ (freeCols h dim vs).map Constr.key := by
    rintro ⟨i, m⟩
    unfold freeCols
    rw [fixedKeys_mem _ _ _ _ hv, freeKeysFrom_mem]
    constructor
    · rintro ⟨-, h1, v, h2, h3⟩
      rw [Nat.sub_zero] at h2
      refine ⟨(List.getElem?_eq_some_iff.mp h2).1, h1, ?_⟩
      rw [List.getD_eq_getElem?_getD, h2]
      exact h3
    · rintro ⟨h1, h2, h3⟩
      refine ⟨Nat.zero_le _, h2, vs[i], by simp [h1], ?_⟩
      rw [List.getD_eq_getElem?_getD, List.getElem?_eq_getElem h1] at h3
      exact h3
  have hperm : (freeKeysFrom h vs 0).Perm ((freeCols h dim vs).map Constr.key) := by
    rw [List.perm_ext_iff_of_nodup]
    · exact hmem
    · exact hs1.imp fun hk => keyLt_ne hk
    · exact hs2.imp fun hk => keyLt_ne hk
  refine hperm.eq_of_pairwise ?_ hs1 hs2
  rintro ⟨a, a'⟩ ⟨b, b'⟩ - - h1 h2
  rw [keyLt_iff] at h1 h2
  dsimp only at h1 h2
  omega

theorem freeKeysFrom_sublist {n n' : ℕ} (hn : n ≤ n') (vs : List (Vertex K)) (i0 : ℕ) :
    (freeKeysFrom n vs i0).Sublist (freeKeysFrom n' vs i0) := by
  induction vs generalizing i0 with
  | nil => simp [freeKeysFrom]
  | cons v vs ih =>
    rw [freeKeysFrom, freeKeysFrom]
    refine List.Sublist.append ?_ (ih _)
    refine List.Sublist.map _ (List.Sublist.filter _ ?_)
    exact List.range_sublist.mpr hn

/-! #### Writing the bounds -/

/-- A vector holding the same row of `nFree` entries once per dimension. -/
def IsGrid (dim nFree : ℕ) (l : List K) (f : ℕ → K) : Prop :=
  l.length = dim * nFree ∧ ∀ d < dim, ∀ j < nFree, l[d * nFree + j]? = some (f j)

theorem grid_index {dim nFree d j : ℕ} (hd : d < dim) (hj : j < nFree) : d * nFree + j < dim * nFree :=
  calc d * nFree + j < d * nFree + nFree := by omega
    _ = (d + 1) * nFree := by ring
    _ ≤ _ := Nat.mul_le_mul_right _ hd

theorem grid_inj {nFree d j d' j' : ℕ} (hj : j < nFree) (hj' : j' < nFree)
    (e : d * nFree + j = d' * nFree + j') : d = d' ∧ j = j' := by
  have h1 : (d * nFree + j) / nFree = d := by
    rw [Nat.mul_comm, Nat.mul_add_div (by omega), Nat.div_eq_of_lt hj, Nat.add_zero]
  have h2 : (d' * nFree + j') / nFree = d' := by
    rw [Nat.mul_comm, Nat.mul_add_div (by omega), Nat.div_eq_of_lt hj', Nat.add_zero]
  have : d = d' := by rw [← h1, ← h2, e]
  subst this
  exact ⟨rfl, by omega⟩

/-- The inner loop over the dimensions. -/
theorem setColumn_ok {dim nFree j : ℕ} (hj : j < nFree) (x y : K) (n : ℕ) (hn : n ≤ dim)
    {lo up : List K} (h1 : lo.length = dim * nFree) (h2 : up.length = dim * nFree) :
    ∃ lo' up', (List.range n).foldlM (fun (b : List K × List K) d => (do
        let lo ← setAt b.1 (d * nFree + j) x
        let up ← setAt b.2 (d * nFree + j) y
        pure (lo, up) : Res _)) (lo, up) = .ok (lo', up') ∧
      lo'.length = dim * nFree ∧ up'.length = dim * nFree ∧
      ∀ d < dim, ∀ j' < nFree,
        lo'[d * nFree + j']? = (if j' = j ∧ d < n then some x else lo[d * nFree + j']?) ∧
        up'[d * nFree + j']? = (if j' = j ∧ d < n then some y else up[d * nFree + j']?) := by
  induction n with
  | zero => exact ⟨lo, up, rfl, h1, h2, by simp⟩
  | succ n ih =>
    obtain ⟨lo', up', a1, a2, a3, a4⟩ := ih (by omega)
    have hi := grid_index (show n < dim by omega) hj
    refine ⟨lo'.set (n * nFree + j) x, up'.set (n * nFree + j) y, ?_, by simpa using a2,
      by simpa using a3, ?_⟩
    · rw [List.range_succ, List.foldlM_append, a1, Res.ok_bind]
      simp only [List.foldlM_cons, List.foldlM_nil]
      unfold setAt
      rw [if_pos (by rw [a2]; exact hi), Res.ok_bind, if_pos (by rw [a3]; exact hi), Res.ok_bind,
        Res.pure_eq, Res.ok_bind, Res.pure_eq]
    · intro d hd j' hj'
      obtain ⟨b1, b2⟩ := a4 d hd j' hj'
      have hidx := grid_index hd hj'
      rw [List.getElem?_set, List.getElem?_set, b1, b2, a2, a3]
      by_cases he : n * nFree + j = d * nFree + j'
      · obtain ⟨rfl, rfl⟩ := grid_inj hj hj' he
        simp [hi]
      · rw [if_neg he, if_neg he]
        have : (j' = j ∧ d < n + 1) ↔ (j' = j ∧ d < n) := by
          constructor
          · rintro ⟨rfl, h3⟩
            refine ⟨rfl, ?_⟩
            rcases Nat.lt_succ_iff_lt_or_eq.mp h3 with h3 | rfl
            · exact h3
            · exact absurd rfl he
          · rintro ⟨h3, h4⟩
            exact ⟨h3, by omega⟩
        simp only [this, and_self]

/-- Visiting the free derivatives `ms` (only the order matters), the first one being number `j`. -/
def visit (dim nFree : ℕ) (c : Limit K) (s : ℕ × List K × List K) (m : ℕ) : Res (ℕ × List K × List K) :=
  if ((m : ℕ) : ℤ) = c.derivative then do
    let b ← (List.range dim).foldlM (fun (b : List K × List K) d => do
      let lo ← setAt b.1 (d * nFree + s.1) (-|c.value|)
      let up ← setAt b.2 (d * nFree + s.1) |c.value|
      pure (lo, up)) s.2
    pure (s.1 + 1, b)
  else pure (s.1 + 1, s.2)

theorem boundStep_fold (dim nFree : ℕ) (c : Limit K) (v : Vertex K) (ms : List ℕ)
    (s : ℕ × List K × List K) :
    ms.foldlM (boundStep dim nFree c v) s =
      (ms.filter fun m => !v.hasConstraint ((m : ℕ) : ℤ)).foldlM (visit dim nFree c) s := by
  induction ms generalizing s with
  | nil => rfl
  | cons m ms ih =>
    rw [List.foldlM_cons]
    cases hc : v.hasConstraint ((m : ℕ) : ℤ) with
    | true =>
      have : boundStep dim nFree c v s m = .ok s := by
        unfold boundStep
        rw [if_pos hc]
        rfl
      rw [this, Res.ok_bind, ih, List.filter_cons_of_neg (by simp [hc])]
    | false =>
      have : boundStep dim nFree c v s m = visit dim nFree c s m := by
        unfold boundStep visit
        rw [if_neg (by simp [hc])]
      rw [this, List.filter_cons_of_pos (by simp [hc]), List.foldlM_cons]
      congr 1
      funext s'
      exact ih s'

theorem vertices_fold (dim nFree : ℕ) (c : Limit K) (n : ℕ) (vs : List (Vertex K)) (i : ℕ)
    (s : ℕ × List K × List K) :
    vs.foldlM (fun (s : ℕ × List K × List K) v =>
        (List.range n).foldlM (boundStep dim nFree c v) s) s =
      ((freeKeysFrom n vs i).map Prod.snd).foldlM (visit dim nFree c) s := by
  induction vs generalizing i s with
  | nil => rfl
  | cons v vs ih =>
    rw [List.foldlM_cons, freeKeysFrom, List.map_append, List.foldlM_append, boundStep_fold,
      List.map_map]
    have : ((List.range n).filter fun m => !v.hasConstraint ((m : ℕ) : ℤ)).map
        (Prod.snd ∘ fun m => (i, m)) =
        (List.range n).filter fun m => !v.hasConstraint ((m : ℕ) : ℤ) := by
      conv_rhs => rw [← List.map_id ((List.range n).filter fun m => !v.hasConstraint ((m : ℕ) : ℤ))]
      rfl
    rw [this]
    congr 1
    funext s'
    exact ih (i + 1) s'

theorem visit_fold {dim nFree : ℕ} (c : Limit K) (ms : List ℕ) (j : ℕ) (hj : j + ms.length ≤ nFree)
    {lo up : List K} {f g : ℕ → K} (hlo : IsGrid dim nFree lo f) (hup : IsGrid dim nFree up g) :
    ∃ lo' up', ms.foldlM (visit dim nFree c) (j, lo, up) = .ok (j + ms.length, lo', up') ∧
      IsGrid dim nFree lo' (fun e => if j ≤ e ∧ (ms[e - j]?.map fun m : ℕ => ((m : ℕ) : ℤ)) = some c.derivative
        then -|c.value| else f e) ∧
      IsGrid dim nFree up' (fun e => if j ≤ e ∧ (ms[e - j]?.map fun m : ℕ => ((m : ℕ) : ℤ)) = some c.derivative
        then |c.value| else g e) := by
  induction ms generalizing j lo up f g with
  | nil => exact ⟨lo, up, rfl, by simpa using hlo, by simpa using hup⟩
  | cons m ms ih =>
    rw [List.length_cons] at hj
    -- the step
    obtain ⟨lo1, up1, hstep, hl1, hu1⟩ : ∃ lo1 up1, visit dim nFree c (j, lo, up) m =
        .ok (j + 1, lo1, up1) ∧
        IsGrid dim nFree lo1 (fun e => if e = j ∧ (m : ℤ) = c.derivative then -|c.value| else f e) ∧
        IsGrid dim nFree up1 (fun e => if e = j ∧ (m : ℤ) = c.derivative then |c.value| else g e) := by
      unfold visit
      by_cases hm : ((m : ℕ) : ℤ) = c.derivative
      · rw [if_pos hm]
        obtain ⟨lo1, up1, a1, a2, a3, a4⟩ := setColumn_ok (j := j) (by omega) (-|c.value|) |c.value| dim
          le_rfl hlo.1 hup.1
        refine ⟨lo1, up1, ?_, ⟨a2, ?_⟩, ⟨a3, ?_⟩⟩
        · dsimp only
          rw [a1, Res.ok_bind]
          rfl
        · intro d hd e he
          rw [(a4 d hd e he).1, hlo.2 d hd e he]
          by_cases hej : e = j <;> simp [hej, hd, hm]
        · intro d hd e he
          rw [(a4 d hd e he).2, hup.2 d hd e he]
          by_cases hej : e = j <;> simp [hej, hd, hm]
      · rw [if_neg hm]
        exact ⟨lo, up, rfl, by simpa [hm] using hlo, by simpa [hm] using hup⟩
    obtain ⟨lo2, up2, b1, b2, b3⟩ := ih (j + 1) (by omega) hl1 hu1
    refine ⟨lo2, up2, ?_, ⟨b2.1, ?_⟩, ⟨b3.1, ?_⟩⟩
    · rw [List.foldlM_cons, hstep, Res.ok_bind, b1, List.length_cons]
      rw [show j + 1 + ms.length = j + (ms.length + 1) by omega]
    all_goals
      intro d hd e he
      first
      | rw [b2.2 d hd e he]
      | rw [b3.2 d hd e he]
      congr 1
      dsimp only
      rcases Nat.lt_trichotomy e j with h1 | rfl | h1
      · rw [if_neg (by omega), if_neg (by omega), if_neg (by omega)]
      · rw [if_neg (by omega)]
        simp
      · have h2 : e - j = e - (j + 1) + 1 := by omega
        rw [h2, List.getElem?_cons_succ, if_neg (show ¬ (e = j ∧ _) by omega)]
        have h3 : j + 1 ≤ e := h1
        have h4 : j ≤ e := by omega
        simp only [h3, h4, true_and]

/-- The bound for free derivatives of order `m`: that of the last limit on this order. -/
def boundFor (limits : List (Limit K)) (m : Option ℕ) (x : K) : K :=
  limits.foldl (fun b c => if (m.map fun m : ℕ => ((m : ℕ) : ℤ)) = some c.derivative then |c.value| else b) x

theorem freeBounds_ok (dim nFree k : ℕ) (vs : List (Vertex K)) (limits : List (Limit K))
    (hl : (freeKeysFrom (k + 1) vs 0).length ≤ nFree) :
    ∃ lo up, freeBounds dim nFree k vs limits = .ok (lo, up) ∧
      IsGrid dim nFree lo (fun e => -boundFor limits ((freeKeysFrom (k + 1) vs 0)[e]?.map Prod.snd) dblMax) ∧
      IsGrid dim nFree up
        (fun e => boundFor limits ((freeKeysFrom (k + 1) vs 0)[e]?.map Prod.snd) dblMax) := by
  set ms := (freeKeysFrom (k + 1) vs 0).map Prod.snd with hms
  have hml : ms.length ≤ nFree := by rw [hms, List.length_map]; exact hl
  have hn : ((k : ℤ) + 1).toNat = k + 1 := by omega
  have key : ∀ (limits : List (Limit K)) (lo up : List K) (b : ℕ → K),
      IsGrid dim nFree lo (fun e => -b e) → IsGrid dim nFree up b →
      ∃ lo' up', limits.foldlM (fun (b : List K × List K) c => (do
          let s ← vs.foldlM (fun (s : ℕ × List K × List K) v =>
            (List.range ((k : ℤ) + 1).toNat).foldlM (boundStep dim nFree c v) s) ((0 : ℕ), b)
          pure s.2 : Res _)) (lo, up) = .ok (lo', up') ∧
        IsGrid dim nFree lo' (fun e => -boundFor limits ms[e]? (b e)) ∧
        IsGrid dim nFree up' (fun e => boundFor limits ms[e]? (b e)) := by
    intro limits
    induction limits with
    | nil => exact fun lo up b h1 h2 => ⟨lo, up, rfl, h1, h2⟩
    | cons c cs ih =>
      intro lo up b h1 h2
      obtain ⟨lo1, up1, a1, a2, a3⟩ := visit_fold c ms 0 (by omega) h1 h2
      obtain ⟨lo2, up2, b1, b2, b3⟩ := ih lo1 up1
        (fun e => if (ms[e]?.map fun m : ℕ => ((m : ℕ) : ℤ)) = some c.derivative then |c.value| else b e)
        ⟨a2.1, fun d hd e he => by
          rw [a2.2 d hd e he]
          simp only [Nat.zero_le, true_and, Nat.sub_zero]
          split_ifs <;> rfl⟩
        ⟨a3.1, fun d hd e he => by
          rw [a3.2 d hd e he]
          simp only [Nat.zero_le, true_and, Nat.sub_zero]⟩
      refine ⟨lo2, up2, ?_, b2, b3⟩
      rw [List.foldlM_cons, hn, vertices_fold dim nFree c (k + 1) vs 0, ← hms, a1, Res.ok_bind,
        Res.pure_eq, Res.ok_bind, ← b1, hn]
  have h0 : ∀ x : K, IsGrid dim nFree (List.replicate (dim * nFree) x) (fun _ => x) := by
    intro x
    refine ⟨by simp, fun d hd j hj => ?_⟩
    rw [List.getElem?_replicate, if_pos (grid_index hd hj)]
  obtain ⟨lo, up, a1, a2, a3⟩ := key limits _ _ (fun _ => dblMax) (h0 (-dblMax)) (h0 dblMax)
  have hget : ∀ e : ℕ, ms[e]? = (freeKeysFrom (k + 1) vs 0)[e]?.map Prod.snd := by
    intro e
    rw [hms, List.getElem?_map]
  simp only [hget] at a2 a3
  exact ⟨lo, up, a1, a2, a3⟩

end Verif
