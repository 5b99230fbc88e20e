import Verif.Model.Rpoly
import Mathlib.Tactic.Common

/-
The root finder accesses nothing outside its arrays, for any arithmetic.
-/
set_option linter.unusedSectionVars false

namespace Verif

variable {K α β : Type}

/-- The call returns, with a result that has the property. -/
def Res.Rets (r : Res α) (P : α → Prop) : Prop := ∃ a, r = .ok a ∧ P a

/-- The call does not end in another way than by returning, with a result that has the property. -/
def Res.Post (r : Res α) (P : α → Prop) : Prop := r = .hang ∨ r.Rets P

theorem Res.Rets.bind {x : Res α} {f : α → Res β} {P : α → Prop} {Q : β → Prop} (h : x.Rets P)
    (g : ∀ a, P a → (f a).Rets Q) : (x >>= f).Rets Q := by
  obtain ⟨a, rfl, ha⟩ := h
  exact g a ha

theorem Res.Post.bind {x : Res α} {f : α → Res β} {P : α → Prop} {Q : β → Prop} (h : x.Post P)
    (g : ∀ a, P a → (f a).Post Q) : (x >>= f).Post Q := by
  rcases h with rfl | ⟨a, rfl, ha⟩
  · exact Or.inl rfl
  · exact g a ha

theorem Res.Rets.post {r : Res α} {P : α → Prop} (h : r.Rets P) : r.Post P := Or.inr h

theorem Res.Rets.mono {r : Res α} {P Q : α → Prop} (h : r.Rets P) (g : ∀ a, P a → Q a) : r.Rets Q := by
  obtain ⟨a, e, ha⟩ := h
  exact ⟨a, e, g a ha⟩

theorem Res.rets_ok {a : α} {P : α → Prop} (h : P a) : (Res.ok a).Rets P := ⟨a, rfl, h⟩

theorem Res.rets_pure {a : α} {P : α → Prop} (h : P a) : (pure a : Res α).Rets P := ⟨a, rfl, h⟩

theorem Res.rets_at' {l : List α} {i : ℕ} (h : i < l.length) : (Res.at' l i).Rets (fun a => l[i]? = some a) :=
  ⟨l[i], Res.at'_of_lt h, by simp [h]⟩

theorem Res.rets_mapM {f : α → Res β} : ∀ (l : List α), (∀ a ∈ l, (f a).Rets fun _ => True) →
    (l.mapM f).Rets (fun r => r.length = l.length) := by
  intro l
  induction l with
  | nil => intro _; exact ⟨[], rfl, rfl⟩
  | cons a l ih =>
    intro h
    rw [List.mapM_cons]
    refine (h a (by simp)).bind fun b _ => (ih fun a ha => h a (by simp [ha])).bind fun bs hb => ?_
    exact Res.rets_pure (by simp [hb])

theorem Res.rets_get {o : Option α} (h : o.isSome) : (Res.get o).Rets (fun a => o = some a) := by
  obtain ⟨a, rfl⟩ := Option.isSome_iff_exists.mp h
  exact ⟨a, rfl, rfl⟩

section
variable [Add K] [Sub K] [Mul K] [Div K] [Neg K] [NatCast K] [LE K] [LT K] [DecidableLE K] [DecidableLT K]

theorem quadSDLoop_length (u v : K) : ∀ (p : List K) (a b : K), (quadSDLoop u v p a b).1.length = p.length := by
  intro p
  induction p with
  | nil => intro a b; rfl
  | cons x xs ih => intro a b; simp [quadSDLoop, ih]

theorem quadSD_rets (u v : K) (p : List K) (h : 2 ≤ p.length) :
    (quadSD u v p).Rets (fun r => r.1.length = p.length) := by
  match p, h with
  | p0 :: p1 :: ps, _ =>
    exact Res.rets_ok (by simp [quadSDLoop_length])

theorem hornerLoop_length (s : K) : ∀ (p : List K) (a : K), (hornerLoop s a p).1.length = p.length := by
  intro p
  induction p with
  | nil => intro a; rfl
  | cons x xs ih => intro a; simp [hornerLoop, ih]

theorem horner_rets (s : K) (p : List K) (h : 1 ≤ p.length) :
    (horner s p).Rets (fun r => r.1.length = p.length) := by
  match p, h with
  | p0 :: ps, _ => exact Res.rets_ok (by simp [hornerLoop_length])

variable (m : RMath K)

theorem calcSC_rets (a b u v : K) (k : List K) (h : 2 ≤ k.length) :
    (calcSC m a b k u v).Rets (fun sc => sc.qk.length = k.length) := by
  unfold calcSC
  refine (quadSD_rets u v k h).bind fun r hr => ?_
  refine (Res.rets_at' (by omega)).bind fun k1 _ => ?_
  refine (Res.rets_at' (by omega)).bind fun k2 _ => ?_
  exact Res.rets_pure hr

theorem nextK_rets (n : ℕ) (sc : SC K) (a b : K) (qp : List K) (hn : 2 ≤ n) (hq : n ≤ qp.length)
    (hk : n ≤ sc.qk.length) : (nextK m n sc a b qp).Rets (fun k => k.length = n) := by
  unfold nextK
  have hr : ∀ i ∈ List.range (n - 2), i < n - 2 := fun i hi => List.mem_range.mp hi
  split
  · refine (Res.rets_mapM _ fun i hi => ?_).bind fun t ht => Res.rets_pure ?_
    · exact (Res.rets_at' (by have := hr i hi; omega)).mono fun _ _ => trivial
    · simp at ht ⊢; omega
  · rename_i s _
    unfold nextKScaled
    generalize (if s.two = true then a else b) = temp
    dsimp only
    refine (Res.rets_at' (by omega)).bind fun q0 _ => ?_
    split
    · refine (Res.rets_at' (by omega)).bind fun q1 _ => ?_
      refine (Res.rets_mapM _ fun i hi => ?_).bind fun t ht => Res.rets_pure ?_
      · have := hr i hi
        refine (Res.rets_at' (by omega)).bind fun _ _ => ?_
        refine (Res.rets_at' (by omega)).bind fun _ _ => ?_
        refine (Res.rets_at' (by omega)).bind fun _ _ => ?_
        exact Res.rets_pure trivial
      · simp at ht ⊢; omega
    · refine (Res.rets_mapM _ fun i hi => ?_).bind fun t ht => Res.rets_pure ?_
      · have := hr i hi
        refine (Res.rets_at' (by omega)).bind fun _ _ => ?_
        refine (Res.rets_at' (by omega)).bind fun _ _ => ?_
        exact Res.rets_pure trivial
      · simp at ht ⊢; omega

theorem newest_rets (sc : SC K) (a b u v : K) (k p : List K) (hp : 3 ≤ p.length)
    (hk : k.length + 1 = p.length) : (newest m sc a b u v k p).Rets (fun _ => True) := by
  unfold newest
  split
  · exact Res.rets_ok trivial
  · rename_i s _
    unfold newestScaled
    generalize (if s.two = true then (a + s.g) * s.f + s.h else a + u * b + s.h * s.f) = a4
    generalize (if s.two = true then (s.f + u) * sc.c + v * sc.d else sc.c + (u + v * s.f) * sc.d) = a5
    dsimp only
    refine (Res.rets_at' (by omega)).bind fun _ _ => ?_
    refine (Res.rets_at' (by omega)).bind fun _ _ => ?_
    refine (Res.rets_at' (by omega)).bind fun _ _ => ?_
    refine (Res.rets_at' (by omega)).bind fun _ _ => ?_
    split <;> exact Res.rets_pure trivial

theorem quadError_rets (z : QRoots K) (v a b : K) (qp : List K) (h : 1 ≤ qp.length) :
    (quadError m z v a b qp).Rets (fun _ => True) := by
  unfold quadError
  dsimp only
  exact (Res.rets_at' (by omega)).bind fun _ _ => Res.rets_pure trivial

theorem kStep_rets (a b u v : K) (qp k : List K) (hk : 2 ≤ k.length) (hq : k.length ≤ qp.length) :
    (kStep m a b u v qp k).Rets (fun k' => k'.length = k.length) := by
  unfold kStep
  exact (calcSC_rets m a b u v k hk).bind fun sc hsc => nextK_rets m k.length sc a b qp hk hq (by omega)

theorem kSteps_rets (a b u v : K) (qp : List K) : ∀ (n : ℕ) (k : List K), 2 ≤ k.length →
    k.length ≤ qp.length → (kSteps m a b u v qp n k).Rets (fun k' => k'.length = k.length) := by
  intro n
  induction n with
  | zero => intro k _ _; exact Res.rets_ok rfl
  | succ n ih =>
    intro k h1 h2
    refine (kStep_rets m a b u v qp k h1 h2).bind fun k' hk' => ?_
    exact (ih k' (by omega) (by omega)).mono fun k'' h => by omega

/-- The loop invariant of the quadratic iteration. -/
structure QuadInv (n : ℕ) (st : QuadState K) : Prop where
  len : st.k.length = n
  set : 1 ≤ st.j → st.relstp.isSome ∧ st.omp.isSome
  j : st.j ≤ 20

theorem quadCluster_rets (p : List K) (st : QuadState K) (mp : K) (r : List K × K × K)
    (hk : 2 ≤ st.k.length) (hp : st.k.length + 1 = p.length) (hr : r.1.length = p.length)
    (hset : 2 ≤ st.j → st.relstp.isSome ∧ st.omp.isSome) :
    (quadCluster m p st mp r).Rets (fun c => c.1.k.length = st.k.length ∧ c.2.1.length = p.length ∧
      (c.1.j = st.j ∧ c.1.tried = st.tried ∨ c.1.j = 0 ∧ st.tried = false ∧ c.1.tried = true)) := by
  unfold quadCluster
  split
  · exact Res.rets_ok ⟨rfl, hr, Or.inl ⟨rfl, rfl⟩⟩
  · rename_i hj
    obtain ⟨h1, h2⟩ := hset (by omega)
    refine (Res.rets_get h1).bind fun relstp _ => (Res.rets_get h2).bind fun omp _ => ?_
    split
    · rename_i hc
      refine (quadSD_rets _ _ p (by omega)).bind fun r' hr' => ?_
      refine (kSteps_rets m _ _ _ _ r'.1 5 st.k hk (by omega)).bind fun k' hk' => ?_
      exact Res.rets_pure ⟨hk', hr', Or.inr ⟨rfl, hc.2.2, rfl⟩⟩
    · exact Res.rets_pure ⟨rfl, hr, Or.inl ⟨rfl, rfl⟩⟩

theorem quadAdvance_rets (p : List K) (st : QuadState K) (mp : K) (r : List K × K × K)
    (hk : 2 ≤ st.k.length) (hp : st.k.length + 1 = p.length) (hr : r.1.length = p.length) :
    (quadAdvance m p st mp r).Rets (fun n => n.1.length = st.k.length ∧ ∀ st', n.2 = some st' →
      st'.k.length = st.k.length ∧ st'.relstp.isSome ∧ st'.omp.isSome ∧ st'.j = st.j ∧
      st'.tried = st.tried) := by
  unfold quadAdvance
  refine (kStep_rets m _ _ _ _ r.1 st.k hk (by omega)).bind fun k hk' => ?_
  refine (calcSC_rets m _ _ _ _ k (by omega)).bind fun sc _ => ?_
  refine (newest_rets m sc _ _ _ _ k p (by omega) (by omega)).bind fun w _ => ?_
  split
  · exact Res.rets_pure ⟨hk', by simp⟩
  · refine Res.rets_pure ⟨hk', ?_⟩
    intro st' e
    cases e
    exact ⟨hk', rfl, rfl, rfl, rfl⟩

theorem quadITLoop_rets (p : List K) (n : ℕ) (hn : 2 ≤ n) (hp : n + 1 = p.length) :
    ∀ (fuel : ℕ) (st : QuadState K), QuadInv n st →
    (if st.tried then 0 else 22) + (21 - st.j) < fuel →
    (quadITLoop m p fuel st).Rets (fun r => (∀ f, r = .inl f → f.two = true ∧ f.qp.length = p.length) ∧
      ∀ k, r = .inr k → k.length = n) := by
  intro fuel
  induction fuel with
  | zero => intro st _ h; omega
  | succ fuel ih =>
    intro st hst hf
    unfold quadITLoop
    dsimp only
    split
    · exact Res.rets_pure ⟨by simp, by rintro k ⟨⟩; exact hst.len⟩
    · refine (quadSD_rets _ _ p (by omega)).bind fun r hr => ?_
      refine (quadError_rets m _ _ _ _ r.1 (by omega)).bind fun me _ => ?_
      split
      · exact Res.rets_pure ⟨by rintro f ⟨⟩; exact ⟨rfl, hr⟩, by simp⟩
      · split
        · exact Res.rets_pure ⟨by simp, by rintro k ⟨⟩; exact hst.len⟩
        · rename_i hj
          refine (quadCluster_rets m p { st with j := st.j + 1 } me.1 r (by simp [hst.len]; omega)
            (by simp [hst.len]; omega) hr (fun h => hst.set (by simp only at h; omega))).bind fun c hc => ?_
          obtain ⟨c1, c2, c3⟩ := hc
          simp only at c1 c3
          rw [hst.len] at c1
          refine (quadAdvance_rets m p c.1 me.1 c.2 (by omega) (by omega) c2).bind fun nx hnx => ?_
          obtain ⟨a1, a2⟩ := hnx
          cases hx : nx.2 with
          | none => exact Res.rets_pure ⟨by simp, by rintro k ⟨⟩; omega⟩
          | some st' =>
            obtain ⟨b1, b2, b3, b4, b5⟩ := a2 st' hx
            apply ih st' ⟨by omega, fun _ => ⟨b2, b3⟩, by rcases c3 with c3 | c3 <;> omega⟩
            rw [b4, b5]
            rcases c3 with ⟨e1, e2⟩ | ⟨e1, e2, e3⟩
            · rw [e1, e2]
              split_ifs at hf ⊢ <;> omega
            · rw [e1, e3]
              rw [e2] at hf
              simp only [Bool.false_eq_true, if_false] at hf
              simp only [if_true]
              omega

/-- The quadratic iteration returns. -/
theorem quadIT_returns (p k : List K) (uu vv : K) (hk : 2 ≤ k.length) (hp : k.length + 1 = p.length) :
    (quadIT m p k uu vv).Rets (fun r => (∀ f, r = .inl f → f.two = true ∧ f.qp.length = p.length) ∧
      ∀ k', r = .inr k' → k'.length = k.length) := by
  unfold quadIT
  exact quadITLoop_rets m p k.length hk hp 60 _ ⟨rfl, by simp, by simp⟩ (by simp)

theorem realCluster_rets (st : RealState K) (mp : K) (h : 2 ≤ st.j → st.t.isSome ∧ st.omp.isSome) :
    (realCluster m st mp).Rets (fun _ => True) := by
  unfold realCluster
  split
  · exact Res.rets_ok trivial
  · obtain ⟨h1, h2⟩ := h (by omega)
    exact (Res.rets_get h1).bind fun _ _ => (Res.rets_get h2).bind fun _ _ => Res.rets_pure trivial

theorem realAdvance_rets (st : RealState K) (mp pv : K) (qp : List K) (hk : 1 ≤ st.k.length)
    (hq : st.k.length + 1 = qp.length) :
    (realAdvance m st mp pv qp).Rets (fun st' => st'.k.length = st.k.length ∧ st'.t.isSome ∧
      st'.omp.isSome ∧ st'.j = st.j) := by
  unfold realAdvance
  dsimp only
  refine (horner_rets st.s st.k hk).bind fun r hr => ?_
  refine (Res.rets_at' (by omega)).bind fun kl _ => (Res.rets_at' (by omega)).bind fun q0 _ => ?_
  have key : ∀ k' : List K, k'.length = st.k.length → Res.Rets (do
      let r' ← horner st.s k'
      let kl' ← Res.at' k' (st.k.length - 1)
      let t := if m.fabs kl' * num 10 * m.eps < m.fabs r'.2 then -(pv / r'.2) else num 0
      pure (⟨st.s + t, k', some t, some mp, st.j⟩ : RealState K)) (fun st' => st'.k.length = st.k.length ∧
        st'.t.isSome ∧ st'.omp.isSome ∧ st'.j = st.j) := by
    intro k' hk'
    refine (horner_rets st.s k' (by omega)).bind fun r' _ => ?_
    refine (Res.rets_at' (by omega)).bind fun kl' _ => ?_
    exact Res.rets_pure ⟨hk', rfl, rfl, rfl⟩
  have hr' : ∀ i ∈ List.range (st.k.length - 1), i < st.k.length - 1 := fun i hi => List.mem_range.mp hi
  split
  · refine (Res.rets_mapM _ fun i hi => ?_).bind fun l hl => ?_
    · have := hr' i hi
      refine (Res.rets_at' (by omega)).bind fun _ _ => ?_
      refine (Res.rets_at' (by omega)).bind fun _ _ => ?_
      exact Res.rets_pure trivial
    · exact key (q0 :: l) (by simp at hl ⊢; omega)
  · refine (Res.rets_mapM _ fun i hi => ?_).bind fun l hl => ?_
    · have := hr' i hi
      exact (Res.rets_at' (by omega)).mono fun _ _ => trivial
    · exact key (num 0 :: l) (by simp at hl ⊢; omega)

theorem realITLoop_rets (p : List K) (sss : K) (n : ℕ) (hn : 1 ≤ n) (hp : n + 1 = p.length) :
    ∀ (fuel : ℕ) (st : RealState K), st.k.length = n → (1 ≤ st.j → st.t.isSome ∧ st.omp.isSome) →
    st.j ≤ 10 → 11 - st.j < fuel →
    (realITLoop m p sss fuel st).Rets (fun r => (∀ f, r = .inl f → f.two = false ∧ f.qp.length = p.length) ∧
      ∀ e, r = .inr e → e.k.length = n) := by
  intro fuel
  induction fuel with
  | zero => intro st _ _ _ h; omega
  | succ fuel ih =>
    intro st h1 h2 h3 hf
    unfold realITLoop
    dsimp only
    refine (horner_rets st.s p (by omega)).bind fun r hr => ?_
    split
    · exact Res.rets_pure ⟨by rintro f ⟨⟩; exact ⟨rfl, hr⟩, by simp⟩
    · split
      · exact Res.rets_pure ⟨by simp, by rintro k ⟨⟩; exact h1⟩
      · rename_i hj
        refine (realCluster_rets m { st with j := st.j + 1 } _ (fun h => h2 (by simp only at h; omega))).bind fun c _ => ?_
        split
        · exact Res.rets_pure ⟨by simp, by rintro k ⟨⟩; exact h1⟩
        · refine (realAdvance_rets m { st with j := st.j + 1 } _ _ r.1 (by simp only; omega) (by simp only; omega)).bind
            fun st' hst' => ?_
          obtain ⟨a1, a2, a3, a4⟩ := hst'
          simp only at a1 a4
          exact ih st' (by omega) (fun _ => ⟨a2, a3⟩) (by omega) (by omega)

/-- The real iteration returns. -/
theorem realIT_returns (p k : List K) (sss : K) (hk : 1 ≤ k.length) (hp : k.length + 1 = p.length) :
    (realIT m p k sss).Rets (fun r => (∀ f, r = .inl f → f.two = false ∧ f.qp.length = p.length) ∧
      ∀ e, r = .inr e → e.k.length = k.length) := by
  unfold realIT
  exact realITLoop_rets m p sss k.length hk hp 12 _ rfl (by simp) (by simp) (by simp)

theorem innerQuad_rets (p svk : List K) (spass vpass tless : Bool) (st : Inner K) (n : ℕ) (hn : 2 ≤ n)
    (hp : n + 1 = p.length) (hs : svk.length = n) (hk : st.k.length = n) :
    (innerQuad m p svk spass vpass tless st).Rets (fun r => (∀ f, r = .inl f → f.qp.length = p.length) ∧
      ∀ x, r = .inr x → x.1.k.length = n ∧ x.1.fflag = false ∧
        (x.1.vtry = true ∨ x.1.vtry = st.vtry ∧ st.fflag = true)) := by
  unfold innerQuad
  split
  · rename_i h
    exact Res.rets_ok ⟨by simp, by rintro x ⟨⟩; exact ⟨hk, rfl, Or.inr ⟨rfl, h.1⟩⟩⟩
  · refine (quadIT_returns m p st.k st.ui st.vi (by omega) (by omega)).bind fun r hr => ?_
    cases r with
    | inl f => exact Res.rets_pure ⟨by rintro f ⟨⟩; exact (hr.1 f rfl).2, by simp⟩
    | inr k =>
      have hk' := hr.2 k rfl
      simp only
      split
      · exact Res.rets_pure ⟨by simp, by rintro x ⟨⟩; exact ⟨by simp only; omega, rfl, Or.inl rfl⟩⟩
      · exact Res.rets_pure ⟨by simp, by rintro x ⟨⟩; exact ⟨hs, rfl, Or.inl rfl⟩⟩

theorem innerReal_rets (p svk : List K) (st : Inner K) (iFlag : Bool) (n : ℕ) (hn : 2 ≤ n)
    (hp : n + 1 = p.length) (hs : svk.length = n) (hk : st.k.length = n) :
    (innerReal m p svk st iFlag).Rets (fun r => (∀ f, r = .inl f → f.qp.length = p.length) ∧
      ∀ x, r = .inr x → x.k.length = n ∧ x.fflag = st.fflag ∧ x.vtry = st.vtry) := by
  unfold innerReal
  split
  · refine (realIT_returns m p st.k st.s (by omega) (by omega)).bind fun r hr => ?_
    cases r with
    | inl f => exact Res.rets_pure ⟨by rintro f ⟨⟩; exact (hr.1 f rfl).2, by simp⟩
    | inr e =>
      have hk' := hr.2 e rfl
      simp only
      split
      · exact Res.rets_pure ⟨by simp, by rintro x ⟨⟩; exact ⟨by simp only; omega, rfl, rfl⟩⟩
      · exact Res.rets_pure ⟨by simp, by rintro x ⟨⟩; exact ⟨hs, rfl, rfl⟩⟩
  · exact Res.rets_ok ⟨by simp, by rintro x ⟨⟩; exact ⟨hs, rfl, rfl⟩⟩

theorem innerLoop_rets (p svk : List K) (spass vpass tless : Bool) (n : ℕ) (hn : 2 ≤ n)
    (hp : n + 1 = p.length) (hs : svk.length = n) : ∀ (fuel : ℕ) (st : Inner K), st.k.length = n →
    (if st.fflag then 2 else 1) ≤ fuel →
    (innerLoop m p svk spass vpass tless fuel st).Rets (fun r =>
      (∀ f, r = .inl f → f.qp.length = p.length) ∧ ∀ x, r = .inr x → x.k.length = n) := by
  intro fuel
  induction fuel with
  | zero => intro st _ h; split_ifs at h <;> omega
  | succ fuel ih =>
    intro st hk hf
    unfold innerLoop
    refine (innerQuad_rets m p svk spass vpass tless st n hn hp hs hk).bind fun r hr => ?_
    cases r with
    | inl f => exact Res.rets_pure ⟨by rintro f ⟨⟩; exact hr.1 f rfl, by simp⟩
    | inr x =>
      obtain ⟨x1, x2, x3⟩ := hr.2 x rfl
      simp only
      refine (innerReal_rets m p svk x.1 x.2 n hn hp hs x1).bind fun r' hr' => ?_
      cases r' with
      | inl f => exact Res.rets_pure ⟨by rintro f ⟨⟩; exact hr'.1 f rfl, by simp⟩
      | inr st' =>
        obtain ⟨y1, y2, y3⟩ := hr'.2 st' rfl
        simp only
        split
        · rename_i hc
          apply ih st' y1
          rw [y2, x2]
          rcases x3 with x3 | x3
          · rw [y3, x3] at hc
            simp at hc
          · rw [x3.2] at hf
            simp at hf ⊢
            omega
        · exact Res.rets_pure ⟨by simp, by rintro k ⟨⟩; exact y1⟩

/-- The invariant of the outer loop of the fixed shift stage. -/
structure FxInv (n : ℕ) (p : List K) (st : Fx K) : Prop where
  len : st.k.length = n
  qk : st.sc.qk.length = n
  div : st.div.1.length = p.length
  set : st.first = false → st.otv.isSome ∧ st.ots.isSome

theorem fxMeasures_rets (st : Fx K) (t3 : Bool) (vv ss : K)
    (h : st.first = false → st.otv.isSome ∧ st.ots.isSome) :
    (fxMeasures m st t3 vv ss).Rets (fun _ => True) := by
  unfold fxMeasures
  split
  · exact Res.rets_ok trivial
  · rename_i hc
    simp only [not_or, Bool.not_eq_true] at hc
    obtain ⟨h1, h2⟩ := h hc.1
    exact (Res.rets_get h1).bind fun _ _ => (Res.rets_get h2).bind fun _ _ => Res.rets_pure trivial

theorem fxTry_rets (p : List K) (u v : K) (st : Fx K) (ss ui vi : K) (x : Option (K × K)) (n : ℕ) (hn : 2 ≤ n)
    (hp : n + 1 = p.length) (hst : FxInv n p st) :
    (fxTry m p u v st ss ui vi x).Rets (fun r => (∀ f, r = .inl f → f.qp.length = p.length) ∧
      ∀ st', r = .inr st' → FxInv n p st') := by
  unfold fxTry
  split
  · exact Res.rets_ok ⟨by simp, by rintro x ⟨⟩; exact hst⟩
  · rename_i tvv tss
    simp only
    split
    · refine (innerLoop_rets m p st.k _ _ _ n hn hp hst.len 3 _ hst.len (by simp)).bind fun r hr => ?_
      cases r with
      | inl f => exact Res.rets_pure ⟨by rintro f ⟨⟩; exact hr.1 f rfl, by simp⟩
      | inr i =>
        have hi := hr.2 i rfl
        simp only
        refine (quadSD_rets u v p (by omega)).bind fun d hd => ?_
        refine (calcSC_rets m _ _ u v i.k (by omega)).bind fun sc hsc => ?_
        exact Res.rets_pure ⟨by simp, by rintro x ⟨⟩; exact ⟨hi, by simp only; omega, hd, hst.set⟩⟩
    · exact Res.rets_ok ⟨by simp, by rintro x ⟨⟩; exact hst⟩

theorem fxRound_rets (p : List K) (u v : K) (st : Fx K) (n : ℕ) (hn : 2 ≤ n) (hp : n + 1 = p.length)
    (hst : FxInv n p st) :
    (fxRound m p u v st).Rets (fun r => (∀ f, r = .inl f → f.qp.length = p.length) ∧
      ∀ st', r = .inr st' → FxInv n p st') := by
  unfold fxRound
  dsimp only
  have hdiv := hst.div
  have hqk := hst.qk
  refine (nextK_rets m _ _ _ _ _ (by omega) (by omega) (by omega)).bind fun k hk => ?_
  refine (calcSC_rets m _ _ u v k (by omega)).bind fun sc hsc => ?_
  refine (newest_rets m sc _ _ u v k p (by omega) (by omega)).bind fun w _ => ?_
  refine (Res.rets_at' (by omega)).bind fun kl _ => (Res.rets_at' (by omega)).bind fun pn _ => ?_
  refine (fxMeasures_rets m _ _ _ _ hst.set).bind fun x _ => ?_
  refine (fxTry_rets m p u v { st with k := k, sc := sc } _ _ _ _ n hn hp
    ⟨show k.length = n by omega, show sc.qk.length = n by omega, hst.div, hst.set⟩).bind fun r hr => ?_
  cases r with
  | inl f => exact Res.rets_pure ⟨by rintro f ⟨⟩; exact hr.1 f rfl, by simp⟩
  | inr st' =>
    have h := hr.2 st' rfl
    exact Res.rets_pure ⟨by simp, by rintro x ⟨⟩; exact ⟨h.len, h.qk, h.div, fun _ => ⟨rfl, rfl⟩⟩⟩

theorem fxLoop_rets (p : List K) (u v : K) (n : ℕ) (hn : 2 ≤ n) (hp : n + 1 = p.length) :
    ∀ (l : ℕ) (st : Fx K), FxInv n p st →
    (fxLoop m p u v l st).Rets (fun r => ∀ f, r = some f → f.qp.length = p.length) := by
  intro l
  induction l with
  | zero => intro st _; exact Res.rets_ok (by simp)
  | succ l ih =>
    intro st hst
    unfold fxLoop
    refine (fxRound_rets m p u v st n hn hp hst).bind fun r hr => ?_
    cases r with
    | inl f => exact Res.rets_pure (by rintro f ⟨⟩; exact hr.1 f rfl)
    | inr st' => exact ih st' (hr.2 st' rfl)

theorem fxshfr_rets (l2 : ℕ) (sr bnd : K) (k p : List K) (hk : 2 ≤ k.length) (hp : k.length + 1 = p.length) :
    (fxshfr m l2 sr bnd k p).Rets (fun r => ∀ f, r = some f → f.qp.length = p.length) := by
  unfold fxshfr
  dsimp only
  refine (quadSD_rets _ _ p (by omega)).bind fun d hd => ?_
  refine (calcSC_rets m _ _ _ _ k hk).bind fun sc hsc => ?_
  exact fxLoop_rets m p _ _ k.length hk hp l2 _ ⟨rfl, hsc, hd, by simp⟩

theorem shiftLoop_rets (bnd : K) (k p : List K) (hk : 2 ≤ k.length) (hp : k.length + 1 = p.length) :
    ∀ (left jj : ℕ) (xx yy : K),
    (shiftLoop m bnd k p left jj xx yy).Rets (fun r => ∀ f, r.1 = some f → f.qp.length = p.length) := by
  intro left
  induction left with
  | zero => intro jj xx yy; exact Res.rets_ok (by simp)
  | succ left ih =>
    intro jj xx yy
    unfold shiftLoop
    dsimp only
    refine (fxshfr_rets m _ _ bnd k p hk hp).bind fun r hr => ?_
    cases r with
    | none => exact ih _ _ _
    | some f => exact Res.rets_pure (by rintro f ⟨⟩; exact hr f rfl)

theorem noShift_rets (p : List K) (hp : 3 ≤ p.length) : ∀ (i : ℕ) (k : List K) (zk : Bool),
    k.length + 1 = p.length → (noShift m p i k zk).Rets (fun k' => k'.length + 1 = p.length) := by
  intro i
  induction i with
  | zero => intro k zk h; exact Res.rets_ok h
  | succ i ih =>
    intro k zk h
    unfold noShift
    have key : (noShiftStep m p k zk).Rets (fun r => r.1.length + 1 = p.length) := by
      unfold noShiftStep
      dsimp only
      refine (Res.rets_at' (by omega)).bind fun _ _ => (Res.rets_at' (by omega)).bind fun _ _ => ?_
      refine (Res.rets_at' (by omega)).bind fun _ _ => ?_
      have hr : ∀ i ∈ List.range (p.length - 1 - 1), i < p.length - 1 - 1 := fun i hi => List.mem_range.mp hi
      refine (Res.rets_mapM _ fun i hi => ?_).bind fun l hl => ?_
      · have := hr i hi
        exact (Res.rets_at' (by omega)).mono fun _ _ => trivial
      · simp only [List.length_range] at hl
        split
        · refine (Res.rets_at' (by simp; omega)).bind fun _ _ => Res.rets_pure ?_
          simp
          omega
        · refine (Res.rets_at' (by omega)).bind fun _ _ => ?_
          refine (Res.rets_mapM _ fun i hi => ?_).bind fun l' hl' => ?_
          · have := hr i hi
            refine (Res.rets_at' (by omega)).bind fun _ _ => ?_
            refine (Res.rets_at' (by omega)).bind fun _ _ => Res.rets_pure trivial
          · simp only [List.length_range] at hl'
            refine (Res.rets_at' (by simp; omega)).bind fun _ _ => Res.rets_pure ?_
            simp
            omega
    exact key.bind fun r hr => ih r.1 r.2 hr

theorem initialK_length (p : List K) (hp : 2 ≤ p.length) : (initialK p).length + 1 = p.length := by
  unfold initialK
  match p, hp with
  | a :: b :: l, _ => simp

theorem startK_rets (p : List K) (hp : 3 ≤ p.length) :
    (startK m p).Rets (fun k => k.length + 1 = p.length) := by
  unfold startK
  dsimp only
  have h := initialK_length p (by omega)
  exact (Res.rets_at' (by omega)).bind fun _ _ => noShift_rets m p hp 5 _ _ h

theorem scaleCoeffs_length (p : List K) : (scaleCoeffs m p).length = p.length := by
  unfold scaleCoeffs
  simp only
  split <;> simp

theorem chop_post (pt : List K) : ∀ (fuel : ℕ) (x : K), (chop pt fuel x).Post (fun _ => True) := by
  intro fuel
  induction fuel with
  | zero => intro x; exact Or.inl rfl
  | succ fuel ih =>
    intro x
    unfold chop
    simp only
    split
    · exact ih _
    · exact (Res.rets_ok trivial).post

theorem newtonBound_post (pt : List K) : ∀ (fuel : ℕ) (x dx : K),
    (newtonBound m pt fuel x dx).Post (fun _ => True) := by
  intro fuel
  induction fuel with
  | zero => intro x dx; exact Or.inl rfl
  | succ fuel ih =>
    intro x dx
    unfold newtonBound
    split
    · exact ih _ _
    · exact (Res.rets_ok trivial).post

theorem moduli_length (p : List K) : (moduli m p).length = p.length := by
  simp [moduli]

theorem lowerBound_post (fuel : ℕ) (p : List K) (hp : 2 ≤ p.length) :
    (lowerBound m fuel p).Post (fun _ => True) := by
  unfold lowerBound
  dsimp only
  have hl := moduli_length m p
  refine (Res.rets_at' (by omega)).post.bind fun _ _ => (Res.rets_at' (by omega)).post.bind fun _ _ => ?_
  refine (Res.rets_at' (by omega)).post.bind fun _ _ => ?_
  exact (chop_post _ _ _).bind fun _ _ => newtonBound_post m _ _ _ _

/-! ### The slots for the zeros -/

/-- The first `n` of the 100 slots are written. -/
def Filled (n : ℕ) (z : Slots K) : Prop := z.length = 100 ∧ ∀ i < n, ∃ x, z[i]? = some (some x)

theorem put_rets (z : Slots K) (i : ℤ) (n : ℕ) (x : K × K) (hi : i = n) (h : n < 100) (hz : Filled n z) :
    (z.put i x).Rets (Filled (n + 1)) := by
  subst hi
  unfold Slots.put
  rw [if_pos ⟨by omega, by rw [hz.1]; exact_mod_cast h⟩]
  refine Res.rets_ok ⟨by simp [hz.1], ?_⟩
  intro j hj
  rw [Int.toNat_natCast]
  by_cases e : j = n
  · subst e
    exact ⟨x, by rw [List.getElem?_set_self (by rw [hz.1]; omega)]⟩
  · rw [List.getElem?_set_ne (by omega)]
    exact hz.2 j (by omega)

theorem finalZeros_rets (degree : ℕ) (p : List K) (z : Slots K) (h2 : 2 ≤ p.length) (h3 : p.length ≤ 3)
    (hd : degree ≤ 100) (hp : p.length ≤ degree + 1) (hz : Filled (degree - (p.length - 1)) z) :
    (finalZeros m degree p z).Rets (Filled degree) := by
  unfold finalZeros
  refine (Res.rets_at' (by omega)).bind fun _ _ => (Res.rets_at' (by omega)).bind fun _ _ => ?_
  split
  · rename_i e
    rw [e] at hz
    refine (put_rets z _ (degree - 1) _ (by omega) (by omega) hz).mono fun z h => ?_
    rwa [show degree - 1 + 1 = degree by omega] at h
  · have e : p.length = 3 := by omega
    rw [e] at hz
    refine (Res.rets_at' (by omega)).bind fun _ _ => ?_
    refine (put_rets z _ (degree - 2) _ (by omega) (by omega) hz).bind fun z' hz' => ?_
    refine (put_rets z' _ (degree - 2 + 1) _ (by omega) (by omega) hz').mono fun z h => ?_
    rwa [show degree - 2 + 1 + 1 = degree by omega] at h

theorem storeFound_rets (degree n : ℕ) (f : Found K) (z : Slots K) (hn : 3 ≤ n) (hd : degree ≤ 100)
    (hnd : n ≤ degree) (hz : Filled (degree - n) z) :
    (storeFound degree n f z).Rets (Filled (degree - (n - if f.two then 2 else 1))) := by
  unfold storeFound
  refine (put_rets z _ (degree - n) _ (by omega) (by omega) hz).bind fun z' hz' => ?_
  split
  · refine (put_rets z' _ (degree - n + 1) _ (by omega) (by omega) hz').mono fun z h => ?_
    rwa [show degree - n + 1 + 1 = degree - (n - 2) by omega] at h
  · refine Res.rets_pure ?_
    rwa [show degree - n + 1 = degree - (n - 1) by omega] at hz'

theorem mainLoop_post (fuel degree : ℕ) (hd : degree ≤ 100) : ∀ (rounds : ℕ) (p : List K) (xx yy : K)
    (z : Slots K), 1 ≤ p.length → p.length ≤ degree + 1 → p.length ≤ rounds →
    Filled (degree - (p.length - 1)) z →
    (mainLoop m fuel degree rounds p xx yy z).Post (fun r => r.1 ≤ degree ∧ Filled r.1 r.2) := by
  intro rounds
  induction rounds with
  | zero => intro p xx yy z h1 _ h3; omega
  | succ rounds ih =>
    intro p xx yy z h1 h2 h3 hz
    unfold mainLoop
    split
    · rename_i h
      rw [show p.length - 1 = 0 by omega] at hz
      exact (Res.rets_ok ⟨Nat.le_refl _, by simpa using hz⟩).post
    · rename_i hn1
      split
      · exact ((finalZeros_rets m degree p z (by omega) (by omega) hd h2 hz).bind fun z' hz' =>
          Res.rets_pure ⟨Nat.le_refl _, hz'⟩).post
      · have hl := scaleCoeffs_length m p
        simp only
        refine (lowerBound_post m fuel _ (by omega)).bind fun bnd _ => ?_
        refine (startK_rets m _ (by omega)).post.bind fun k hk => ?_
        refine (shiftLoop_rets m bnd k _ (by omega) hk 20 1 xx yy).post.bind fun r hr => ?_
        rw [hl]
        cases hf : r.1 with
        | none =>
          exact (Res.rets_pure ⟨by omega, by simpa using hz⟩).post
        | some f =>
          simp only
          refine (storeFound_rets degree (p.length - 1) f z (by omega) hd (by omega) hz).post.bind
            fun z' hz' => ?_
          have hq := hr f hf
          have hlen : (f.qp.take (p.length - if f.two = true then 2 else 1)).length =
              p.length - if f.two = true then 2 else 1 := by
            rw [List.length_take]
            omega
          have h21 : (if f.two = true then 2 else 1) ≤ 2 ∧ 1 ≤ (if f.two = true then 2 else 1) := by
            split <;> omega
          refine ih _ _ _ z' (by omega) (by omega) (by omega) ?_
          rw [hlen]
          rw [show p.length - (if f.two = true then 2 else 1) - 1 =
            p.length - 1 - (if f.two = true then 2 else 1) by omega]
          exact hz'

theorem removeZeros_rets (op : List K) (degree : ℕ) (hd : degree ≤ 100)
    (h0 : ∃ c, op[0]? = some c ∧ m.isZero c = false) : ∀ (n j : ℕ) (z : Slots K), n < op.length →
    j + n = degree → Filled j z →
    (removeZeros m op n j z).Rets (fun r => 1 ≤ r.1.length ∧ r.1.length ≤ degree + 1 ∧
      Filled (degree - (r.1.length - 1)) r.2) := by
  intro n
  induction n with
  | zero =>
    intro j z hn hj hz
    unfold removeZeros
    refine (Res.rets_at' hn).bind fun c hc => ?_
    obtain ⟨c', h1, h2⟩ := h0
    rw [hc, Option.some.injEq] at h1
    subst h1
    rw [h2]
    simp only [Bool.false_eq_true, if_false]
    refine Res.rets_pure ⟨by simp; omega, by simp; omega, ?_⟩
    simp only [List.length_take]
    rw [show degree - (min (0 + 1) op.length - 1) = j by omega]
    exact hz
  | succ n ih =>
    intro j z hn hj hz
    unfold removeZeros
    refine (Res.rets_at' hn).bind fun c hc => ?_
    split
    · simp only
      refine (put_rets z (j : ℤ) j _ rfl (by omega) hz).bind fun z' hz' => ?_
      exact ih (j + 1) z' (by omega) (by omega) hz'
    · refine Res.rets_pure ⟨by simp; omega, by simp; omega, ?_⟩
      simp only [List.length_take]
      rw [show degree - (min (n + 1 + 1) op.length - 1) = j by omega]
      exact hz

/-- The root finder never accesses memory outside its arrays and reads no variable before it is assigned; the
number of zeros it reports have all been written. -/
theorem rpoly_post (fuel : ℕ) (op : List K) (degree : ℕ) (h : op.length = degree + 1)
    (z : Slots K) (hz : z.length = 100) :
    (rpoly m fuel op degree z).Post (fun r => r.1 ≤ degree ∧ Filled r.1.toNat r.2) := by
  unfold rpoly
  split
  · exact (Res.rets_ok ⟨by simp, ⟨hz, by simp⟩⟩).post
  · rename_i hd
    refine (Res.rets_at' (by omega)).post.bind fun c hc => ?_
    split
    · exact (Res.rets_pure ⟨by simp, ⟨hz, by simp⟩⟩).post
    · rename_i h0
      refine (removeZeros_rets m op degree (by omega) ⟨c, hc, by simpa using h0⟩ degree 0 z (by omega)
        (by omega) ⟨hz, by simp⟩).post.bind fun r hr => ?_
      refine (mainLoop_post m fuel degree (by omega) (degree + 1) r.1 _ _ r.2 hr.1 hr.2.1 hr.2.1
        hr.2.2).bind fun x hx => ?_
      exact (Res.rets_pure ⟨by simpa using hx.1, by simpa using hx.2⟩).post

end
end Verif
