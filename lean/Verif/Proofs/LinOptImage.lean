import Verif.Proofs.LinOptAffine
import Verif.Props.LinearUnique
import Verif.Spec.LinearAffine

/-
Images of problems of the linear optimiser: from the minimal cost to the objects.
-/
namespace Verif

open Spec Set

set_option linter.unusedSectionVars false

/-- All trajectories with the same segment times are evaluated in the same segment at the same local time. -/
theorem evaluate_index {times : List ℝ} (hne : times ≠ []) {t : ℝ} (ht : t ≤ times.sum) :
    ∃ i < times.length, ∃ x, ∀ tr : Trajectory ℝ, tr.WF → tr.getSegmentTimes = times → ∀ q : ℕ,
      ∃ s, tr.segments[i]? = some s ∧ tr.evaluate t q = .ok (segValue s q x) := by
  set segs0 : List (Segment ℝ) := times.map fun T => ⟨[], T, 0⟩ with hs0
  have ht0 : segs0.map (·.time) = times := by rw [hs0, List.map_map]; simp [Function.comp_def]
  set r := findSegment t segs0 0 0 with hr
  have hlen0 : segs0.length = times.length := by rw [hs0, List.length_map]
  have hpos : 0 < times.length := List.length_pos_iff.mpr hne
  have hr2 : ¬ t > r.2 := by
    have gen : ∀ (l : List (Segment ℝ)) (acc : ℝ) (i : ℕ), t ≤ acc + (l.map (·.time)).sum →
        t ≤ (findSegment t l acc i).2 := by
      intro l
      induction l with
      | nil => intro acc i h; simpa [findSegment] using h
      | cons s l ih =>
        intro acc i h
        rw [findSegment_cons]
        split
        · rename_i h1; exact h1.le
        · refine ih _ _ ?_
          simpa [add_assoc] using h
    have := gen segs0 0 0 (by rw [ht0]; simpa using ht)
    exact not_lt.mpr this
  set i := if r.1 ≥ times.length then times.length - 1 else r.1 with hi
  have hil : i < times.length := by
    rw [hi]; split <;> omega
  refine ⟨i, hil, t - (r.2 - times.getD i 0), fun tr hwf htr q => ?_⟩
  have htl : tr.segments.map (·.time) = times := htr
  have hl : tr.segments.length = times.length := by rw [← htl, List.length_map]
  have hil' : i < tr.segments.length := by omega
  refine ⟨tr.segments[i], List.getElem?_eq_getElem hil', ?_⟩
  have hf : findSegment t tr.segments 0 0 = r := findSegment_congr t _ _ 0 0 (by rw [htl, ht0])
  unfold Trajectory.evaluate
  simp only [hf, if_neg hr2, hl]
  rw [← hi, Res.at'_of_lt hil', Res.ok_bind]
  have e : tr.segments[i].time = times.getD i 0 := by
    rw [← htl]
    simp [List.getD_eq_getElem?_getD, hil']
  rw [segment_evaluate_ok _ (hwf.wf _ (List.getElem_mem hil')), e]

theorem segValue_cf {n dim : ℕ} {times : List ℝ} {a : List (Segment ℝ)} (ha : Shape n dim times a) {i : ℕ}
    {s : Segment ℝ} (hs : a[i]? = some s) (q : ℕ) (x : ℝ) :
    segValue s q x = (List.range dim).map fun d => dvL n q x (cf a i d) := by
  have hm : s ∈ a := List.mem_of_getElem? hs
  have hd := ha.dims s hm
  apply List.ext_getElem (by simp [segValue, hd])
  intro d h1 h2
  have hdd : d < dim := by simpa using h2
  have hdp : d < s.polys.length := by omega
  simp only [segValue, List.getElem_map, List.getElem_range]
  rw [← cf_deriv ha hs hdd]
  unfold segDeriv
  simp [List.getD_eq_getElem?_getD, hdp]

theorem pinAt_forall₂ {R : Vertex ℝ → Vertex ℝ → Prop} {vs vs' : List (Vertex ℝ)} (h : List.Forall₂ R vs vs')
    (i : ℕ) : (vs[i]? = none ∧ vs'[i]? = none) ∨ ∃ v v', vs[i]? = some v ∧ vs'[i]? = some v' ∧ R v v' := by
  induction h generalizing i with
  | nil => left; simp
  | cons h1 _ ih =>
    cases i with
    | zero => right; exact ⟨_, _, rfl, rfl, h1⟩
    | succ i => simpa using ih i

/-- A linear optimiser that was set up and solved, with what is known of its result. -/
structure Solved {h : ℕ} (vertices : List (Vertex ℝ)) (k dim : ℕ) (times : List ℝ) (o' : LinOpt h ℝ) :
    Prop where
  k_lt : k < h
  prob : Problem h dim vertices times
  meets : MeetsConstraints h dim vertices o'.segments
  shape : Shape (h + h) dim times o'.segments
  cont : Spec.Continuous h dim o'.segments
  coeffs : ∀ s ∈ o'.segments, s.N = h + h
  min : ∀ segs, Shape (h + h) dim times segs → MeetsConstraints h dim vertices segs →
    Spec.Continuous h dim segs → cost k o'.segments ≤ cost k segs

theorem solved_of_session {h : ℕ} {inv solve} (hinv : IsInverse inv) (hsolve : IsSolver solve)
    {vertices : List (Vertex ℝ)} {k : ℕ} {times : List ℝ} {o o' : LinOpt h ℝ}
    (hs : Session inv solve vertices k times o) (ho : o.solveLinear solve = .ok o') :
    Solved vertices k o.dimension times o' := by
  obtain ⟨hk, hp, -⟩ := session_ready hs
  obtain ⟨a1, a2, a3, na, -, -⟩ := session_result hinv hs (.inl ho)
  exact ⟨hk, hp, a1, a2, a3, na, (C33_optimal hinv hsolve hs ho).2⟩

section
variable {h : ℕ} {k : ℕ} {times : List ℝ}

theorem solved_affine {n m : ℕ} {A : Fin m → Fin n → ℝ} {b : Fin m → ℝ} (hb : k = 0 → b = 0)
    {vs vs' : List (Vertex ℝ)} {o1 o2 : LinOpt h ℝ} (s1 : Solved vs k n times o1)
    (s2 : Solved vs' k m times o2) (hpin : Pinned k vs) (him : List.Forall₂ (Image A b) vs vs') :
    ∀ i < times.length, ∀ d : Fin m, ∀ q t, dvL (h + h) q t (cf o2.segments i d) =
      ∑ j : Fin n, A d j * dvL (h + h) q t (cf o1.segments i j) + if q = 0 then b d else 0 := by
  obtain ⟨hpos, hne⟩ := problem_pos s1.prob
  have hpin' : Pinned k vs' := by
    obtain ⟨v, hv, hc⟩ := hpin
    obtain ⟨i, hi⟩ := List.getElem?_of_mem hv
    rcases pinAt_forall₂ him i with ⟨h1, -⟩ | ⟨w, w', h1, h2, h3⟩
    · rw [h1] at hi; cases hi
    · rw [h1, Option.some.injEq] at hi
      subst hi
      refine ⟨w', List.mem_of_getElem? h2, fun q hq => ?_⟩
      obtain ⟨c, hc⟩ := hc q hq
      rw [h3 q, hc]
      exact ⟨_, rfl⟩
  have key := optimum_combination (ι := Unit) s1.k_lt (by have := s1.k_lt; omega) hpos hne (fun _ => n)
    (fun _ => vs) (fun _ => o1.segments) (fun _ => s1.shape) (fun _ => s1.meets) (fun _ => s1.cont)
    (fun _ => s1.min) s2.prob.count hpin' s2.shape s2.meets s2.cont s2.min
    (fun _ d j => if hd : d < m then if hj : j < n then A ⟨d, hd⟩ ⟨j, hj⟩ else 0 else 0)
    (fun d => if hd : d < m then b ⟨d, hd⟩ else 0) (by
      intro h0 d
      rw [hb h0]
      simp) (by
      intro _ i q hq
      unfold pinAt
      rcases pinAt_forall₂ him i with ⟨h1, h2⟩ | ⟨w, w', h1, h2, h3⟩
      · rw [h1, h2]
      · rw [h1, h2]
        simp only [Option.bind_some]
        rw [h3 q, Option.isSome_map]) (by
      intro i q hq c hc d hd
      unfold pinAt at hc ⊢
      rcases pinAt_forall₂ him i with ⟨h1, h2⟩ | ⟨w, w', h1, h2, h3⟩
      · rw [h2] at hc; cases hc
      · rw [h2] at hc
        simp only [Option.bind_some] at hc
        rw [h3 q, Option.map_eq_some_iff] at hc
        obtain ⟨u, hu, rfl⟩ := hc
        rw [h1]
        simp only [Option.bind_some, hu, Option.getD_some, Finset.univ_unique, Finset.sum_singleton]
        rw [← Fin.sum_univ_eq_sum_range (fun j => (if hd : d < m then if hj : j < n then A ⟨d, hd⟩ ⟨j, hj⟩
          else 0 else 0) * u.getD j 0) n]
        unfold affineAt affine
        simp only [List.getD_eq_getElem?_getD, List.getElem?_ofFn, hd, dif_pos, Fin.is_lt, Fin.eta]
        congr 1
        split <;> rfl)
  intro i hi d q t
  rw [key i hi d d.2 q t]
  simp only [Finset.univ_unique, Finset.sum_singleton]
  rw [← Fin.sum_univ_eq_sum_range (fun j => (if hd : (d : ℕ) < m then if hj : j < n then
    A ⟨d, hd⟩ ⟨j, hj⟩ else 0 else 0) * dvL (h + h) q t (cf o1.segments i j)) n]
  simp


/-- The vertex with one coordinate, whose values are `u` times the values of `v`. -/
noncomputable def dotVertex {n : ℕ} (u : Fin n → ℝ) (v : Vertex ℝ) : Vertex ℝ :=
  ⟨1, v.constraints.map fun e => (e.1, [∑ j, u j * e.2.getD j 0])⟩

theorem mapFind_map {V W : Type} (f : V → W) (q : ℤ) (l : List (ℤ × V)) :
    mapFind q (l.map fun e => (e.1, f e.2)) = (mapFind q l).map f := by
  induction l with
  | nil => rfl
  | cons e l ih =>
    obtain ⟨a, b⟩ := e
    simp only [List.map_cons, mapFind]
    split
    · rfl
    · exact ih

theorem dotVertex_get {n : ℕ} (u : Fin n → ℝ) (v : Vertex ℝ) (q : ℤ) :
    (dotVertex u v).getConstraint q = (v.getConstraint q).map fun w => [∑ j, u j * w.getD j 0] :=
  mapFind_map (fun w : List ℝ => [∑ j, u j * w.getD j 0]) q v.constraints

theorem dotVertex_wf {n : ℕ} (u : Fin n → ℝ) {v : Vertex ℝ} (hv : v.WF) : (dotVertex u v).WF := by
  refine ⟨?_, ?_⟩
  · have := hv.sorted
    unfold dotVertex
    simpa [List.map_map, Function.comp_def] using this
  · intro e he
    unfold dotVertex at he
    obtain ⟨x, -, rfl⟩ := List.mem_map.mp he
    rfl

theorem dot_problem {n dim : ℕ} (u : Fin n → ℝ) {vs : List (Vertex ℝ)} (hp : Problem h dim vs times) :
    Problem h 1 (vs.map (dotVertex u)) times where
  count := by rw [List.length_map]; exact hp.count
  two := by rw [List.length_map]; exact hp.two
  times_pos := hp.times_pos
  wf := by
    intro v hv
    obtain ⟨w, hw, rfl⟩ := List.mem_map.mp hv
    exact ⟨dotVertex_wf u (hp.wf w hw).1, rfl⟩
  dim_pos := by norm_num
  small := hp.small

theorem constraint_length {v : Vertex ℝ} (hv : v.WF) {q : ℤ} {w : List ℝ} (hw : v.getConstraint q = some w) :
    w.length = v.D := by
  have : ∀ l : List (ℤ × List ℝ), mapFind q l = some w → (q, w) ∈ l := by
    intro l
    induction l with
    | nil => intro h; cases h
    | cons e l ih =>
      obtain ⟨a, b⟩ := e
      intro h
      simp only [mapFind] at h
      split at h
      · rename_i h1
        rw [Option.some.injEq] at h
        simp [h1, h]
      · exact List.mem_cons_of_mem _ (ih h)
  exact hv.dims _ (this _ hw)

/-- A solved optimiser for every problem. -/
theorem solved_exists {dim : ℕ} {vs : List (Vertex ℝ)} (hk : k < h) (hp : Problem h dim vs times) :
    ∃ o' : LinOpt h ℝ, Solved vs k dim times o' := by
  obtain ⟨o, o', -, h2, h3, h4⟩ := C30_returns (inv := (exLib h).inv) (solve := (exLib h).solve) hp k hk
  subst h3
  exact ⟨o', solved_of_session exLib_spec.inv exLib_spec.solve h2 h4⟩

theorem forall₂_map_right {R : Vertex ℝ → Vertex ℝ → Prop} {f : Vertex ℝ → Vertex ℝ} :
    ∀ {vs : List (Vertex ℝ)}, (∀ v ∈ vs, R v (f v)) → List.Forall₂ R vs (vs.map f)
  | [], _ => .nil
  | v :: vs, h => .cons (h v (by simp)) (forall₂_map_right fun w hw => h w (by simp [hw]))

theorem solved_combines {dim : ℕ} {α β : ℝ} {vs₁ vs₂ vs : List (Vertex ℝ)} {o1 o2 o3 : LinOpt h ℝ}
    (s1 : Solved vs₁ k dim times o1) (s2 : Solved vs₂ k dim times o2) (s3 : Solved vs k dim times o3)
    (hpin : Pinned k vs) (hlen₁ : vs₁.length = vs.length) (hlen₂ : vs₂.length = vs.length)
    (hc : ∀ (i : ℕ) v₁ v₂ v, vs₁[i]? = some v₁ → vs₂[i]? = some v₂ → vs[i]? = some v → Combines α β v₁ v₂ v) :
    ∀ i < times.length, ∀ d < dim, ∀ q t, dvL (h + h) q t (cf o3.segments i d) =
      α * dvL (h + h) q t (cf o1.segments i d) + β * dvL (h + h) q t (cf o2.segments i d) := by
  obtain ⟨hpos, hne⟩ := problem_pos s1.prob
  have hall : ∀ i : ℕ, (vs₁[i]? = none ∧ vs₂[i]? = none ∧ vs[i]? = none) ∨ ∃ v₁ v₂ v, vs₁[i]? = some v₁ ∧
      vs₂[i]? = some v₂ ∧ vs[i]? = some v ∧ Combines α β v₁ v₂ v := by
    intro i
    by_cases hi : i < vs.length
    · have h1 : vs₁[i]? = some vs₁[i] := List.getElem?_eq_getElem (by omega)
      have h2 : vs₂[i]? = some vs₂[i] := List.getElem?_eq_getElem (by omega)
      have h3 : vs[i]? = some vs[i] := List.getElem?_eq_getElem hi
      exact .inr ⟨_, _, _, h1, h2, h3, hc i _ _ _ h1 h2 h3⟩
    · exact .inl ⟨List.getElem?_eq_none (by omega), List.getElem?_eq_none (by omega),
        List.getElem?_eq_none (by omega)⟩
  have key := optimum_combination (ι := Bool) s1.k_lt (by have := s1.k_lt; omega) hpos hne (fun _ => dim)
    (fun s => if s then vs₁ else vs₂) (fun s => if s then o1.segments else o2.segments)
    (fun s => by cases s; exacts [s2.shape, s1.shape]) (fun s => by cases s; exacts [s2.meets, s1.meets])
    (fun s => by cases s; exacts [s2.cont, s1.cont]) (fun s => by cases s; exacts [s2.min, s1.min])
    s3.prob.count hpin s3.shape s3.meets s3.cont s3.min
    (fun s d j => if j = d then if s then α else β else 0) (fun _ => 0) (fun _ _ => rfl) (by
      intro s i q hq
      unfold pinAt
      rcases hall i with ⟨h1, h2, h3⟩ | ⟨v₁, v₂, v, h1, h2, h3, h4⟩
      · cases s <;> simp [h1, h2, h3]
      · cases s
        · simpa [h2, h3] using (h4 q).2.1
        · simpa [h1, h3] using (h4 q).1) (by
      intro i q hq c hcc d hd
      unfold pinAt at hcc ⊢
      rcases hall i with ⟨h1, h2, h3⟩ | ⟨v₁, v₂, v, h1, h2, h3, h4⟩
      · rw [h3] at hcc; cases hcc
      · rw [h3] at hcc
        simp only [Option.bind_some] at hcc
        obtain ⟨a1, a2, a3⟩ := h4 q
        rw [hcc] at a1 a2
        obtain ⟨w₁, hw₁⟩ := Option.isSome_iff_exists.mp a1
        obtain ⟨w₂, hw₂⟩ := Option.isSome_iff_exists.mp a2
        have a4 := a3 w₁ w₂ hw₁ hw₂
        rw [hcc, Option.some.injEq] at a4
        subst a4
        have l1 : w₁.length = dim := by
          obtain ⟨x, hx⟩ := s1.prob.wf v₁ (List.mem_of_getElem? h1)
          rw [← hx]
          exact constraint_length x hw₁
        have l2 : w₂.length = dim := by
          obtain ⟨x, hx⟩ := s2.prob.wf v₂ (List.mem_of_getElem? h2)
          rw [← hx]
          exact constraint_length x hw₂
        simp only [Fintype.sum_bool, if_true, Bool.false_eq_true, if_false, h1, h2, Option.bind_some, hw₁, hw₂,
          Option.getD_some, ite_mul, zero_mul, Finset.sum_ite_eq', Finset.mem_range, hd]
        simp [List.getD_eq_getElem?_getD, l1, l2, hd])
  intro i hi d hd q t
  rw [key i hi d hd q t]
  simp [hd]

end
end Verif
