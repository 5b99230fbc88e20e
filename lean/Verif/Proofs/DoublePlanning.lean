import Verif.Proofs.RoundedOptimizer
import Verif.Proofs.DoubleRange
import Verif.Proofs.DoubleAccept
import Verif.Proofs.DoubleReturns
import Verif.Proofs.DoubleOverflow
import Verif.Spec.DoublePlanning

/- Helper lemmas: planning with numbers that are none. -/
namespace Verif

open Spec

/-! ### Durations -/

theorem above_iff {a : Dbl} : 0 < a ↔ Above a := by
  unfold Above
  cases a with
  | fin x =>
    constructor
    · exact fun h => Or.inr ⟨x, h, rfl⟩
    · rintro (h | ⟨y, hy, h⟩)
      · cases h
      · rw [h]; exact hy
  | inf s =>
    constructor
    · intro h; left; rw [show s = false from h]
    · rintro (h | ⟨y, hy, h⟩)
      · rw [h]; rfl
      · cases h
  | nan =>
    constructor
    · exact fun h => h.elim
    · rintro (h | ⟨y, hy, h⟩) <;> cases h

section Generic
set_option linter.unusedSectionVars false
variable {K : Type} [Zero K] [One K] [Add K] [Mul K] [Neg K] [Div K] [NatCast K] [LT K] [DecidableLT K] {h : ℕ}

theorem baseCoeffsG_returns (mag : MagLib K) (hN : h + h ≤ 22) {i : ℕ} (hi : i < h) (t : K) :
    ∃ c, baseCoeffsWithTimeG mag (h + h) (i : ℕ) t = .ok c := by
  unfold baseCoeffsWithTimeG
  rw [Res.check_of (by push_cast; omega), Res.ok_bind, Res.check_of (by omega), Res.ok_bind,
    if_neg (by unfold kMaxConvolutionSize; omega)]
  dsimp only
  split_ifs with h1 h2
  · exact ⟨_, rfl⟩
  · unfold kMaxConvolutionSize at h2; omega
  · exact ⟨_, rfl⟩

theorem mapping_returns (mag : MagLib K) (hN : h + h ≤ 22) (T : K) :
    setupMappingMatrixG mag h T = .ok (mapMatG mag h T) := by
  have key : ∃ M, setupMappingMatrixG mag h T = .ok M := by
    unfold setupMappingMatrixG
    obtain ⟨a, ha, -⟩ := mapM_returns (f := fun i : ℕ => baseCoeffsWithTimeG mag (h + h) (i : ℕ) (0 : K)) (List.range h)
      fun i hi => baseCoeffsG_returns mag hN (List.mem_range.mp hi) 0
    obtain ⟨b, hb, -⟩ := mapM_returns (f := fun i : ℕ => baseCoeffsWithTimeG mag (h + h) (i : ℕ) T) (List.range h)
      fun i hi => baseCoeffsG_returns mag hN (List.mem_range.mp hi) T
    rw [ha, Res.ok_bind, hb, Res.ok_bind]
    exact ⟨_, rfl⟩
  obtain ⟨M, hM⟩ := key
  unfold mapMatG
  rw [hM]

theorem cost_returns (pow : K → ℕ → K) (hN : h + h ≤ 22) {k : ℕ} (hk : k < h) (T : K) :
    ∃ Q, computeQuadraticCostJacobianG pow h (k : ℕ) T = .ok Q := by
  unfold computeQuadraticCostJacobianG
  rw [Res.check_of (by push_cast; omega), Res.ok_bind, if_neg (by unfold kMaxConvolutionSize; omega)]
  exact ⟨_, rfl⟩

theorem mapM_abort {α β : Type} {f : α → Res β} (l : List α) (h : ∀ a ∈ l, (∃ b, f a = .ok b) ∨ f a = .abort)
    (hx : ∃ a ∈ l, f a = .abort) : l.mapM f = .abort := by
  induction l with
  | nil => simp at hx
  | cons a l ih =>
    rw [List.mapM_cons]
    rcases h a (List.mem_cons_self ..) with ⟨b, hb⟩ | hb
    · rw [hb, Res.ok_bind, ih (fun x hx => h x (List.mem_cons_of_mem _ hx)), Res.abort_bind]
      obtain ⟨x, hx, hf⟩ := hx
      rcases List.mem_cons.mp hx with rfl | hx
      · rw [hb] at hf; cases hf
      · exact ⟨x, hx, hf⟩
    · rw [hb, Res.abort_bind]

theorem mapM_ok_each {α β : Type} {f : α → Res β} {l : List α} {r : List β} (h : l.mapM f = .ok r) : ∀ a ∈ l, ∃ b, f a = .ok b := by
  induction l generalizing r with
  | nil => simp
  | cons a l ih =>
    rw [List.mapM_cons, Res.bind_eq_ok] at h
    obtain ⟨b, hb, h⟩ := h
    rw [Res.bind_eq_ok] at h
    obtain ⟨bs, hbs, _⟩ := h
    intro x hx
    rcases List.mem_cons.mp hx with rfl | hx
    · exact ⟨b, hb⟩
    · exact ih hbs x hx

theorem updateTimes_pos {L : OptLib h K} {o o' : LinOpt h K} {times : List K} (ho : o.updateSegmentTimesG L times = .ok o') :
    times.length = o.nSegments ∧ ∀ T ∈ times, 0 < T := by
  unfold LinOpt.updateSegmentTimesG at ho
  rw [Res.bind_eq_ok] at ho
  obtain ⟨_, h1, ho⟩ := ho
  rw [Res.bind_eq_ok] at ho
  obtain ⟨ms, h2, _⟩ := ho
  refine ⟨Res.check_eq_ok.mp h1, fun T hT => ?_⟩
  obtain ⟨b, hb⟩ := mapM_ok_each h2 T hT
  rw [Res.bind_eq_ok] at hb
  obtain ⟨_, hb, _⟩ := hb
  exact Res.check_eq_ok.mp hb

theorem setup_pos {L : OptLib h K} {o o' : LinOpt h K} {vertices : List (Vertex K)} {times : List K} {k : ℤ}
    (ho : o.setupFromVerticesG L vertices times k = .ok o') :
    (0 ≤ k ∧ k < h) ∧ vertices.length = times.length + 1 ∧ ∀ T ∈ times, 0 < T := by
  unfold LinOpt.setupFromVerticesG at ho
  rw [Res.bind_eq_ok] at ho
  obtain ⟨_, h1, ho⟩ := ho
  split_ifs at ho with h0
  rw [Res.bind_eq_ok] at ho
  obtain ⟨_, h2, ho⟩ := ho
  rw [Res.bind_eq_ok] at ho
  obtain ⟨vs, _, ho⟩ := ho
  rw [Res.bind_eq_ok] at ho
  obtain ⟨o2, h3, _⟩ := ho
  have := Res.check_eq_ok.mp h1
  exact ⟨by omega, Res.check_eq_ok.mp h2, (updateTimes_pos h3).2⟩

/-- A duration that is not above 0 ends the program. -/
theorem updateTimes_abort (L : OptLib h K) (o : LinOpt h K) (times : List K) {k : ℕ} (hk : k < h) (hN : h + h ≤ 22)
    (hd : o.derivative = k) (hl : times.length = o.nSegments) (ht : ∃ T ∈ times, ¬ 0 < T) :
    o.updateSegmentTimesG L times = .abort := by
  unfold LinOpt.updateSegmentTimesG
  rw [Res.check_of hl, Res.ok_bind, mapM_abort, Res.abort_bind]
  · intro T _
    by_cases hT : 0 < T
    · left
      obtain ⟨Q, hQ⟩ := cost_returns L.pow hN hk T
      rw [Res.check_of hT, Res.ok_bind, hd, hQ, Res.ok_bind, mapping_returns L.mag hN, Res.ok_bind]
      exact ⟨_, rfl⟩
    · right
      rw [Res.check_of_not hT, Res.abort_bind]
  · obtain ⟨T, hT, h0⟩ := ht
    exact ⟨T, hT, by rw [Res.check_of_not h0, Res.abort_bind]⟩

theorem setup_abort (L : OptLib h K) (o : LinOpt h K) (vertices : List (Vertex K)) (times : List K) {k : ℕ} (hk : k < h)
    (hN : h + h ≤ 22) (hcount : vertices.length = times.length + 1) (hwf : ∀ v ∈ vertices, v.WF ∧ v.D = o.dimension)
    (ht : ∃ T ∈ times, ¬ 0 < T) : o.setupFromVerticesG L vertices times k = .abort := by
  unfold LinOpt.setupFromVerticesG
  rw [Res.check_of (by omega), Res.ok_bind, if_neg (by omega)]
  dsimp only
  rw [Res.check_of hcount, Res.ok_bind, Res.mapM_ok fun v hv => (filt_spec h _ v (hwf v hv).1 (hwf v hv).2).1, Res.ok_bind,
    updateTimes_abort L _ times hk hN rfl (by dsimp only; omega) ht, Res.abort_bind]

theorem solveG_ok {o : LinOpt h K} {L : OptLib h K} {vs : List (Vertex K)} {times : List K} {k : ℕ} (r : o.ReadyG L vs times k)
    (hdim : 0 < o.dimension) (hf : 0 < o.nFree ∨ ∀ v ∈ o.freeCompact, v = []) (sol) :
    ∃ o', o.solveLinearG L sol = .ok o' := by
  unfold LinOpt.solveLinearG
  rw [Res.check_of (by rw [r.deriv]; have := r.derivLt; omega), Res.ok_bind]
  split_ifs with h0 h1
  · refine ⟨_, updateG_ok r hdim fun v hv => ?_⟩
    rcases hf with hf | hf
    · omega
    · rw [hf v hv, h0]
      rfl
  · exact absurd (by rw [r.nAll, r.nSeg, Nat.mul_comm]) h1
  · rw [Res.mapM_ok (g := fun d => List.ofFn (sol o (fixedVals h o.dimension vs d)))]
    · rw [Res.ok_bind]
      refine ⟨_, updateG_ok (readyG_free r _ (by simp)) hdim ?_⟩
      intro v hv
      obtain ⟨d, -, rfl⟩ := List.mem_map.mp hv
      simp
    · intro d hd
      have : Res.at' o.fixedCompact d = .ok (fixedVals h o.dimension vs d) := by
        rw [Res.at'_eq_ok, r.fixedC, List.getElem?_map, List.getElem?_range (by simpa using hd)]
        rfl
      rw [this, Res.ok_bind, if_neg (by rw [r.nFixed]; simp [fixedVals]), Res.pure_eq]

end Generic

/-! ### Sessions -/

section
variable {h : ℕ} {L : OptLib h Dbl}

theorem new_sane {K : Type} (dim : ℕ) : (LinOpt.new dim : LinOpt h K).Sane := ⟨by simp [LinOpt.new], by simp [LinOpt.new]⟩

theorem setup_ready {o o' : LinOpt h Dbl} (hs : o.Sane) {vertices : List (Vertex Dbl)} {times : List Dbl} {k : ℕ}
    (hp : DblProblem h o.dimension vertices) (ho : o.setupFromVerticesG L vertices times k = .ok o') :
    o'.ReadyG L (vertices.map (filt h o.dimension)) times k ∧ o'.dimension = o.dimension := by
  obtain ⟨hk, hc, ht⟩ := setup_pos ho
  obtain ⟨o'', h1, h2, h3⟩ := setupG_ok L o hs vertices times k (by omega) hp.small hp.two hc hp.wf ht
    fun T _ => mapping_returns L.mag hp.small T
  rw [h1, Res.ok.injEq] at ho
  exact ho ▸ ⟨h2, h3⟩

theorem dblSession_ready {vertices : List (Vertex Dbl)} {k : ℕ} {times : List Dbl} {o : LinOpt h Dbl}
    (hs : DblSession L vertices k times o) :
    DblProblem h o.dimension vertices ∧ o.ReadyG L (vertices.map (filt h o.dimension)) times k := by
  induction hs with
  | setup dim hp ho =>
    obtain ⟨h1, h2⟩ := setup_ready (new_sane dim) hp ho
    exact ⟨by rw [h2]; exact hp, by rw [h2]; exact h1⟩
  | again _ hp ho ih =>
    obtain ⟨h1, h2⟩ := setup_ready ih.2.toSane hp ho
    exact ⟨by rw [h2]; exact hp, by rw [h2]; exact h1⟩
  | solveLinear sol _ ho ih =>
    obtain ⟨h1, h2, -⟩ := readyG_solve ih.2 ih.1.dim_pos ho
    exact ⟨by rw [h2]; exact ih.1, by rw [h2]; exact h1⟩
  | setFree fc _ ho ih =>
    obtain ⟨h1, h2, -⟩ := readyG_setFree ih.2 ih.1.dim_pos ho
    exact ⟨by rw [h2]; exact ih.1, by rw [h2]; exact h1⟩
  | times _ ho ih =>
    obtain ⟨hl, ht⟩ := updateTimes_pos ho
    obtain ⟨o'', h1, h2, h3⟩ := readyG_times ih.2 ih.1.small (hl.trans ih.2.nSeg) ht
      fun T _ => mapping_returns L.mag ih.1.small T
    rw [h1, Res.ok.injEq] at ho
    subst ho
    exact ⟨by rw [h3]; exact ih.1, by rw [h3]; exact h2⟩

/-! ### The solution -/

theorem not_finite_mul (a : Dbl) {b : Dbl} (h : ¬ IsFinite b) : ¬ IsFinite (a * b) := by
  rintro ⟨z, hz⟩
  obtain ⟨-, y, -, hy, -⟩ := mul_eq_fin hz
  exact h ⟨y, hy⟩

theorem coeffs_spread {dot : Dot Dbl} (hdot : DotSpreads dot) (Ainv : SqMat h Dbl) (d : Fin (h + h) → Dbl) (i : Fin (h + h))
    (hi : ¬ IsFinite (d i)) : ∀ y ∈ segmentCoeffsG dot Ainv d, ¬ IsFinite y ∧ (d i = .nan → y = .nan) := by
  intro y hy
  unfold segmentCoeffsG at hy
  obtain ⟨r, rfl⟩ := (List.mem_ofFn' _ _).mp hy
  exact ⟨hdot.infinite _ _ _ i hi, hdot.nan _ _ _ i⟩

theorem pick_spread {dim : ℕ} {vs : List (Vertex Dbl)} {dAll : List Dbl} {key : ℕ × ℕ} {x : Dbl}
    (hx : valueAt h dim vs dAll key = x) (hn : ¬ IsFinite x) :
    ¬ IsFinite (pickG h dim vs dAll key) ∧ (x = .nan → pickG h dim vs dAll key = .nan) := by
  unfold pickG
  rw [hx]
  refine ⟨not_finite_add' _ (not_finite_mul _ hn), ?_⟩
  rintro rfl
  rw [mul_nan, add_nan]

theorem session_spread (hdot : DotSpreads L.dot) {vertices : List (Vertex Dbl)} {k : ℕ} {times : List Dbl}
    {o o' : LinOpt h Dbl} (hs : DblSession L vertices k times o)
    (hlast : (∃ sol, o.solveLinearG L sol = .ok o') ∨ ∃ fc, o.setFreeConstraintsG L fc = .ok o')
    {j : ℕ} {v : Vertex Dbl} (hj : vertices[j]? = some v) {q : ℕ} (hq : q < h) {c : List Dbl} (hc : v.getConstraint (q : ℕ) = some c)
    {d : ℕ} {x : Dbl} (hx : c[d]? = some x) (hn : ¬ IsFinite x) :
    o'.segments.length = times.length ∧ ∀ (i : ℕ) (s : Segment Dbl), i = j ∨ i + 1 = j → o'.segments[i]? = some s →
      ∃ p, s.polys[d]? = some p ∧ p.N = h + h ∧ ∀ y ∈ p.coeffs, ¬ IsFinite y ∧ (x = .nan → y = .nan) := by
  obtain ⟨hp, r⟩ := dblSession_ready hs
  set vs := vertices.map (filt h o.dimension) with hvs
  have hdim' : o'.segments = segmentsForG L o.dimension vs times o'.freeCompact := by
    rcases hlast with ⟨sol, ho⟩ | ⟨fc, ho⟩
    · exact (readyG_solve r hp.dim_pos ho).2.2.2
    · exact (readyG_setFree r hp.dim_pos ho).2.2.2.1
  refine ⟨by rw [hdim']; simp [segmentsForG], fun i s hij hsi => ?_⟩
  rw [hdim'] at hsi
  unfold segmentsForG at hsi
  have hi : i < times.length := by
    have := (List.getElem?_eq_some_iff.mp hsi).1
    simpa using this
  rw [List.getElem?_map, List.getElem?_range hi] at hsi
  simp only [Option.map_some, Option.some.injEq] at hsi
  obtain ⟨hw, hD⟩ := hp.wf v (List.mem_of_getElem? hj)
  have hlen : c.length = o.dimension := (hw.dims _ (mapFind_mem hc)).trans hD
  have hd : d < o.dimension := hlen ▸ (List.getElem?_eq_some_iff.mp hx).1
  have hj' : vs[j]? = some (filt h o.dimension v) := by rw [hvs, List.getElem?_map, hj]; rfl
  have hfc := (filt_spec h o.dimension v hw hD).2.2.2 (q : ℤ) (by exact_mod_cast hq)
  have hval := valueAt_fixed o.dimension vs r.two d j q (o'.freeCompact.getD d []) _ hj' hq c (hfc.trans hc)
  have hcd : c.getD d 0 = x := by rw [List.getD_eq_getElem?_getD, hx]; rfl
  rw [hcd] at hval
  subst hsi
  have hb : ∃ p : Fin (h + h), rowKey h i p = (j, q) := by
    rcases hij with e | e
    · exact ⟨⟨q, by omega⟩, by simp [rowKey, hq, e]⟩
    · exact ⟨⟨h + q, by omega⟩, by simp [rowKey, e]⟩
  obtain ⟨p, hp'⟩ := hb
  refine ⟨_, by rw [List.getElem?_map, List.getElem?_range hd]; rfl, by simp [Poly.N, segmentCoeffsG], ?_⟩
  obtain ⟨s1, s2⟩ := pick_spread (h := h) (key := rowKey h i p) (by rw [hp']; exact hval) hn
  intro y hy
  obtain ⟨e1, e2⟩ := coeffs_spread hdot _ _ p s1 y hy
  exact ⟨e1, fun e => e2 (s2 e)⟩

end
end Verif
