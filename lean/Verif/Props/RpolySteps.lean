import Verif.Props.Rpoly
import Verif.Proofs.RpolySearch

/-
C134: the zeros are found by the algorithm of Jenkins and Traub. Exact arithmetic.
-/
namespace Verif
open Verif.Spec Polynomial

/-- The library functions compute the root `(a / b) ^ (1 / n)`. -/
def RootMath (m : RMath ℝ) : Prop := ∀ a b n, 0 < a → 0 < b → 0 < n → b * m.est a b n ^ n = a

theorem realMath_root : RootMath realMath := by
  intro a b n ha hb hn
  have e : realMath.est a b n = Real.exp ((Real.log a - Real.log b) / n) := by
    change (if a = 0 then 0 else _) = _
    rw [if_neg ha.ne']
  have hn' : (n : ℝ) ≠ 0 := by exact_mod_cast hn.ne'
  rw [e, ← Real.exp_nat_mul, mul_div_cancel₀ _ hn', Real.exp_sub, Real.exp_log ha, Real.exp_log hb]
  field_simp

/-! ### The zeros reported -/

/-- **C134.** The zeros of a polynomial of degree greater than two are found by the algorithm of Jenkins and Traub:
every real zero reported, and the quadratic of every pair of zeros reported, is one of the estimates the algorithm
computes for the polynomial left at that point, from the derivative, with steps without shift, with a fixed shift
and with variable shifts. The fixed shift depends on a number close to the Cauchy bound. -/
theorem C134_zeros (m : RMath ℝ) (hm : ExactMath m) (hr : RootMath m) (fuel : ℕ) (cs tail : List ℝ) (a : ℝ)
    (ha : m.dblMin ≤ |a|) (ht : ∀ t ∈ tail, |t| < m.dblMin) (b : Bool) (zs : List (ℝ × ℝ))
    (h : findRoots m fuel (cs ++ [a] ++ tail) = .ok (b, some zs)) :
    b = true ∧ ∃ o : List ℝ, 1 ≤ o.length ∧ zs.length + o.length = cs.length + 1 ∧
      Search m.eps (cs ++ [a]).reverse (zs.map fun z => (⟨z.1, z.2⟩ : ℂ)) o := by
  have hl := findLast_eq m hm cs tail a ha ht
  cases hn : cs.length with
  | zero =>
    rw [hn] at hl
    unfold findRoots at h
    rw [hl] at h
    simp only [Res.ok.injEq, Prod.mk.injEq, Option.some.injEq] at h
    obtain ⟨rfl, rfl⟩ := h
    have : cs = [] := List.length_eq_zero_iff.mp hn
    subst this
    exact ⟨rfl, [a], by simp, by simp, Search.done _⟩
  | succ n =>
    rw [hn] at hl
    have hlen : n + 1 < (cs ++ [a] ++ tail).length := by
      simp
      omega
    obtain ⟨h1, o, h2, h3, h4⟩ := findRoots_chain_of (searched_chain m hm hr) fuel _ n hl hlen b zs h
    have htk : (cs ++ [a] ++ tail).take (n + 2) = cs ++ [a] := by
      have : n + 2 = (cs ++ [a]).length := by simp; omega
      rw [this, List.take_left]
    rw [htk] at h4
    exact ⟨h1, o, h2, h3, h4⟩

example : ExactMath realMath ∧ RootMath realMath := ⟨realMath_exact, realMath_root⟩

/-- A search for a zero of a polynomial of degree three that succeeds. -/
example : findRoots ratMath 20 ([-1, 3, -3] ++ [1] ++ [0]) = .ok (true, some [(1, 0), (1, 0), (1, 0)]) := by decide +kernel

/-! ### The first stage -/

/-- **C134.** The first stage starts from the derivative, divided by the degree, and makes five steps without shift. -/
theorem C134_start (m : RMath ℝ) (hm : ExactMath m) (p k : List ℝ) (hp : 3 ≤ p.length) (h : startK m p = .ok k) :
    p.length = k.length + 1 ∧
    ∃ K, C ((p.length - 1 : ℕ) : ℝ) * K = derivative (decPoly p) ∧ Unshifted m.eps (decPoly p) 5 K (decPoly k) :=
  startK_unshifted m hm p hp k h

example : startK ratMath [1, -6, 11, -6] = .ok [1, -(39948 / 8051), 47449 / 8051] := by decide +kernel

/-! ### Steps with a quadratic shift -/

/-- **C134.** The scalars and the new auxiliary polynomial: a step with the shift `x² + u x + v`. -/
theorem C134_quadratic_step (m : RMath ℝ) (hm : ExactMath m) (u v : ℝ) (p k k' : List ℝ) (r : List ℝ × ℝ × ℝ)
    (hp : p.length = k.length + 1) (hk : 2 ≤ k.length) (hr : quadSD u v p = .ok r)
    (h : kStep m r.2.1 r.2.2 u v r.1 k = .ok k') :
    QuadraticStep m.eps u v (decPoly p) (decPoly k) (decPoly k') ∧ k'.length = k.length := by
  unfold kStep at h
  rw [Res.bind_eq_ok] at h
  obtain ⟨sc, hsc, h⟩ := h
  exact nextK_step m hm u v p k k' r sc hp hk hr hsc h

example : (do
    let r ← quadSD 1 2 [1, -6, 11, (-6 : ℚ)]
    kStep ratMath r.2.1 r.2.2 1 2 r.1 [1, -4, 11 / 3]) = .ok [1, -(22 / 5), 113 / 25] := by decide +kernel

/-- **C134.** The newest estimate of the quadratic: it is determined by the condition that `K + u' K1 + v' K2` is
zero at the zeros of the shift. -/
theorem C134_estimate (m : RMath ℝ) (hm : ExactMath m) (u v : ℝ) (p k : List ℝ) (r : List ℝ × ℝ × ℝ) (sc : SC ℝ)
    (w : ℝ × ℝ) (hp : p.length = k.length + 1) (hk : 2 ≤ k.length) (hv : v ≠ 0) (hp0 : (decPoly p).coeff 0 ≠ 0)
    (hr : quadSD u v p = .ok r) (hsc : calcSC m r.2.1 r.2.2 k u v = .ok sc)
    (h : newest m sc r.2.1 r.2.2 u v k p = .ok w) :
    QuadraticEstimate m.eps u v (decPoly p) (decPoly k) w.1 w.2 :=
  newest_estimate m hm u v p k r sc w hp hk hv hp0 hr hsc h

example : (do
    let r ← quadSD 1 2 [1, -6, 11, (-6 : ℚ)]
    let sc ← calcSC ratMath r.2.1 r.2.2 [1, -4, 11 / 3] 1 2
    newest ratMath sc r.2.1 r.2.2 1 2 [1, -4, 11 / 3] [1, -6, 11, -6]) = .ok (-(455 / 129), 110 / 43) := by decide +kernel

/-! ### Steps with a real shift -/

/-- **C134.** A round of the real iteration: a step with the shift `s`, and the next `s`. -/
theorem C134_real_step (m : RMath ℝ) (hm : ExactMath m) (p : List ℝ) (st st' : RealState ℝ) (mp : ℝ)
    (r : List ℝ × ℝ) (hp : p.length = st.k.length + 1) (hr : horner st.s p = .ok r)
    (h : realAdvance m st mp r.2 r.1 = .ok st') :
    LinearStep (10 * m.eps * |(decPoly st.k).coeff 0|) st.s (decPoly p) (decPoly st.k) (decPoly st'.k) ∧
    (st'.s = st.s - (decPoly p).eval st.s / (decPoly st'.k).eval st.s ∧ (decPoly st'.k).eval st.s ≠ 0 ∨
      st'.s = st.s ∧ |(decPoly st'.k).eval st.s| ≤ 10 * m.eps * |(decPoly st'.k).coeff 0|) ∧
    st'.k.length = st.k.length :=
  realAdvance_step m hm p st st' mp r hp hr h

example : (do
    let r ← horner 5 [1, -6, 11, (-6 : ℚ)]
    let st ← realAdvance ratMath ⟨5, [1, -4, 11 / 3], none, none, 0⟩ 1 r.2 r.1
    pure (st.s, st.k)) = .ok (149 / 61, [1, -(49 / 13), 42 / 13]) := by decide +kernel

/-! ### The shift -/

/-- **C134.** The radius from which the shifts are chosen is close to the largest number below which the moduli of
the coefficients exclude zeros; it is too large by at most the factor `(n - 1) / 200`. -/
theorem C134_radius (m : RMath ℝ) (hm : ExactMath m) (hr : RootMath m) (fuel : ℕ) (p : List ℝ) (bnd : ℝ)
    (hp : 2 ≤ p.length) (h0 : ∀ a ∈ p.head?, a ≠ 0) (hc : (decPoly p).coeff 0 ≠ 0) (h : lowerBound m fuel p = .ok bnd) :
    NearCauchy p bnd ∧
      ∀ z : ℂ, ((decPoly p).map (algebraMap ℝ ℂ)).eval z = 0 → bnd - (p.length - 2) * (bnd / 200) ≤ ‖z‖ := by
  have hn := lowerBound_near m hm hr fuel p bnd hp h0 hc h
  refine ⟨hn, ?_⟩
  intro z hz
  obtain ⟨l, c, r, rfl, h1, h2, h3, h4⟩ := hn
  have hc' : c ≠ 0 := by
    rw [decPoly_snoc] at hc
    simpa using hc
  have := radius_le_zero l c r hc' h1 h2 z hz
  rw [List.length_append, List.length_singleton]
  push_cast
  linarith

example : (do
    let bnd ← lowerBound ratMath 20 [1, -6, 11, -6]
    pure (decide (43 / 100 < bnd ∧ bnd < 44 / 100))) = .ok true := by decide +kernel

/-- **C134.** The shifts: before every attempt the direction is turned by the same angle, at most twenty times; the
zero found is an estimate of the algorithm with the fixed shift for the last direction. -/
theorem C134_directions (m : RMath ℝ) (hm : ExactMath m) (p : List ℝ) (hp : 3 ≤ p.length)
    (hp0 : (decPoly p).coeff 0 ≠ 0) (bnd : ℝ) (hb : bnd ≠ 0) (k : List ℝ) (hk : startK m p = .ok k) (left jj : ℕ)
    (x y x' y' : ℝ) (f : Found ℝ) (h : shiftLoop m bnd k p left jj x y = .ok (some f, x', y')) :
    ∃ j, 1 ≤ j ∧ j ≤ left ∧ (⟨x', y'⟩ : ℂ) = ⟨m.cosr, m.sinr⟩ ^ j * ⟨x, y⟩ ∧
      (f.two = false ∧ RealEstimate m.eps (-(2 * (bnd * x'))) bnd (p.length - 1) (decPoly p) f.roots.sr ∨
        f.two = true ∧ ∃ u v : ℝ, PairEstimate m.eps (-(2 * (bnd * x'))) bnd (p.length - 1) (decPoly p) u v ∧
          ∀ z : ℂ, z ^ 2 + u * z + v = (z - ⟨f.roots.sr, f.roots.si⟩) * (z - ⟨f.roots.lr, f.roots.li⟩)) := by
  obtain ⟨j, h1, h2, h3, h4⟩ := shiftLoop_reach m hm p hp hp0 bnd hb k hk left jj x y _ h f rfl
  refine ⟨j, h1, h2, h3, ?_⟩
  rcases h4 with ⟨g1, u, v, g2, g3⟩ | ⟨g1, g2⟩
  · refine Or.inr ⟨g1, u, v, g2, ?_⟩
    intro z
    have n1 : (num 1 : ℝ) = 1 := by rw [num_eq]; simp
    rw [n1] at g3
    have := (quad_spec m hm 1 u v one_ne_zero).1 z
    rw [← g3, Complex.ofReal_one, one_mul, one_mul] at this
    exact this
  · exact Or.inl ⟨g1, g2⟩

example : (do
    let bnd ← lowerBound ratMath 20 [1, -3, 3, -1]
    let k ← startK ratMath [1, -3, 3, -1]
    let r ← shiftLoop ratMath bnd k [1, -3, 3, -1] 20 1 (7 / 10) (-(7 / 10))
    pure (r.1.map fun f : Found ℚ => (f.two, f.roots.sr))) = .ok (some (false, 1)) := by decide +kernel

/-- **C134.** The zeros of the fixed shift `x² - 2 bnd x0 x + bnd`, if they are not real, have the modulus `√bnd`... -/
theorem C134_fixed_modulus (bnd x0 : ℝ) (z : ℂ) (hz : z ^ 2 + ((-(2 * (bnd * x0)) : ℝ) : ℂ) * z + (bnd : ℂ) = 0)
    (hi : z.im ≠ 0) : ‖z‖ ^ 2 = bnd ∧ z.re = bnd * x0 := by
  have h1 := congrArg Complex.re hz
  have h2 := congrArg Complex.im hz
  simp [pow_two] at h1 h2
  have h3 : z.re = bnd * x0 := by
    refine mul_right_cancel₀ hi ?_
    linarith
  refine ⟨?_, h3⟩
  rw [Complex.sq_norm, Complex.normSq_apply]
  rw [← h3] at h1
  linarith

/-- **C134 (refuted).** ... so the shift is not, as the comment in the code says, a point with modulus `bnd`: here
`bnd` is `1 / 4`, and the modulus is `1 / 2`. -/
theorem C134_fixed_modulus_false :
    ¬ ∀ (bnd x0 : ℝ) (z : ℂ), 0 < bnd → |x0| ≤ 1 → z ^ 2 + ((-(2 * (bnd * x0)) : ℝ) : ℂ) * z + (bnd : ℂ) = 0 → ‖z‖ = bnd := by
  intro h
  have := h (1 / 4) 0 (Complex.I / 2) (by norm_num) (by norm_num) (by
    rw [div_pow, Complex.I_sq]
    push_cast
    ring)
  rw [norm_div, Complex.norm_I] at this
  norm_num at this

end Verif
