import Verif.Model.Res
import Mathlib.Algebra.Group.Defs
import Mathlib.Data.Nat.Cast.Defs
import Mathlib.Order.Defs.Unbundled

/-
Model of mav_trajectory_generation/src/rpoly/rpoly_ak1.cpp, the Jenkins-Traub root finder.

The numbers are any type with operations and comparisons; no law is assumed. So what is proved without laws
holds for IEEE doubles, with NaN and infinities. The constants and functions of the C++ library are in
`RMath`.

Arrays have 101 entries in the C++ of which a prefix is in use; here an array is the list of the entries in
use, and reading any other entry is undefined behaviour (its contents are left over or never written). Local
variables that are declared without a value are `Option`s: reading one before it is assigned is undefined
behaviour. Coefficients are in decreasing order except where noted.
-/
namespace Verif

variable {K : Type}

/-- Constants and functions from `<cmath>`, `<cfloat>`. -/
structure RMath (K : Type) where
  fabs : K → K
  sqrt : K → K
  /-- `x == 0` -/
  isZero : K → Bool
  /-- `DBL_EPSILON`, `DBL_MIN`, `FLT_MIN`, `FLT_MAX` -/
  eps : K
  dblMin : K
  fltMin : K
  fltMax : K
  /-- `exp((log(a) - log(b)) / n)` -/
  est : K → K → ℕ → K
  /-- `pow(2.0, (int)(log(x) / log(2.0) + 0.5))` -/
  pow2 : K → K
  /-- cosine and sine of 94 degrees, `sqrt(0.5)` -/
  cosr : K
  sinr : K
  sqrtHalf : K

/-- An uninitialised variable is read. -/
def Res.get {α : Type} : Option α → Res α
  | some a => .ok a
  | none => .ub

section
variable [Add K] [Sub K] [Mul K] [Div K] [Neg K] [NatCast K] [LE K] [LT K] [DecidableLE K] [DecidableLT K]

/-- A number written in the code (a decimal fraction is written as the quotient, which rounds to the same
double). -/
def num (n : ℕ) : K := (n : K)

/-! ### Quadratics -/

/-- The two zeros of a quadratic: `sr`, `si`, `lr`, `li`. -/
structure QRoots (K : Type) where
  sr : K
  si : K
  lr : K
  li : K
  deriving DecidableEq, Repr

/-- rpoly_ak1.cpp:907-916, `e` and `d`. -/
def quadDiscr (m : RMath K) (a b c : K) : K × K :=
  if m.fabs b < m.fabs c then
    let e := -(if num 0 ≤ c then a else -a) + b * (b / m.fabs c)
    (e, m.sqrt (m.fabs e) * m.sqrt (m.fabs c))
  else
    let e := -((a / b) * (c / b)) + num 1
    (e, m.sqrt (m.fabs e) * m.fabs b)

/-- rpoly_ak1.cpp:918-933, from `b`, `e` and `d` on. -/
def quadFromDiscr (m : RMath K) (a b c e d : K) : QRoots K :=
  if num 0 ≤ e then
    let lr := (-b + (if num 0 ≤ b then -d else d)) / a
    ⟨if m.isZero lr then num 0 else (c / lr) / a, num 0, lr, num 0⟩
  else
    let r := -(b / a)
    let i := m.fabs (d / a)
    ⟨r, i, r, -i⟩

/-- rpoly_ak1.cpp:885-937, `Quad_ak1`. -/
def quad (m : RMath K) (a b1 c : K) : QRoots K :=
  if m.isZero a then ⟨if m.isZero b1 then num 0 else -(c / b1), num 0, num 0, num 0⟩
  else if m.isZero c then ⟨num 0, num 0, -(b1 / a), num 0⟩
  else
    let b := b1 / num 2
    let r := quadDiscr m a b c
    quadFromDiscr m a b c r.1 r.2

/-- rpoly_ak1.cpp:557-561, the loop of `QuadSD_ak1`: the entries of `q` it writes, and `a`, `b` at the end. -/
def quadSDLoop (u v : K) : List K → K → K → List K × K × K
  | [], a, b => ([], a, b)
  | x :: xs, a, b =>
    let q := -(a * u + b * v) + x
    let r := quadSDLoop u v xs q a
    (q :: r.1, r.2)

/-- rpoly_ak1.cpp:547-564, `QuadSD_ak1`: `q`, `a`, `b`. -/
def quadSD (u v : K) : List K → Res (List K × K × K)
  | p0 :: p1 :: ps =>
    let a := -(p0 * u) + p1
    let r := quadSDLoop u v ps a p0
    .ok (p0 :: a :: r.1, r.2)
  | _ => .ub

/-- Horner's scheme as in rpoly_ak1.cpp:810 and 854: all intermediate values, starting with `x`. -/
def hornerLoop (s : K) : K → List K → List K × K
  | pv, [] => ([], pv)
  | pv, x :: xs =>
    let q := pv * s + x
    let r := hornerLoop s q xs
    (q :: r.1, r.2)

/-- rpoly_ak1.cpp:807-810, 853-854, 871-872: the intermediate values and the last one. -/
def horner (s : K) : List K → Res (List K × K)
  | [] => .ub
  | p0 :: ps =>
    let r := hornerLoop s p0 ps
    .ok (p0 :: r.1, r.2)

/-! ### The K polynomials -/

/-- The scalars computed by `calcSC_ak1` for types 1 and 2 (`two`). -/
structure Scal (K : Type) where
  two : Bool
  a1 : K
  a3 : K
  a7 : K
  f : K
  g : K
  h : K

/-- Results of `calcSC_ak1`; `scal = none` for type 3. (For type 3 the C++ leaves the scalars as they were;
they are not used until the next call.) -/
structure SC (K : Type) where
  qk : List K
  c : K
  d : K
  scal : Option (Scal K)

/-- rpoly_ak1.cpp:579-604, the scalars; `k1 = K[N-1]`, `k2 = K[N-2]`. -/
def calcScal (m : RMath K) (a b u v c d k1 k2 : K) : Option (Scal K) :=
  if m.fabs c ≤ num 10 * m.eps * m.fabs k1 ∧ m.fabs d ≤ num 10 * m.eps * m.fabs k2 then none
  else
    let h := v * b
    if m.fabs c ≤ m.fabs d then
      let e := a / d
      let f := c / d
      let g := u * b
      some ⟨true, -a + f * b, e * (g + a) + h * (b / d), h + (f + u) * a, f, g, h⟩
    else
      let e := a / c
      let f := d / c
      let g := e * u
      some ⟨false, -(a * (d / c)) + b, e * a + (g + h / c) * b, g * d + h * f + a, f, g, h⟩

/-- rpoly_ak1.cpp:566-607, `calcSC_ak1`. -/
def calcSC (m : RMath K) (a b : K) (k : List K) (u v : K) : Res (SC K) := do
  let r ← quadSD u v k
  let k1 ← Res.at' k (k.length - 1)
  let k2 ← Res.at' k (k.length - 2)
  pure ⟨r.1, r.2.1, r.2.2, calcScal m a b u v r.2.1 r.2.2 k1 k2⟩

/-- rpoly_ak1.cpp:628-649, `nextK_ak1` for types 1 and 2. -/
def nextKScaled (m : RMath K) (n : ℕ) (s : Scal K) (a b : K) (qk qp : List K) : Res (List K) := do
  let temp := if s.two then a else b
  let q0 ← Res.at' qp 0
  if num 10 * m.eps * m.fabs temp < m.fabs s.a1 then do
    let a7 := s.a7 / s.a1
    let a3 := s.a3 / s.a1
    let q1 ← Res.at' qp 1
    let t ← (List.range (n - 2)).mapM fun i => do
      let x ← Res.at' qp (i + 1)
      let y ← Res.at' qk i
      let z ← Res.at' qp (i + 2)
      pure (-(a7 * x) + a3 * y + z)
    pure (q0 :: (-(a7 * q0) + q1) :: t)
  else do
    let t ← (List.range (n - 2)).mapM fun i => do
      let x ← Res.at' qp (i + 1)
      let y ← Res.at' qk i
      pure (-(s.a7 * x) + s.a3 * y)
    pure (num 0 :: (-s.a7 * q0) :: t)

/-- rpoly_ak1.cpp:609-649, `nextK_ak1`: the new `K`, with `n` entries. -/
def nextK (m : RMath K) (n : ℕ) (sc : SC K) (a b : K) (qp : List K) : Res (List K) :=
  match sc.scal with
  | none => do
    let t ← (List.range (n - 2)).mapM fun i => Res.at' sc.qk i
    pure (num 0 :: num 0 :: t)
  | some s => nextKScaled m n s a b sc.qk qp

/-- rpoly_ak1.cpp:651-689, `newest_ak1` for types 1 and 2. -/
def newestScaled (m : RMath K) (s : Scal K) (a b c d u v : K) (k p : List K) : Res (K × K) := do
  let n := p.length - 1
  let a4 := if s.two then (a + s.g) * s.f + s.h else a + u * b + s.h * s.f
  let a5 := if s.two then (s.f + u) * c + v * d else c + (u + v * s.f) * d
  let k1 ← Res.at' k (n - 1)
  let pn ← Res.at' p n
  let k2 ← Res.at' k (n - 2)
  let pn1 ← Res.at' p (n - 1)
  let b1 := -k1 / pn
  let b2 := -(k2 + b1 * pn1) / pn
  let c1 := v * b2 * s.a1
  let c2 := b1 * s.a7
  let c3 := b1 * b1 * s.a3
  let c4 := -(c2 + c3) + c1
  let temp := -c4 + a5 + b1 * a4
  if m.isZero temp then pure (num 0, num 0)
  else pure (-((u * (c3 + c2) + v * (b1 * s.a1 + b2 * s.a7)) / temp) + u, v * (num 1 + c4 / temp))

/-- rpoly_ak1.cpp:651-689, `newest_ak1`: `uu`, `vv`. -/
def newest (m : RMath K) (sc : SC K) (a b u v : K) (k p : List K) : Res (K × K) :=
  match sc.scal with
  | none => .ok (num 0, num 0)
  | some s => newestScaled m s a b sc.c sc.d u v k p

/-! ### Variable shift iterations -/

/-- What an iteration found: the number of zeros is 2 if `two`, otherwise 1; the zeros `(szr, szi)` and
`(lzr, lzi)`; the quotient `qp`. -/
structure Found (K : Type) where
  two : Bool
  roots : QRoots K
  qp : List K

/-- Local variables of `QuadIT_ak1` at the head of its loop. -/
structure QuadState (K : Type) where
  u : K
  v : K
  k : List K
  relstp : Option K
  omp : Option K
  j : ℕ
  tried : Bool

/-- rpoly_ak1.cpp:720-734, `mp` and the error bound `ee`. -/
def quadError (m : RMath K) (z : QRoots K) (v a b : K) (qp : List K) : Res (K × K) := do
  let mp := m.fabs (-(z.sr * b) + a) + m.fabs (z.si * b)
  let zm := m.sqrt (m.fabs v)
  let q0 ← Res.at' qp 0
  let t := -(z.sr * b)
  let ee := ((qp.take (qp.length - 1)).drop 1).foldl (fun ee x => ee * zm + m.fabs x) (num 2 * m.fabs q0)
  let ee := ee * zm + m.fabs (a + t)
  pure (mp, (num 9 * ee + num 2 * m.fabs t - num 7 * (m.fabs (a + t) + zm * m.fabs b)) * m.eps)

/-- `calcSC_ak1` followed by `nextK_ak1`. -/
def kStep (m : RMath K) (a b u v : K) (qp k : List K) : Res (List K) := do
  let sc ← calcSC m a b k u v
  nextK m k.length sc a b qp

/-- `n` times. -/
def kSteps (m : RMath K) (a b u v : K) (qp : List K) : ℕ → List K → Res (List K)
  | 0, k => .ok k
  | n + 1, k => do
    let k' ← kStep m a b u v qp k
    kSteps m a b u v qp n k'

/-- rpoly_ak1.cpp:748-769, the steps taken near a cluster. The arguments after `st` are `mp` and the results
of the division; the results are the new state (with the new `j`) and division. -/
def quadCluster (m : RMath K) (p : List K) (st : QuadState K) (mp : K) (r : List K × K × K) :
    Res (QuadState K × List K × K × K) :=
  if st.j < 2 then .ok (st, r)
  else do
    let relstp ← Res.get st.relstp
    let omp ← Res.get st.omp
    if relstp ≤ num 1 / num 100 ∧ omp ≤ mp ∧ st.tried = false then do
      let rs := if relstp < m.eps then m.sqrt m.eps else m.sqrt relstp
      let u := st.u - st.u * rs
      let v := st.v + st.v * rs
      let r' ← quadSD u v p
      let k ← kSteps m r'.2.1 r'.2.2 u v r'.1 5 st.k
      pure ({ st with u := u, v := v, k := k, tried := true, j := 0 }, r')
    else pure (st, r)

/-- rpoly_ak1.cpp:773-788, the new `K`, `u`, `v`; `none` when `vi` is zero, and the loop ends. -/
def quadAdvance (m : RMath K) (p : List K) (st : QuadState K) (mp : K) (r : List K × K × K) :
    Res (List K × Option (QuadState K)) := do
  let k ← kStep m r.2.1 r.2.2 st.u st.v r.1 st.k
  let sc ← calcSC m r.2.1 r.2.2 k st.u st.v
  let w ← newest m sc r.2.1 r.2.2 st.u st.v k p
  if m.isZero w.2 then pure (k, none)
  else pure (k, some { st with u := w.1, v := w.2, k := k, omp := some mp,
                               relstp := some (m.fabs ((-st.v + w.2) / w.2)) })

/-- rpoly_ak1.cpp:709-788, the loop of `QuadIT_ak1`: the zeros found, or the last `K`. -/
def quadITLoop (m : RMath K) (p : List K) : ℕ → QuadState K → Res (Found K ⊕ List K)
  | 0, _ => .hang
  | fuel + 1, st => do
    let z := quad m (num 1) st.u st.v
    if num 1 / num 100 * m.fabs z.lr < m.fabs (m.fabs z.sr - m.fabs z.lr) then pure (.inr st.k)
    else do
      let r ← quadSD st.u st.v p
      let me ← quadError m z st.v r.2.1 r.2.2 r.1
      if me.1 ≤ num 20 * me.2 then pure (.inl ⟨true, z, r.1⟩)
      else if 20 < st.j + 1 then pure (.inr st.k)
      else do
        let c ← quadCluster m p { st with j := st.j + 1 } me.1 r
        let n ← quadAdvance m p c.1 me.1 c.2
        match n.2 with
        | none => pure (.inr n.1)
        | some st' => quadITLoop m p fuel st'

/-- rpoly_ak1.cpp:691-792, `QuadIT_ak1`, at most 60 rounds (see `quadIT_returns`). -/
def quadIT (m : RMath K) (p k : List K) (uu vv : K) : Res (Found K ⊕ List K) :=
  quadITLoop m p 60 ⟨uu, vv, k, none, none, 0, false⟩

/-- Local variables of `RealIT_ak1` at the head of its loop. -/
structure RealState (K : Type) where
  s : K
  k : List K
  t : Option K
  omp : Option K
  j : ℕ

/-- A failed real iteration: `iFlag`, `sss`, `K`. -/
structure RealFail (K : Type) where
  iFlag : Bool
  sss : K
  k : List K

/-- rpoly_ak1.cpp:853-880, the next `K`, `t` and `s`. -/
def realAdvance (m : RMath K) (st : RealState K) (mp pv : K) (qp : List K) : Res (RealState K) := do
  let n := st.k.length
  let r ← horner st.s st.k
  let kl ← Res.at' st.k (n - 1)
  let q0 ← Res.at' qp 0
  let k' ← if m.fabs kl * num 10 * m.eps < m.fabs r.2 then do
      let t := -(pv / r.2)
      let l ← (List.range (n - 1)).mapM fun i => do
        let x ← Res.at' r.1 i
        let y ← Res.at' qp (i + 1)
        pure (t * x + y)
      pure (q0 :: l)
    else do
      let l ← (List.range (n - 1)).mapM fun i => Res.at' r.1 i
      pure (num 0 :: l)
  let r' ← horner st.s k'
  let kl' ← Res.at' k' (n - 1)
  let t := if m.fabs kl' * num 10 * m.eps < m.fabs r'.2 then -(pv / r'.2) else num 0
  pure ⟨st.s + t, k', some t, some mp, st.j⟩

/-- rpoly_ak1.cpp:836-845: does the iteration stop because of a cluster near the real axis? -/
def realCluster (m : RMath K) (st : RealState K) (mp : K) : Res Bool :=
  if st.j < 2 then .ok false
  else do
    let t ← Res.get st.t
    let omp ← Res.get st.omp
    pure (decide (m.fabs t ≤ num 1 / num 1000 * m.fabs (-t + st.s) ∧ omp < mp))

/-- rpoly_ak1.cpp:817-818, the error bound `ee`. -/
def realError (m : RMath K) (s : K) : List K → K
  | [] => num 0
  | q0 :: qs => qs.foldl (fun ee x => ee * m.fabs s + m.fabs x) (num 1 / num 2 * m.fabs q0)

/-- rpoly_ak1.cpp:806-881, the loop of `RealIT_ak1`; `sss` is the starting iterate. -/
def realITLoop (m : RMath K) (p : List K) (sss : K) : ℕ → RealState K → Res (Found K ⊕ RealFail K)
  | 0, _ => .hang
  | fuel + 1, st => do
    let r ← horner st.s p
    let mp := m.fabs r.2
    if mp ≤ num 20 * m.eps * (num 2 * realError m st.s r.1 - mp) then
      pure (.inl ⟨false, ⟨st.s, num 0, num 0, num 0⟩, r.1⟩)
    else if 10 < st.j + 1 then pure (.inr ⟨false, sss, st.k⟩)
    else do
      let st := { st with j := st.j + 1 }
      let c ← realCluster m st mp
      if c then pure (.inr ⟨true, st.s, st.k⟩)
      else do
        let st' ← realAdvance m st mp r.2 r.1
        realITLoop m p sss fuel st'

/-- rpoly_ak1.cpp:794-883, `RealIT_ak1`, at most 12 rounds (see `realIT_returns`). -/
def realIT (m : RMath K) (p k : List K) (sss : K) : Res (Found K ⊕ RealFail K) :=
  realITLoop m p sss 12 ⟨sss, k, none, none, 0⟩

/-! ### Fixed shift -/

/-- Local variables of the inner loop of `Fxshfr_ak1`, 454-527. -/
structure Inner (K : Type) where
  fflag : Bool
  stry : Bool
  vtry : Bool
  k : List K
  s : K
  ui : K
  vi : K
  betav : K
  betas : K

/-- rpoly_ak1.cpp:458-490, the first half of the inner loop: the quadratic iteration unless the real one goes
first. The second result tells whether the real iteration follows (`iFlag`). -/
def innerQuad (m : RMath K) (p svk : List K) (spass vpass tless : Bool) (st : Inner K) :
    Res (Found K ⊕ (Inner K × Bool)) :=
  if st.fflag ∧ spass ∧ (vpass = false ∨ tless) then .ok (.inr ({ st with fflag := false }, true))
  else do
    let r ← quadIT m p st.k st.ui st.vi
    match r with
    | .inl f => pure (.inl f)
    | .inr k =>
      let st' := { st with fflag := false, k := k, vtry := true, betav := st.betav * (num 1 / num 4) }
      if st.stry ∨ spass = false then pure (.inr (st', false))
      else pure (.inr ({ st' with k := svk }, true))

/-- rpoly_ak1.cpp:492-521, the second half: the real iteration and the restoring of `K`. -/
def innerReal (m : RMath K) (p svk : List K) (st : Inner K) (iFlag : Bool) : Res (Found K ⊕ Inner K) :=
  if iFlag then do
    let r ← realIT m p st.k st.s
    match r with
    | .inl f => pure (.inl f)
    | .inr e =>
      let st' := { st with stry := true, betas := st.betas * (num 1 / num 4), s := e.sss }
      if e.iFlag then
        pure (.inr { st' with k := e.k, ui := -(e.sss + e.sss), vi := e.sss * e.sss })
      else pure (.inr { st' with k := svk })
  else .ok (.inr { st with k := svk })

/-- rpoly_ak1.cpp:454-526, the inner loop (`continue` goes to the condition). -/
def innerLoop (m : RMath K) (p svk : List K) (spass vpass tless : Bool) : ℕ → Inner K →
    Res (Found K ⊕ Inner K)
  | 0, _ => .hang
  | fuel + 1, st => do
    let r ← innerQuad m p svk spass vpass tless st
    match r with
    | .inl f => pure (.inl f)
    | .inr x => do
      let r' ← innerReal m p svk x.1 x.2
      match r' with
      | .inl f => pure (.inl f)
      | .inr st' =>
        if vpass ∧ st'.vtry = false then innerLoop m p svk spass vpass tless fuel st' else pure (.inr st')

/-- Local variables of `Fxshfr_ak1` at the head of its outer loop. -/
structure Fx (K : Type) where
  k : List K
  sc : SC K
  div : List K × K × K
  ovv : K
  oss : K
  otv : Option K
  ots : Option K
  betav : K
  betas : K
  first : Bool

/-- rpoly_ak1.cpp:424-448: the convergence measures `tv`, `ts`, and (unless they are skipped) `tvv`, `tss`. -/
def fxMeasures (m : RMath K) (st : Fx K) (type3 : Bool) (vv ss : K) : Res (K × K × Option (K × K)) :=
  if st.first ∨ type3 then .ok (num 1, num 1, none)
  else do
    let tv := if m.isZero vv then num 1 else m.fabs ((vv - st.ovv) / vv)
    let ts := if m.isZero ss then num 1 else m.fabs ((ss - st.oss) / ss)
    let otv ← Res.get st.otv
    let ots ← Res.get st.ots
    pure (tv, ts, some (if tv < otv then tv * otv else num 1, if ts < ots then ts * ots else num 1))

/-- rpoly_ak1.cpp:446-535, the attempts at a variable shift iteration, if a sequence has converged. -/
def fxTry (m : RMath K) (p : List K) (u v : K) (st : Fx K) (ss ui vi : K) (x : Option (K × K)) :
    Res (Found K ⊕ Fx K) :=
  match x with
  | none => .ok (.inr st)
  | some (tvv, tss) =>
    let vpass := decide (tvv < st.betav)
    let spass := decide (tss < st.betas)
    if spass ∨ vpass then do
      let r ← innerLoop m p st.k spass vpass (decide (tss < tvv)) 3
        ⟨true, false, false, st.k, ss, ui, vi, st.betav, st.betas⟩
      match r with
      | .inl f => pure (.inl f)
      | .inr i => do
        let d ← quadSD u v p
        let sc ← calcSC m d.2.1 d.2.2 i.k u v
        pure (.inr { st with k := i.k, betav := i.betav, betas := i.betas, div := d, sc := sc })
    else .ok (.inr st)

/-- rpoly_ak1.cpp:420-541, one round of the outer loop. -/
def fxRound (m : RMath K) (p : List K) (u v : K) (st : Fx K) : Res (Found K ⊕ Fx K) := do
  let n := p.length - 1
  let k ← nextK m n st.sc st.div.2.1 st.div.2.2 st.div.1
  let sc ← calcSC m st.div.2.1 st.div.2.2 k u v
  let w ← newest m sc st.div.2.1 st.div.2.2 u v k p
  let kl ← Res.at' k (n - 1)
  let pn ← Res.at' p n
  let ss := if m.isZero kl then num 0 else -(pn / kl)
  let st := { st with k := k, sc := sc }
  let x ← fxMeasures m st sc.scal.isNone w.2 ss
  let r ← fxTry m p u v st ss w.1 w.2 x.2.2
  match r with
  | .inl f => pure (.inl f)
  | .inr st' =>
    pure (.inr { st' with ovv := w.2, oss := ss, otv := some x.1, ots := some x.2.1, first := false })

/-- rpoly_ak1.cpp:418-541, the outer loop with the given number of rounds left. -/
def fxLoop (m : RMath K) (p : List K) (u v : K) : ℕ → Fx K → Res (Option (Found K))
  | 0, _ => .ok none
  | l + 1, st => do
    let r ← fxRound m p u v st
    match r with
    | .inl f => pure (some f)
    | .inr st' => fxLoop m p u v l st'

/-- rpoly_ak1.cpp:391-545, `Fxshfr_ak1`: `none` when no zero was found. -/
def fxshfr (m : RMath K) (l2 : ℕ) (sr bnd : K) (k p : List K) : Res (Option (Found K)) := do
  let u := -(num 2 * sr)
  let d ← quadSD u bnd p
  let sc ← calcSC m d.2.1 d.2.2 k u bnd
  fxLoop m p u bnd l2 ⟨k, sc, d, bnd, sr, none, none, num 1 / num 4, num 1 / num 4, true⟩

/-! ### The driver -/

/-- rpoly_ak1.cpp:209-243: scaling by a power of two (a factor 1 is applied as well here). -/
def scaleCoeffs (m : RMath K) (p : List K) : List K :=
  let mm := p.foldl (fun (mm : K × K) c =>
    let x := m.fabs c
    (if mm.1 < x then x else mm.1, if m.isZero x = false ∧ x < mm.2 then x else mm.2)) (num 0, m.fltMax)
  let sc := (m.fltMin / m.eps) / mm.2
  if (sc ≤ num 1 ∧ num 10 ≤ mm.1) ∨ (num 1 < sc ∧ mm.1 ≤ m.fltMax / sc) then
    let factor := m.pow2 (if m.isZero sc then m.fltMin else sc)
    p.map fun c => c * factor
  else p

/-- rpoly_ak1.cpp:247-248: the moduli of the coefficients, the last one negated. -/
def moduli (m : RMath K) (p : List K) : List K :=
  (p.map m.fabs).modify (p.length - 1) fun x => -x

/-- The value of a polynomial, as in 269-270. -/
def polyValue (x : K) : List K → K
  | [] => num 0
  | c :: cs => cs.foldl (fun ff c => ff * x + c) c

/-- rpoly_ak1.cpp:265-271: the interval is chopped until the value is not positive. -/
def chop (pt : List K) : ℕ → K → Res K
  | 0, _ => .hang
  | fuel + 1, x =>
    let xm := num 1 / num 10 * x
    if num 0 < polyValue xm pt then chop pt fuel xm else .ok x

/-- rpoly_ak1.cpp:278-284: value and derivative at `x`. -/
def valueDeriv (x : K) : List K → K × K
  | [] => (num 0, num 0)
  | c :: cs =>
    let r := cs.dropLast.foldl (fun (r : K × K) c =>
      let ff := x * r.1 + c
      (ff, x * r.2 + ff)) (c, c)
    (x * r.1 + (cs.getLastD (num 0)), r.2)

/-- rpoly_ak1.cpp:277-286: Newton's method. -/
def newtonBound (m : RMath K) (pt : List K) : ℕ → K → K → Res K
  | 0, _, _ => .hang
  | fuel + 1, x, dx =>
    if num 1 / num 200 < m.fabs (dx / x) then
      let r := valueDeriv x pt
      let dx := r.1 / r.2
      newtonBound m pt fuel (x - dx) dx
    else .ok x

/-- rpoly_ak1.cpp:245-288, the lower bound on the moduli of the zeros. -/
def lowerBound (m : RMath K) (fuel : ℕ) (p : List K) : Res K := do
  let n := p.length - 1
  let pt := moduli m p
  let p0 ← Res.at' pt 0
  let pn ← Res.at' pt n
  let pn1 ← Res.at' pt (n - 1)
  let x := m.est (-pn) p0 n
  let x := if m.isZero pn1 then x else
    let xm := -pn / pn1
    if xm < x then xm else x
  let x ← chop pt fuel x
  newtonBound m pt fuel x x

/-- rpoly_ak1.cpp:293-294, the derivative as the first `K`. -/
def initialK (p : List K) : List K :=
  let n := p.length - 1
  match p.dropLast with
  | [] => []
  | p0 :: ps => p0 :: ps.mapIdx fun i c => num (n - (i + 1)) * c / num n

/-- rpoly_ak1.cpp:300-322, one step without shift: the new `K` and `zerok`. -/
def noShiftStep (m : RMath K) (p k : List K) (zerok : Bool) : Res (List K × Bool) := do
  let n := p.length - 1
  let aa ← Res.at' p n
  let bb ← Res.at' p (n - 1)
  let cc ← Res.at' k (n - 1)
  let l ← (List.range (n - 1)).mapM fun i => Res.at' k i
  if zerok then do
    let k' := num 0 :: l
    let kl ← Res.at' k' (n - 1)
    pure (k', m.isZero kl)
  else do
    let t := -aa / cc
    let p0 ← Res.at' p 0
    let l' ← (List.range (n - 1)).mapM fun i => do
      let x ← Res.at' k i
      let y ← Res.at' p (i + 1)
      pure (t * x + y)
    let k' := p0 :: l'
    let kl ← Res.at' k' (n - 1)
    pure (k', decide (m.fabs kl ≤ m.fabs bb * m.eps * num 10))

/-- The given number of steps without shift. -/
def noShift (m : RMath K) (p : List K) : ℕ → List K → Bool → Res (List K)
  | 0, k, _ => .ok k
  | i + 1, k, zerok => do
    let r ← noShiftStep m p k zerok
    noShift m p i r.1 r.2

/-- rpoly_ak1.cpp:290-325, the `K` before the second stage. -/
def startK (m : RMath K) (p : List K) : Res (List K) := do
  let k := initialK p
  let kl ← Res.at' k (p.length - 2)
  noShift m p 5 k (m.isZero kl)

/-- rpoly_ak1.cpp:332-372, the loop over the shifts: the first argument is the number of rounds left, `jj` the
number of this round. The results: what was found, and `xx`, `yy`. -/
def shiftLoop (m : RMath K) (bnd : K) (k p : List K) : ℕ → ℕ → K → K → Res (Option (Found K) × K × K)
  | 0, _, xx, yy => .ok (none, xx, yy)
  | left + 1, jj, xx, yy => do
    let xxx := -(m.sinr * yy) + m.cosr * xx
    let yy := m.sinr * xx + m.cosr * yy
    let sr := bnd * xxx
    let r ← fxshfr m (20 * jj) sr bnd k p
    match r with
    | some f => pure (some f, xxx, yy)
    | none => shiftLoop m bnd k p left (jj + 1) xxx yy

/-- The arrays `zeror` and `zeroi`: 100 entries, `none` before they are written. -/
abbrev Slots (K : Type) := List (Option (K × K))

/-- Writing an entry of `zeror` and of `zeroi`. -/
def Slots.put (z : Slots K) (i : ℤ) (x : K × K) : Res (Slots K) :=
  if 0 ≤ i ∧ i < z.length then .ok (z.set i.toNat (some x)) else .ub

/-- rpoly_ak1.cpp:192-203: the last zero or pair of zeros. -/
def finalZeros (m : RMath K) (degree : ℕ) (p : List K) (z : Slots K) : Res (Slots K) := do
  let p0 ← Res.at' p 0
  let p1 ← Res.at' p 1
  if p.length = 2 then z.put (degree - 1) (-(p1 / p0), num 0)
  else do
    let p2 ← Res.at' p 2
    let r := quad m p0 p1 p2
    let z ← z.put (degree - 2) (r.sr, r.si)
    z.put (degree - 1) (r.lr, r.li)

/-- rpoly_ak1.cpp:350-366: the zeros found are stored. -/
def storeFound (degree : ℕ) (n : ℕ) (f : Found K) (z : Slots K) : Res (Slots K) := do
  let z ← z.put (degree - n) (f.roots.sr, f.roots.si)
  if f.two then z.put (degree - n + 1) (f.roots.lr, f.roots.li) else pure z

/-- rpoly_ak1.cpp:189-384, the main loop; `p` holds the `N + 1` coefficients left. The first argument is the
number of rounds left (at least one zero is found in every round), `fuel` bounds the loops of `lowerBound`.
The results: `*Degree` and the zeros. -/
def mainLoop (m : RMath K) (fuel degree : ℕ) : ℕ → List K → K → K → Slots K → Res (ℕ × Slots K)
  | 0, _, _, _, _ => .hang
  | rounds + 1, p, xx, yy, z =>
    if p.length - 1 < 1 then .ok (degree, z)
    else if p.length - 1 ≤ 2 then do
      let z ← finalZeros m degree p z
      pure (degree, z)
    else do
      let p := scaleCoeffs m p
      let bnd ← lowerBound m fuel p
      let k ← startK m p
      let r ← shiftLoop m bnd k p 20 1 xx yy
      match r.1 with
      | none => pure (degree - (p.length - 1), z)
      | some f => do
        let z ← storeFound degree (p.length - 1) f z
        mainLoop m fuel degree rounds (f.qp.take (p.length - (if f.two then 2 else 1))) r.2.1 r.2.2 z

/-- rpoly_ak1.cpp:177-183: zeros at the origin are removed; `n` counts the coefficients after the first
one, `j` the zeros removed so far. The results are the coefficients left and the zeros. -/
def removeZeros (m : RMath K) (op : List K) : ℕ → ℕ → Slots K → Res (List K × Slots K)
  | n, j, z => do
    let c ← Res.at' op n
    if m.isZero c then
      match n with
      | 0 => .ub
      | n + 1 => do
        let z ← z.put j (num 0, num 0)
        removeZeros m op n (j + 1) z
    else pure (op.take (n + 1), z)

/-- rpoly_ak1.cpp:153-389, `rpoly_ak1`: `*Degree` and the zeros. -/
def rpoly (m : RMath K) (fuel : ℕ) (op : List K) (degree : ℕ) (z : Slots K) : Res (ℤ × Slots K) :=
  if 100 < degree then .ok (-1, z)
  else do
    let c ← Res.at' op 0
    if m.isZero c then pure (0, z)
    else do
      let r ← removeZeros m op degree 0 z
      let x ← mainLoop m fuel degree (degree + 1) r.1 m.sqrtHalf (-m.sqrtHalf) r.2
      pure ((x.1 : ℤ), x.2)

/-- rpoly_ak1.cpp:57-68, `findLastNonZeroCoeff`; `none` for -1. -/
def findLastNonZeroCoeff (m : RMath K) (c : List K) : Option ℕ :=
  (List.range c.length).reverse.find? fun i => (c[i]?).any fun x => decide (m.dblMin ≤ m.fabs x)

/-- rpoly_ak1.cpp:70-117, `findRootsJenkinsTraub`: the returned flag, and the new contents of `roots` (`none`
when they are left as they were). The coefficients are in increasing order. Three arrays for 101, 100 and 100
numbers are allocated (92-94). -/
def findRoots (m : RMath K) (fuel : ℕ) (coeffs : List K) : Res (Bool × Option (List (K × K))) :=
  match findLastNonZeroCoeff m coeffs with
  | none => .ok (true, some [])
  | some 0 => .ok (true, some [])
  | some l =>
    let op := (coeffs.take (l + 1)).reverse
    if 101 < op.length then .ub
    else do
      let r ← rpoly m fuel op (op.length - 1) (List.replicate 100 none)
      if 0 < r.1 then do
        let zs ← (List.range r.1.toNat).mapM fun i => do
          let x ← Res.at' r.2 i
          Res.get x
        pure (true, some zs)
      else pure (false, none)

end
end Verif
