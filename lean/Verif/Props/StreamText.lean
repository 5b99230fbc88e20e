import Verif.Model.Feasibility
import Verif.Proofs.StreamText

/-! C142: what is printed of vertices and segments. -/

namespace Verif

open Spec

variable {K : Type}

section
variable [Zero K] [One K] [Mul K] [NatCast K]

/-- **C142.** Two segments that print the same have, as far as the numbers written tell, the same duration, the same
dimension, and the same coefficients in each dimension. The same for lists of segments: they have the same length. -/
theorem C142_segments {num : K → List Char} (hn : NumberText num) :
    (∀ (s s' : Segment K) (t : List Char), segmentText num s = .ok t → segmentText num s' = .ok t →
      writtenSegment num s = writtenSegment num s') ∧
    ∀ (ss ss' : List (Segment K)) (t : List Char), segmentsText num ss = .ok t → segmentsText num ss' = .ok t →
      ss.map (writtenSegment num) = ss'.map (writtenSegment num) := by
  constructor
  · intro s s' t h h'
    have e := (printSegment_eq h).1.symm.trans (printSegment_eq h').1
    exact writtenSegment_of_lines hn h h'
      (linesText_inj (segmentLines_newline hn s 0) (segmentLines_newline hn s' 0) e)
  · intro ss ss' t h h'
    have e := (segmentsText_eq h).1.symm.trans (segmentsText_eq h').1
    have hnl : ∀ ws : List (Segment K), ∀ l ∈ (ws.flatMap fun s => segmentLines num s 0 ++ [[]]), '\n' ∉ l := by
      intro ws l hl
      rw [List.mem_flatMap] at hl
      obtain ⟨s, -, hl⟩ := hl
      rw [List.mem_append, List.mem_singleton] at hl
      rcases hl with hl | rfl
      · exact segmentLines_newline hn s 0 l hl
      · simp
    have e2 := segmentsLines_inj hn (linesText_inj (hnl ss) (hnl ss') e)
    have r1 := (segmentsText_eq h).2
    have r2 := (segmentsText_eq h').2
    clear h h' e
    induction ss generalizing ss' with
    | nil =>
      cases ss' with
      | nil => rfl
      | cons s' ss' => cases e2
    | cons s ss ih =>
      cases ss' with
      | nil => cases e2
      | cons s' ss' =>
        rw [List.map_cons, List.map_cons, List.cons.injEq] at e2
        obtain ⟨t1, h1⟩ := r1 s (by simp)
        obtain ⟨t2, h2⟩ := r2 s' (by simp)
        rw [List.map_cons, List.map_cons, writtenSegment_of_lines hn h1 h2 e2.1,
          ih ss' e2.2 (fun x hx => r1 x (by simp [hx])) (fun x hx => r2 x (by simp [hx]))]

/-- **C142.** `printSegment` of a derivative: what is printed tells the duration, the dimension, the coefficients of the
derivative in each dimension, and which derivative it is, if that is at most the snap. -/
theorem C142_derivative {num : K → List Char} (hn : NumberText num) {s s' : Segment K} {d d' : ℤ} {t : List Char}
    (h : printSegment num s d = .ok t) (h' : printSegment num s' d' = .ok t) :
    num s.time = num s'.time ∧ s.D = s'.D ∧ (d ≤ 4 → d' ≤ 4 → d = d') ∧
    ∀ (i : ℕ) (p p' : Poly K) (c c' : List K), s.polys[i]? = some p → s'.polys[i]? = some p' →
      p.getCoefficients d = .ok c → p'.getCoefficients d' = .ok c' → c.map num = c'.map num := by
  obtain ⟨e1, f1⟩ := printSegment_eq h
  obtain ⟨e2, f2⟩ := printSegment_eq h'
  obtain ⟨a1, a2, a3, a4⟩ := segmentLines_inj hn
    (linesText_inj (segmentLines_newline hn s d) (segmentLines_newline hn s' d') (e1.symm.trans e2))
  have hpos : ∀ {s : Segment K} {d : ℤ}, printSegment num s d = .ok t → 0 ≤ d := by
    intro s d h
    unfold printSegment at h
    rw [Res.bind_eq_ok] at h
    obtain ⟨_, h0, -⟩ := h
    exact (Res.check_eq_ok.mp h0).1
  refine ⟨a1, a3, fun g g' => nameOf_inj a2 ⟨hpos h, g⟩ ⟨hpos h', g'⟩, ?_⟩
  intro i p p' c c' hp hp' hc hc'
  have hi : i < s.D := (List.getElem?_eq_some_iff.mp hp).1
  obtain ⟨q, q1, q2⟩ := f1 i hi
  obtain ⟨q', q1', q2'⟩ := f2 i (by rw [← a3]; exact hi)
  rw [hp, Option.some.injEq] at q1
  rw [hp', Option.some.injEq] at q1'
  subst q1
  subst q1'
  rw [hc, Res.ok.injEq] at q2
  rw [hc', Res.ok.injEq] at q2'
  rw [q2, q2']
  exact a4 i hi

/-- **C142.** A segment whose polynomials have its number of coefficients can be printed exactly for the derivatives
below this number; for other derivatives the check fails. -/
theorem C142_returns (num : K → List Char) {s : Segment K} (hs : ∀ p ∈ s.polys, p.N = s.N) (hN : s.N ≤ 22) (d : ℤ) :
    (0 ≤ d ∧ d < s.N → ∃ t, printSegment num s d = .ok t) ∧
    (¬ (0 ≤ d ∧ d < s.N) → printSegment num s d = .abort) := by
  constructor
  · intro hd
    have hall : ∀ i ∈ List.range s.D, ∃ t, dimensionText num s d i = .ok t := by
      intro i hi
      have hi' : i < s.polys.length := List.mem_range.mp hi
      unfold dimensionText
      rw [Res.at'_eq_ok.mpr (List.getElem?_eq_getElem hi'), Res.ok_bind]
      have hp := hs _ (List.getElem_mem hi')
      obtain ⟨c, hc⟩ : ∃ c, s.polys[i].getCoefficients d = .ok c := by
        unfold Poly.getCoefficients
        rw [Res.check_of (by rw [hp]; exact hd.2.le), Res.ok_bind]
        by_cases h0 : d = 0
        · rw [if_pos h0]
          exact ⟨_, rfl⟩
        · rw [if_neg h0, if_neg (by
            unfold kMaxConvolutionSize
            rw [hp]
            have := hd.1
            have := hd.2
            push Not
            refine ⟨by omega, by omega, by omega⟩)]
          exact ⟨_, rfl⟩
      rw [hc, Res.ok_bind]
      exact ⟨_, rfl⟩
    have key : ∀ l : List ℕ, (∀ i ∈ l, ∃ t, dimensionText num s d i = .ok t) →
        ∃ ts, l.mapM (dimensionText num s d) = .ok ts := by
      intro l
      induction l with
      | nil => exact fun _ => ⟨[], rfl⟩
      | cons i l ih =>
        intro hl
        obtain ⟨t, ht⟩ := hl i (by simp)
        obtain ⟨ts, hts⟩ := ih fun x hx => hl x (by simp [hx])
        refine ⟨t :: ts, ?_⟩
        rw [List.mapM_cons, ht, Res.ok_bind, hts]
        rfl
    obtain ⟨ts, hts⟩ := key _ hall
    obtain ⟨n, hname⟩ := name_returns d
    unfold printSegment
    rw [Res.check_of hd, Res.ok_bind, hname, Res.ok_bind, hts, Res.ok_bind]
    exact ⟨_, rfl⟩
  · intro hd
    unfold printSegment Res.check
    rw [if_neg hd]
    rfl

end

/-- **C142** (for derivatives above the snap it is false: `C142_invalid_false`). Every vertex can be printed. Two vertices
that print the same prescribe the same derivatives, if all of these have names, with the same values as far as the
numbers written tell. The same for lists of vertices: they have the same length. -/
theorem C142_vertices_partial {num : K → List Char} (hn : NumberText num) :
    (∀ v : Vertex K, ∃ t, vertexText num v = .ok t) ∧
    (∀ (v v' : Vertex K) (t : List Char), AllNamed v → AllNamed v' → vertexText num v = .ok t → vertexText num v' = .ok t →
      writtenVertex num v = writtenVertex num v') ∧
    ∀ (vs vs' : List (Vertex K)) (t : List Char), (∀ v ∈ vs, AllNamed v) → (∀ v ∈ vs', AllNamed v) →
      verticesText num vs = .ok t → verticesText num vs' = .ok t →
      vs.map (writtenVertex num) = vs'.map (writtenVertex num) := by
  have hone : ∀ {l l' : List (ℤ × List K)}, (∀ c ∈ l, 0 ≤ c.1 ∧ c.1 ≤ 4) → (∀ c ∈ l', 0 ≤ c.1 ∧ c.1 ≤ 4) →
      l.map (fun c => (nameOf c.1, c.2.map num)) = l'.map (fun c => (nameOf c.1, c.2.map num)) →
      l.map (fun c => (c.1, c.2.map num)) = l'.map (fun c => (c.1, c.2.map num)) := by
    intro l
    induction l with
    | nil =>
      intro l' _ _ he
      cases l' with
      | nil => rfl
      | cons c l' => cases he
    | cons c l ih =>
      intro l' h h' he
      cases l' with
      | nil => cases he
      | cons c' l' =>
        rw [List.map_cons, List.map_cons, List.cons.injEq, Prod.mk.injEq] at he
        rw [List.map_cons, List.map_cons, nameOf_inj he.1.1 (h c (by simp)) (h' c' (by simp)), he.1.2,
          ih (fun x hx => h x (by simp [hx])) (fun x hx => h' x (by simp [hx])) he.2]
  have hline : ∀ v v' : Vertex K, AllNamed v → AllNamed v' → vertexLines num v = vertexLines num v' →
      writtenVertex num v = writtenVertex num v' :=
    fun v v' hv hv' he => hone hv hv' (vertexLines_inj hn he)
  refine ⟨fun v => ⟨_, vertexText_eq num v⟩, ?_, ?_⟩
  · intro v v' t hv hv' h h'
    rw [vertexText_eq, Res.ok.injEq] at h h'
    exact hline v v' hv hv' (linesText_inj (vertexLines_newline hn v) (vertexLines_newline hn v') (h.trans h'.symm))
  · intro vs vs' t hv hv' h h'
    rw [verticesText_eq, Res.ok.injEq] at h h'
    have hnl : ∀ ws : List (Vertex K), ∀ l ∈ (ws.flatMap fun v => vertexLines num v ++ [[]]), '\n' ∉ l := by
      intro ws l hl
      rw [List.mem_flatMap] at hl
      obtain ⟨v, -, hl⟩ := hl
      rw [List.mem_append, List.mem_singleton] at hl
      rcases hl with hl | rfl
      · exact vertexLines_newline hn v l hl
      · simp
    have e := verticesLines_inj (linesText_inj (hnl vs) (hnl vs') (h.trans h'.symm))
    clear h h'
    induction vs generalizing vs' with
    | nil =>
      cases vs' with
      | nil => rfl
      | cons v' vs' => cases e
    | cons v vs ih =>
      cases vs' with
      | nil => cases e
      | cons v' vs' =>
        rw [List.map_cons, List.map_cons, List.cons.injEq] at e
        rw [List.map_cons, List.map_cons, hline v v' (hv v (by simp)) (hv' v' (by simp)) e.1,
          ih vs' (fun x hx => hv x (by simp [hx])) (fun x hx => hv' x (by simp [hx])) e.2]

/-- **C142** is false for derivatives above the snap: vertices that prescribe the fifth and the sixth derivative print the
same, however numbers are written. -/
theorem C142_invalid_false (num : ℚ → List Char) : ∃ v v' : Vertex ℚ, writtenVertex num v ≠ writtenVertex num v' ∧
    vertexText num v = vertexText num v' ∧ ∃ t, vertexText num v = .ok t := by
  refine ⟨⟨1, [(5, [1])]⟩, ⟨1, [(6, [1])]⟩, ?_, ?_, _, vertexText_eq num _⟩
  · simp [writtenVertex]
  · unfold vertexText
    rw [List.mapM_cons, List.mapM_cons]
    rfl

/-- **C142.** The names printed for the verdicts of the feasibility checks tell all verdicts apart. -/
theorem C142_verdicts (a b : Verdict) (h : a.name = b.name) : a = b := by
  cases a <;> cases b <;> first | rfl | exact absurd h (by decide)

/-- Numbers written as integers with a sign. -/
def exNumber (x : ℚ) : List Char := if x < 0 then '-' :: natText (-x).floor.toNat else natText x.floor.toNat

theorem exNumber_text : NumberText exNumber := by
  have hd : ∀ n c, c ∈ natText n → c ∈ "0123456789.+-einfa".toList := by
    intro n c hc
    obtain ⟨d, hd, rfl⟩ := natText_digit hc
    interval_cases d <;> decide
  intro x
  unfold exNumber
  split_ifs
  · refine ⟨by simp, fun c hc => ?_⟩
    rw [List.mem_cons] at hc
    rcases hc with rfl | hc
    · decide
    · exact hd _ c hc
  · exact ⟨natText_ne_nil _, fun c hc => hd _ c hc⟩

/-- The hypotheses are met: a number format, two different segments that print the same as it shows no fractions, and
vertices. -/
example : NumberText exNumber ∧
    (∃ t, segmentText exNumber ⟨[⟨[1, -2]⟩, ⟨[12, 5]⟩], 3, 2⟩ = .ok t ∧
      segmentText exNumber ⟨[⟨[1, -2]⟩, ⟨[12, 11 / 2]⟩], 3, 2⟩ = .ok t) ∧
    (∃ t, segmentsText exNumber [⟨[⟨[1, -2]⟩], 3, 2⟩, ⟨[⟨[4, 7]⟩], 5, 2⟩] = .ok t) ∧
    (∃ t, printSegment exNumber ⟨[⟨[1, -2, 3]⟩], 3, 3⟩ 1 = .ok t) ∧
    AllNamed (⟨2, [(0, [1, -12]), (4, [0, 3])]⟩ : Vertex ℚ) := by
  refine ⟨exNumber_text, ⟨"t: 3\n coefficients for position: \ndim 0: \n 1\n-2\ndim 1: \n12\n 5\n".toList,
    by decide +kernel, by decide +kernel⟩, ⟨_, rfl⟩, ⟨_, rfl⟩, ?_⟩
  intro c hc
  simp only [List.mem_cons, List.not_mem_nil, or_false] at hc
  rcases hc with rfl | rfl <;> simp

/-- What a segment looks like. -/
example : segmentText exNumber ⟨[⟨[1, -2]⟩, ⟨[12, 5]⟩], 3, 2⟩ =
    .ok "t: 3\n coefficients for position: \ndim 0: \n 1\n-2\ndim 1: \n12\n 5\n".toList := by
  decide +kernel

/-- What a vertex looks like. -/
example : vertexText exNumber ⟨2, [(0, [1, -12]), (4, [0, 3])]⟩ =
    .ok "constraints: \n  type: position  value: [  1, -12]\n  type: snap  value: [0, 3]\n".toList := by
  decide +kernel

end Verif
