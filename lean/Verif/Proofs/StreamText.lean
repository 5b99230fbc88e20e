import Verif.Proofs.TimingText
import Verif.Props.Equality
import Verif.Spec.StreamText

/-! Helper lemmas for C142: lines and blocks of lines. -/

set_option linter.unusedSectionVars false

namespace Verif

open Spec

variable {K : Type}

/-- Lines, each with its end. -/
def linesText (ls : List (List Char)) : List Char := ls.flatMap fun l => l ++ ['\n']

theorem linesText_append (l l' : List (List Char)) : linesText (l ++ l') = linesText l ++ linesText l' := by
  simp [linesText]

theorem linesText_cons (l : List Char) (ls : List (List Char)) : linesText (l :: ls) = l ++ '\n' :: linesText ls := by
  simp [linesText]

theorem fields_lines {ls : List (List Char)} (h : ∀ l ∈ ls, '\n' ∉ l) : fields '\n' (linesText ls) = ls ++ [[]] := by
  induction ls with
  | nil => rfl
  | cons l ls ih =>
    rw [linesText_cons, fields_append (h l (by simp)), ih fun x hx => h x (by simp [hx])]
    rfl

theorem linesText_inj {ls ls' : List (List Char)} (h : ∀ l ∈ ls, '\n' ∉ l) (h' : ∀ l ∈ ls', '\n' ∉ l)
    (he : linesText ls = linesText ls') : ls = ls' := by
  have := congrArg (fields '\n') he
  rw [fields_lines h, fields_lines h'] at this
  exact List.append_cancel_right this

theorem intercalate_cons2 {α : Type} (sep a b : List α) (l : List (List α)) :
    List.intercalate sep (a :: b :: l) = a ++ (sep ++ List.intercalate sep (b :: l)) := by
  simp [List.intercalate, List.intersperse]

theorem intercalate_one {α : Type} (sep a : List α) : List.intercalate sep [a] = a := by
  simp [List.intercalate]

theorem intercalate_lines {ls : List (List Char)} (h : ls ≠ []) :
    List.intercalate ['\n'] ls ++ ['\n'] = linesText ls := by
  induction ls with
  | nil => exact absurd rfl h
  | cons l ls ih =>
    cases ls with
    | nil => rw [intercalate_one]; simp [linesText]
    | cons b ls =>
      rw [intercalate_cons2, linesText_cons, ← ih (by simp)]
      simp

/-- Blocks that begin with a mark, which is not in their other lines. -/
theorem blocks_inj {α : Type} (P : α → Bool) : ∀ (bs bs' : List (α × List α)),
    (∀ b ∈ bs, P b.1 = true ∧ ∀ t ∈ b.2, P t = false) → (∀ b ∈ bs', P b.1 = true ∧ ∀ t ∈ b.2, P t = false) →
    (bs.flatMap fun b => b.1 :: b.2) = (bs'.flatMap fun b => b.1 :: b.2) → bs = bs' := by
  have htake : ∀ (t : List α) (bs : List (α × List α)), (∀ x ∈ t, P x = false) → (∀ b ∈ bs, P b.1 = true) →
      (t ++ bs.flatMap fun b => b.1 :: b.2).takeWhile (fun x => !P x) = t := by
    intro t bs ht hb
    rw [List.takeWhile_append_of_pos (fun x hx => by simp [ht x hx])]
    cases bs with
    | nil => simp
    | cons b bs =>
      rw [List.flatMap_cons, List.cons_append, List.takeWhile_cons_of_neg (by simp [hb b (by simp)]), List.append_nil]
  intro bs
  induction bs with
  | nil =>
    intro bs' _ _ he
    cases bs' with
    | nil => rfl
    | cons b bs' => simp at he
  | cons b bs ih =>
    intro bs' h h' he
    cases bs' with
    | nil => simp at he
    | cons b' bs' =>
      rw [List.flatMap_cons, List.flatMap_cons, List.cons_append, List.cons_append, List.cons.injEq] at he
      have e1 : b.2 = b'.2 := by
        rw [← htake b.2 bs (h b (by simp)).2 (fun x hx => (h x (by simp [hx])).1), he.2,
          htake b'.2 bs' (h' b' (by simp)).2 (fun x hx => (h' x (by simp [hx])).1)]
      have e2 := he.2
      rw [e1] at e2
      rw [ih bs' (fun x hx => h x (by simp [hx])) (fun x hx => h' x (by simp [hx])) (List.append_cancel_left e2),
        Prod.ext he.1 e1]

theorem number_not_mem {num : K → List Char} (hn : NumberText num) (x : K) {c : Char}
    (hc : c ∉ "0123456789.+-einfa".toList) : c ∉ num x := fun h => hc ((hn x).2 c h)

theorem padLeft_mem {c a : Char} {w : ℕ} {s : List Char} (h : a ∈ padLeft c w s) : a = c ∨ a ∈ s := by
  unfold padLeft at h
  rw [List.mem_append] at h
  exact h.imp (fun h => (List.mem_replicate.mp h).2) id

/-- The entries of a vector are in its aligned texts, without the spaces. -/
theorem aligned_filter {num : K → List Char} (hn : NumberText num) (xs : List K) :
    (aligned num xs).map (List.filter (· ≠ ' ')) = xs.map num := by
  unfold aligned
  rw [List.map_map]
  apply List.map_congr_left
  intro x _
  simp only [Function.comp_apply, padLeft, List.filter_append]
  rw [List.filter_eq_nil_iff.mpr (by
      intro a ha
      simp [(List.mem_replicate.mp ha).2]),
    List.filter_eq_self.mpr (by
      intro a ha
      have := number_not_mem hn x (c := ' ') (by decide)
      simp only [ne_eq, decide_not, Bool.not_eq_eq_eq_not, Bool.not_true, decide_eq_false_iff_not]
      rintro rfl
      exact this ha), List.nil_append]

theorem aligned_mem {num : K → List Char} {xs : List K} {l : List Char} (h : l ∈ aligned num xs) {c : Char}
    (hc : c ∈ l) : c = ' ' ∨ ∃ x ∈ xs, c ∈ num x := by
  unfold aligned at h
  rw [List.mem_map] at h
  obtain ⟨x, hx, rfl⟩ := h
  exact (padLeft_mem hc).imp id fun h => ⟨x, hx, h⟩

/-- The lines of a column. -/
def columnLines (num : K → List Char) (xs : List K) : List (List Char) := if xs = [] then [[]] else aligned num xs

theorem columnText_lines (num : K → List Char) (xs : List K) :
    columnText num xs ++ ['\n'] = linesText (columnLines num xs) := by
  unfold columnText columnLines
  split_ifs with h
  · subst h
    rfl
  · exact intercalate_lines (by unfold aligned; simpa using h)

theorem columnLines_inj {num : K → List Char} (hn : NumberText num) {xs ys : List K}
    (h : columnLines num xs = columnLines num ys) : xs.map num = ys.map num := by
  have key : ∀ zs : List K, zs ≠ [] → columnLines num zs ≠ [[]] := by
    intro zs hz h0
    unfold columnLines at h0
    rw [if_neg hz] at h0
    have := aligned_filter hn zs
    rw [h0] at this
    cases zs with
    | nil => exact hz rfl
    | cons z zs =>
      simp only [List.map_cons, List.map_nil, List.filter_nil, List.cons.injEq] at this
      exact (hn z).1 this.1.symm
  by_cases hx : xs = []
  · by_cases hy : ys = []
    · rw [hx, hy]
    · refine absurd ?_ (key ys hy)
      rw [← h, hx]
      rfl
  · by_cases hy : ys = []
    · refine absurd ?_ (key xs hx)
      rw [h, hy]
      rfl
    · unfold columnLines at h
      rw [if_neg hx, if_neg hy] at h
      rw [← aligned_filter hn xs, ← aligned_filter hn ys, h]

theorem columnLines_mem {num : K → List Char} (hn : NumberText num) {xs : List K} {l : List Char}
    (h : l ∈ columnLines num xs) {c : Char} (hc : c ∈ l) : c ∈ " 0123456789.+-einfa".toList := by
  unfold columnLines at h
  split_ifs at h
  · rw [List.mem_singleton] at h
    subst h
    cases hc
  · rcases aligned_mem h hc with rfl | ⟨x, -, hx⟩
    · decide
    · have := (hn x).2 c hx
      revert this
      simp
      tauto

/-! #### Vertices -/

theorem join_filter (ls : List (List Char)) : (List.intercalate [',', ' '] ls).filter (· ≠ ' ') =
    List.intercalate [','] (ls.map (List.filter (· ≠ ' '))) := by
  induction ls with
  | nil => rfl
  | cons l ls ih =>
    cases ls with
    | nil => rw [intercalate_one, List.map_singleton, intercalate_one]
    | cons b ls =>
      rw [intercalate_cons2, List.map_cons, List.map_cons, intercalate_cons2, ← List.map_cons, ← ih,
        List.filter_append, List.filter_append]
      rfl

theorem fields_join {c : Char} {ls : List (List Char)} (h0 : ls ≠ []) (h : ∀ l ∈ ls, c ∉ l) :
    fields c (List.intercalate [c] ls) = ls := by
  induction ls with
  | nil => exact absurd rfl h0
  | cons l ls ih =>
    cases ls with
    | nil => rw [intercalate_one, fields_single (h l (by simp))]
    | cons b ls =>
      rw [intercalate_cons2, List.singleton_append, fields_append (h l (by simp)),
        ih (by simp) fun x hx => h x (by simp [hx])]

theorem vectorText_inj {num : K → List Char} (hn : NumberText num) {xs ys : List K}
    (h : vectorText num xs = vectorText num ys) : xs.map num = ys.map num := by
  unfold vectorText at h
  by_cases hx : xs = []
  · by_cases hy : ys = []
    · rw [hx, hy]
    · rw [if_pos hx, if_neg hy] at h
      cases h
  · by_cases hy : ys = []
    · rw [if_neg hx, if_pos hy] at h
      cases h
    · rw [if_neg hx, if_neg hy, List.cons.injEq] at h
      have h1 := congrArg (List.filter (· ≠ ' ')) (List.append_cancel_right h.2)
      rw [join_filter, join_filter, aligned_filter hn, aligned_filter hn] at h1
      have hc : ∀ zs : List K, ∀ l ∈ zs.map num, ',' ∉ l := by
        intro zs l hl
        rw [List.mem_map] at hl
        obtain ⟨z, -, rfl⟩ := hl
        exact number_not_mem hn z (by decide)
      rw [← fields_join (by simpa using hx) (hc xs), h1, fields_join (by simpa using hy) (hc ys)]

theorem vectorText_newline {num : K → List Char} (hn : NumberText num) (xs : List K) : '\n' ∉ vectorText num xs := by
  have hjoin : ∀ ls : List (List Char), (∀ l ∈ ls, '\n' ∉ l) → '\n' ∉ List.intercalate [',', ' '] ls := by
    intro ls
    induction ls with
    | nil => intro _; simp [List.intercalate]
    | cons l ls ih =>
      intro hl
      cases ls with
      | nil => rw [intercalate_one]; exact hl l (by simp)
      | cons b ls =>
        rw [intercalate_cons2]
        simp only [List.mem_append, not_or]
        exact ⟨hl l (by simp), by decide, ih fun x hx => hl x (by simp [hx])⟩
  unfold vectorText
  split_ifs with h
  · simp
  · simp only [List.mem_cons, List.mem_append, not_or]
    refine ⟨by decide, hjoin _ ?_, by decide, by simp⟩
    intro l hl hc
    rcases aligned_mem hl hc with h0 | ⟨x, -, hx⟩
    · exact absurd h0 (by decide)
    · exact number_not_mem hn x (by decide) hx

/-- A derivative name. -/
theorem name_plain {d : ℤ} {s : String} (h : positionDerivativeToString d = .ok s) :
    ' ' ∉ s.toList ∧ '\n' ∉ s.toList ∧ s.toList ≠ [] := by
  unfold positionDerivativeToString at h
  split_ifs at h with hd
  · obtain ⟨h1, h2⟩ := hd
    interval_cases d <;> simp [Res.at'] at h <;> subst h <;> decide
  · rw [Res.ok.injEq] at h
    subst h
    decide

theorem name_inj {d d' : ℤ} {s : String} (h : positionDerivativeToString d = .ok s)
    (h' : positionDerivativeToString d' = .ok s) (hd : 0 ≤ d ∧ d ≤ 4) (hd' : 0 ≤ d' ∧ d' ≤ 4) : d = d' := by
  unfold positionDerivativeToString at h h'
  rw [if_pos ⟨hd.1, hd.2⟩] at h
  rw [if_pos ⟨hd'.1, hd'.2⟩] at h'
  obtain ⟨a1, a2⟩ := hd
  obtain ⟨b1, b2⟩ := hd'
  interval_cases d <;> simp [Res.at'] at h <;> subst h <;> interval_cases d' <;> simp [Res.at'] at h' ⊢

theorem name_returns (d : ℤ) : ∃ s, positionDerivativeToString d = .ok s := by
  unfold positionDerivativeToString
  split_ifs with hd
  · obtain ⟨h1, h2⟩ := hd
    interval_cases d <;> exact ⟨_, rfl⟩
  · exact ⟨_, rfl⟩

/-- The name in an output. -/
noncomputable def nameOf (d : ℤ) : List Char := (name_returns d).choose.toList

theorem mapM_values {α β : Type} {f : α → Res β} {g : α → β} {l : List α} {r : List β} (h : l.mapM f = .ok r)
    (hg : ∀ a ∈ l, ∀ b, f a = .ok b → b = g a) : r = l.map g := by
  induction l generalizing r with
  | nil => simpa using h.symm
  | cons a l ih =>
    rw [List.mapM_cons, Res.bind_eq_ok] at h
    obtain ⟨b, hb, h⟩ := h
    rw [Res.bind_eq_ok] at h
    obtain ⟨r', hr, h⟩ := h
    rw [Res.pure_eq, Res.ok.injEq] at h
    rw [← h, List.map_cons, hg a (by simp) b hb, ih hr fun x hx => hg x (by simp [hx])]

theorem mapM_each {α β : Type} {f : α → Res β} {l : List α} {r : List β} (h : l.mapM f = .ok r) :
    ∀ a ∈ l, ∃ b, f a = .ok b := by
  induction l generalizing r with
  | nil => simp
  | cons a l ih =>
    rw [List.mapM_cons, Res.bind_eq_ok] at h
    obtain ⟨b, hb, h⟩ := h
    rw [Res.bind_eq_ok] at h
    obtain ⟨r', hr, -⟩ := h
    intro x hx
    rw [List.mem_cons] at hx
    rcases hx with rfl | hx
    · exact ⟨b, hb⟩
    · exact ih hr x hx

/-- The line of a constraint. -/
noncomputable def constraintLine (num : K → List Char) (c : ℤ × List K) : List Char :=
  "  type: ".toList ++ (nameOf c.1 ++ ("  value: ".toList ++ vectorText num c.2))

/-- The lines of a vertex. -/
noncomputable def vertexLines (num : K → List Char) (v : Vertex K) : List (List Char) :=
  "constraints: ".toList :: v.constraints.map (constraintLine num)

theorem constraintText_eq (num : K → List Char) (c : ℤ × List K) :
    constraintText num c = .ok (constraintLine num c ++ ['\n']) := by
  have h := (name_returns c.1).choose_spec
  unfold constraintText constraintLine
  change (positionDerivativeToString c.1 >>= fun name => _) = _
  generalize hx : (name_returns c.1).choose = x at h
  rw [show nameOf c.1 = x.toList by unfold nameOf; rw [hx], h, Res.ok_bind, Res.pure_eq]
  simp

theorem flatten_lines (f : K → List Char) (l : List K) : (l.map fun x => f x ++ ['\n']).flatten = linesText (l.map f) := by
  induction l with
  | nil => rfl
  | cons x l ih =>
    rw [List.map_cons, List.map_cons, List.flatten_cons, linesText_cons, ih]
    simp

theorem vertexText_eq (num : K → List Char) (v : Vertex K) : vertexText num v = .ok (linesText (vertexLines num v)) := by
  unfold vertexText vertexLines
  rw [Res.mapM_ok (fun c _ => constraintText_eq num c), Res.ok_bind, Res.pure_eq, linesText_cons, flatten_lines]

theorem verticesText_eq (num : K → List Char) (vs : List (Vertex K)) :
    verticesText num vs = .ok (linesText (vs.flatMap fun v => vertexLines num v ++ [[]])) := by
  unfold verticesText
  rw [Res.mapM_ok (fun v _ => vertexText_eq num v), Res.ok_bind, Res.pure_eq]
  congr 1
  induction vs with
  | nil => rfl
  | cons v vs ih =>
    rw [List.map_cons, List.flatMap_cons, List.flatMap_cons, linesText_append, ih, linesText_append]
    rfl

theorem nameOf_plain (d : ℤ) : ' ' ∉ nameOf d ∧ '\n' ∉ nameOf d := by
  have := name_plain (name_returns d).choose_spec
  exact ⟨this.1, this.2.1⟩

theorem nameOf_inj {d d' : ℤ} (h : nameOf d = nameOf d') (hd : 0 ≤ d ∧ d ≤ 4) (hd' : 0 ≤ d' ∧ d' ≤ 4) : d = d' := by
  have h1 := (name_returns d).choose_spec
  have h2 := (name_returns d').choose_spec
  have : (name_returns d).choose = (name_returns d').choose := String.toList_injective h
  rw [← this] at h2
  exact name_inj h1 h2 hd hd'

theorem constraintLine_newline {num : K → List Char} (hn : NumberText num) (c : ℤ × List K) :
    '\n' ∉ constraintLine num c := by
  unfold constraintLine
  simp only [List.mem_append, not_or]
  exact ⟨by decide, (nameOf_plain c.1).2, by decide, vectorText_newline hn c.2⟩

theorem constraintLine_inj {num : K → List Char} (hn : NumberText num) {c c' : ℤ × List K}
    (h : constraintLine num c = constraintLine num c') : nameOf c.1 = nameOf c'.1 ∧ c.2.map num = c'.2.map num := by
  unfold constraintLine at h
  have h1 := List.append_cancel_left h
  have e : ∀ d : List K, "  value: ".toList ++ vectorText num d = ' ' :: (" value: ".toList ++ vectorText num d) :=
    fun d => rfl
  have h2 := congrArg (fields ' ') h1
  rw [e, e, fields_append (nameOf_plain c.1).1, fields_append (nameOf_plain c'.1).1, List.cons.injEq] at h2
  rw [h2.1] at h1
  exact ⟨h2.1, vectorText_inj hn (List.append_cancel_left (List.append_cancel_left h1))⟩

theorem vertexLines_newline {num : K → List Char} (hn : NumberText num) (v : Vertex K) :
    ∀ l ∈ vertexLines num v, '\n' ∉ l := by
  intro l hl
  unfold vertexLines at hl
  rw [List.mem_cons, List.mem_map] at hl
  rcases hl with rfl | ⟨c, -, rfl⟩
  · decide
  · exact constraintLine_newline hn c

/-- Lists with the same image. -/
theorem map_line_inj {α β γ : Type} {f : α → β} {g : α → γ} (h : ∀ a a', f a = f a' → g a = g a') :
    ∀ {l l' : List α}, l.map f = l'.map f → l.map g = l'.map g
  | [], [], _ => rfl
  | [], _ :: _, he => by cases he
  | _ :: _, [], he => by cases he
  | a :: l, a' :: l', he => by
    rw [List.map_cons, List.map_cons, List.cons.injEq] at he
    rw [List.map_cons, List.map_cons, h a a' he.1, map_line_inj h he.2]

theorem vertexLines_inj {num : K → List Char} (hn : NumberText num) {v v' : Vertex K}
    (h : vertexLines num v = vertexLines num v') :
    v.constraints.map (fun c => (nameOf c.1, c.2.map num)) = v'.constraints.map (fun c => (nameOf c.1, c.2.map num)) := by
  unfold vertexLines at h
  rw [List.cons.injEq] at h
  exact map_line_inj (fun a a' he => Prod.ext (constraintLine_inj hn he).1 (constraintLine_inj hn he).2) h.2

/-- Begins with a letter. -/
def startsWith (c : Char) (l : List Char) : Bool := l.head? = some c

theorem verticesLines_inj {num : K → List Char} {vs vs' : List (Vertex K)}
    (h : (vs.flatMap fun v => vertexLines num v ++ [[]]) = (vs'.flatMap fun v => vertexLines num v ++ [[]])) :
    vs.map (vertexLines num) = vs'.map (vertexLines num) := by
  have hblock : ∀ ws : List (Vertex K), (ws.flatMap fun v => vertexLines num v ++ [[]]) =
      (ws.map fun v => ("constraints: ".toList, v.constraints.map (constraintLine num) ++ [[]])).flatMap
        fun b => b.1 :: b.2 := by
    intro ws
    rw [List.flatMap_map]
    rfl
  rw [hblock, hblock] at h
  have hok : ∀ ws : List (Vertex K), ∀ b ∈ (ws.map fun v =>
      ("constraints: ".toList, v.constraints.map (constraintLine num) ++ [[]])),
      startsWith 'c' b.1 = true ∧ ∀ t ∈ b.2, startsWith 'c' t = false := by
    intro ws b hb
    rw [List.mem_map] at hb
    obtain ⟨v, -, rfl⟩ := hb
    refine ⟨by simp [startsWith], ?_⟩
    intro t ht
    rw [List.mem_append, List.mem_map, List.mem_singleton] at ht
    rcases ht with ⟨c, -, rfl⟩ | rfl
    · unfold constraintLine
      simp [startsWith]
    · rfl
  have := blocks_inj (startsWith 'c') _ _ (hok vs) (hok vs') h
  refine map_line_inj (fun v v' he => ?_) this
  rw [Prod.mk.injEq] at he
  unfold vertexLines
  rw [List.append_cancel_right he.2]

/-! #### Segments -/

section
variable [Zero K] [One K] [Mul K] [NatCast K]

/-- The coefficients written for a dimension. -/
def writtenCoefficients (s : Segment K) (d : ℤ) (i : ℕ) : List K :=
  match s.polys[i]? with
  | some p => match p.getCoefficients d with
    | .ok c => c
    | _ => []
  | none => []

/-- The line before a dimension. -/
def dimensionLine (i : ℕ) : List Char := "dim ".toList ++ (natText i ++ ": ".toList)

/-- The first two lines of a segment. -/
def timeLine (num : K → List Char) (s : Segment K) : List Char := "t: ".toList ++ num s.time

/-- The lines of a segment. -/
noncomputable def segmentLines (num : K → List Char) (s : Segment K) (d : ℤ) : List (List Char) :=
  timeLine num s :: (" coefficients for ".toList ++ (nameOf d ++ ": ".toList)) ::
    (List.range s.D).flatMap fun i => dimensionLine i :: columnLines num (writtenCoefficients s d i)

theorem dimensionText_eq {num : K → List Char} {s : Segment K} {d : ℤ} {i : ℕ} {t : List Char}
    (h : dimensionText num s d i = .ok t) :
    t = linesText (dimensionLine i :: columnLines num (writtenCoefficients s d i)) ∧
      ∃ p, s.polys[i]? = some p ∧ p.getCoefficients d = .ok (writtenCoefficients s d i) := by
  unfold dimensionText at h
  rw [Res.bind_eq_ok] at h
  obtain ⟨p, hp, h⟩ := h
  rw [Res.at'_eq_ok] at hp
  rw [Res.bind_eq_ok] at h
  obtain ⟨c, hc, h⟩ := h
  rw [Res.pure_eq, Res.ok.injEq] at h
  have e : writtenCoefficients s d i = c := by
    unfold writtenCoefficients
    rw [hp]
    dsimp only
    rw [hc]
  rw [e]
  refine ⟨?_, p, hp, hc⟩
  rw [← h, linesText_cons, ← columnText_lines]
  unfold dimensionLine
  simp

theorem printSegment_eq {num : K → List Char} {s : Segment K} {d : ℤ} {t : List Char}
    (h : printSegment num s d = .ok t) : t = linesText (segmentLines num s d) ∧
      ∀ i < s.D, ∃ p, s.polys[i]? = some p ∧ p.getCoefficients d = .ok (writtenCoefficients s d i) := by
  unfold printSegment at h
  rw [Res.bind_eq_ok] at h
  obtain ⟨_, -, h⟩ := h
  rw [(name_returns d).choose_spec, Res.ok_bind, Res.bind_eq_ok] at h
  obtain ⟨ts, hts, h⟩ := h
  rw [Res.pure_eq, Res.ok.injEq] at h
  have e := mapM_values hts (fun i _ t ht => (dimensionText_eq ht).1)
  refine ⟨?_, ?_⟩
  · rw [← h, e]
    unfold segmentLines
    rw [linesText_cons, linesText_cons]
    have : ∀ l : List ℕ, (l.map fun i =>
        linesText (dimensionLine i :: columnLines num (writtenCoefficients s d i))).flatten =
        linesText (l.flatMap fun i => dimensionLine i :: columnLines num (writtenCoefficients s d i)) := by
      intro l
      induction l with
      | nil => rfl
      | cons i l ih => rw [List.map_cons, List.flatten_cons, List.flatMap_cons, linesText_append, ih]
    rw [this]
    unfold timeLine nameOf
    simp
  · intro i hi
    obtain ⟨t, ht⟩ := mapM_each hts i (List.mem_range.mpr hi)
    exact (dimensionText_eq ht).2

theorem natText_newline (n : ℕ) : '\n' ∉ natText n := natText_not_mem _ _ (by decide)

theorem segmentLines_newline {num : K → List Char} (hn : NumberText num) (s : Segment K) (d : ℤ) :
    ∀ l ∈ segmentLines num s d, '\n' ∉ l := by
  intro l hl
  unfold segmentLines at hl
  rw [List.mem_cons, List.mem_cons, List.mem_flatMap] at hl
  rcases hl with rfl | rfl | ⟨i, -, hl⟩
  · unfold timeLine
    simp only [List.mem_append, not_or]
    exact ⟨by decide, number_not_mem hn _ (by decide)⟩
  · simp only [List.mem_append, not_or]
    exact ⟨by decide, (nameOf_plain d).2, by decide⟩
  · rw [List.mem_cons] at hl
    rcases hl with rfl | hl
    · unfold dimensionLine
      simp only [List.mem_append, not_or]
      exact ⟨by decide, natText_newline i, by decide⟩
    · intro hc
      exact absurd (columnLines_mem hn hl hc) (by decide)

theorem columnLines_start {num : K → List Char} (hn : NumberText num) {xs : List K} {l : List Char}
    (hl : l ∈ columnLines num xs) {c : Char} (hc : c ∉ " 0123456789.+-einfa".toList) : startsWith c l = false := by
  cases l with
  | nil => rfl
  | cons a l =>
    have := columnLines_mem hn hl (c := a) (by simp)
    unfold startsWith
    simp only [List.head?_cons, Option.some.injEq, decide_eq_false_iff_not]
    rintro rfl
    exact hc this

theorem segmentLines_inj {num : K → List Char} (hn : NumberText num) {s s' : Segment K} {d d' : ℤ}
    (h : segmentLines num s d = segmentLines num s' d') : num s.time = num s'.time ∧ nameOf d = nameOf d' ∧ s.D = s'.D ∧
      ∀ i < s.D, (writtenCoefficients s d i).map num = (writtenCoefficients s' d' i).map num := by
  unfold segmentLines timeLine at h
  rw [List.cons.injEq, List.cons.injEq] at h
  obtain ⟨h1, h2, h3⟩ := h
  refine ⟨List.append_cancel_left h1, List.append_cancel_right (List.append_cancel_left h2), ?_⟩
  have hblock : ∀ (s : Segment K) (d : ℤ), ((List.range s.D).flatMap fun i =>
      dimensionLine i :: columnLines num (writtenCoefficients s d i)) =
      ((List.range s.D).map fun i => (dimensionLine i, columnLines num (writtenCoefficients s d i))).flatMap
        fun b => b.1 :: b.2 := by
    intro s d
    rw [List.flatMap_map]
  have hok : ∀ (s : Segment K) (d : ℤ), ∀ b ∈ ((List.range s.D).map fun i =>
      (dimensionLine i, columnLines num (writtenCoefficients s d i))),
      startsWith 'd' b.1 = true ∧ ∀ t ∈ b.2, startsWith 'd' t = false := by
    intro s d b hb
    rw [List.mem_map] at hb
    obtain ⟨i, -, rfl⟩ := hb
    refine ⟨by simp [dimensionLine, startsWith], ?_⟩
    intro t ht
    exact columnLines_start hn ht (by decide)
  rw [hblock, hblock] at h3
  have h4 := blocks_inj (startsWith 'd') _ _ (hok s d) (hok s' d') h3
  have hD : s.D = s'.D := by
    have := congrArg List.length h4
    simpa using this
  refine ⟨hD, fun i hi => ?_⟩
  have h5 := congrArg (fun l => l[i]?) h4
  simp only [List.getElem?_map] at h5
  rw [List.getElem?_range hi, List.getElem?_range (by rw [← hD]; exact hi), Option.map_some, Option.map_some,
    Option.some.injEq, Prod.mk.injEq] at h5
  exact columnLines_inj hn h5.2

theorem segmentText_written {num : K → List Char} {s : Segment K} {t : List Char} (h : segmentText num s = .ok t) :
    s.polys.map (fun p => p.coeffs.map num) = (List.range s.D).map fun i => (writtenCoefficients s 0 i).map num := by
  have h2 := (printSegment_eq h).2
  apply List.ext_getElem?
  intro i
  rw [List.getElem?_map, List.getElem?_map]
  by_cases hi : i < s.D
  · obtain ⟨p, hp, hc⟩ := h2 i hi
    rw [hp, List.getElem?_range hi, Option.map_some, Option.map_some]
    unfold Poly.getCoefficients at hc
    rw [Res.bind_eq_ok] at hc
    obtain ⟨_, -, hc⟩ := hc
    rw [if_pos rfl, Res.pure_eq, Res.ok.injEq] at hc
    rw [← hc]
  · rw [List.getElem?_eq_none (not_lt.mp hi), List.getElem?_eq_none (by simpa using hi)]
    rfl

theorem writtenSegment_of_lines {num : K → List Char} (hn : NumberText num) {s s' : Segment K} {t t' : List Char}
    (h : segmentText num s = .ok t) (h' : segmentText num s' = .ok t')
    (he : segmentLines num s 0 = segmentLines num s' 0) : writtenSegment num s = writtenSegment num s' := by
  obtain ⟨h1, -, h3, h4⟩ := segmentLines_inj hn he
  unfold writtenSegment
  rw [h1, segmentText_written h, segmentText_written h', ← h3]
  congr 1
  exact List.map_congr_left fun i hi => h4 i (List.mem_range.mp hi)

theorem segmentsText_eq {num : K → List Char} {ss : List (Segment K)} {t : List Char}
    (h : segmentsText num ss = .ok t) : t = linesText (ss.flatMap fun s => segmentLines num s 0 ++ [[]]) ∧
      ∀ s ∈ ss, ∃ t, segmentText num s = .ok t := by
  unfold segmentsText at h
  rw [Res.bind_eq_ok] at h
  obtain ⟨ts, hts, h⟩ := h
  rw [Res.pure_eq, Res.ok.injEq] at h
  refine ⟨?_, mapM_each hts⟩
  have e := mapM_values hts (fun s _ t ht => (printSegment_eq ht).1)
  rw [← h, e]
  clear h e hts
  induction ss with
  | nil => rfl
  | cons s ss ih =>
    rw [List.map_cons, List.flatMap_cons, List.flatMap_cons, linesText_append, ih, linesText_append]
    rfl

theorem segmentsLines_inj {num : K → List Char} (hn : NumberText num) {ss ss' : List (Segment K)}
    (h : (ss.flatMap fun s => segmentLines num s 0 ++ [[]]) = (ss'.flatMap fun s => segmentLines num s 0 ++ [[]])) :
    ss.map (fun s => segmentLines num s 0) = ss'.map (fun s => segmentLines num s 0) := by
  have hblock : ∀ ws : List (Segment K), (ws.flatMap fun s => segmentLines num s 0 ++ [[]]) =
      (ws.map fun s => (timeLine num s, (segmentLines num s 0).tail ++ [[]])).flatMap fun b => b.1 :: b.2 := by
    intro ws
    rw [List.flatMap_map]
    rfl
  rw [hblock, hblock] at h
  have hok : ∀ ws : List (Segment K), ∀ b ∈ (ws.map fun s => (timeLine num s, (segmentLines num s 0).tail ++ [[]])),
      startsWith 't' b.1 = true ∧ ∀ t ∈ b.2, startsWith 't' t = false := by
    intro ws b hb
    rw [List.mem_map] at hb
    obtain ⟨s, -, rfl⟩ := hb
    refine ⟨by simp [timeLine, startsWith], ?_⟩
    intro t ht
    unfold segmentLines at ht
    rw [List.tail_cons, List.mem_append, List.mem_singleton, List.mem_cons, List.mem_flatMap] at ht
    rcases ht with (rfl | ⟨i, -, ht⟩) | rfl
    · simp [startsWith]
    · rw [List.mem_cons] at ht
      rcases ht with rfl | ht
      · simp [dimensionLine, startsWith]
      · exact columnLines_start hn ht (by decide)
    · rfl
  have := blocks_inj (startsWith 't') _ _ (hok ss) (hok ss') h
  refine map_line_inj (fun s s' he => ?_) this
  rw [Prod.mk.injEq] at he
  have e1 := List.append_cancel_right he.2
  have e2 : ∀ s : Segment K, segmentLines num s 0 = timeLine num s :: (segmentLines num s 0).tail := fun s => rfl
  rw [e2 s, e2 s', he.1, e1]

end

end Verif
