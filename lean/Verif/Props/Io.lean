import Verif.Proofs.IoWrite

/-
Properties C35, C36, C53, C54: trajectories as YAML nodes and in files.

`Spec.ReadsBack cd rnd`: reading a written number gives it back (a floating-point number `x` as
`rnd x`). `Spec.Writable s`: `N`, `D` are below 2^31 and the time is at least 0 and below 2^64 ns.
`Spec.Reloaded rnd s s'`: `s'` has the rounded coefficients of `s`, its `N`, and its time truncated to
whole nanoseconds. `Spec.DescribesTrajectory`: the tree has the documented entries of the trajectory.
-/
namespace Verif

open Spec

set_option linter.unusedSectionVars false

variable {K S : Type}

/-! A concrete codec: texts are tagged numbers. -/

inductive Txt where
  | d (x : ℚ)
  | i (n : ℤ)
  deriving DecidableEq

/-- Every whole number can be read as any type it fits into. -/
def exCodec : Codec ℚ Txt where
  putD := .d
  getD := fun t => match t with | .d x => some x | .i n => some n
  putI := .i
  getI := fun t => match t with | .i n => if -2 ^ 31 ≤ n ∧ n < 2 ^ 31 then some n else none | _ => none
  putU := fun n => .i n
  getU := fun t => match t with | .i n => if 0 ≤ n ∧ n < 2 ^ 64 then some n.toNat else none | _ => none
  keyIdx := fun _ => none

theorem exCodec_readsBack : ReadsBack exCodec id := by
  refine ⟨fun x => rfl, fun n h0 h1 => ?_, fun n h => ?_⟩
  · simp only [exCodec]
    rw [if_pos ⟨by omega, h1⟩]
  · simp only [exCodec]
    rw [if_pos ⟨by omega, by exact_mod_cast h⟩, Int.toNat_natCast]

/-- Two segments with 2 dimensions; durations 3/2 s and 1/3 s. -/
def exIo : Trajectory ℚ :=
  ⟨2, 3, 11 / 6, [⟨[⟨[0, 1, 0]⟩, ⟨[1, 0, 1]⟩], 3 / 2, 3⟩, ⟨[⟨[2, 1, 0]⟩, ⟨[5, 4, 1 / 7]⟩], 1 / 3, 3⟩]⟩

/-! ### C35 round trip -/

section
variable [Field K] [LinearOrder K] [IsStrictOrderedRing K] [FloorRing K]

/-- **C35.** For every non-empty trajectory with at least one dimension whose segments have its `D`
and `N` (C08), writing to YAML and reading back succeeds and gives a trajectory with the same `D`, `N`
and number of segments, each with the same polynomials and its time truncated to whole nanoseconds;
the duration is the sum of these times. -/
theorem C35_roundtrip (cd : Codec K S) (hc : ReadsBack cd id) (tr : Trajectory K) (hne : tr.segments ≠ [])
    (hD : 0 < tr.D) (hdn : ∀ s ∈ tr.segments, s.D = tr.D ∧ s.N = tr.N)
    (hw : ∀ s ∈ tr.segments, Writable s) :
    ∃ y tr', trajectoryToYaml cd tr = .ok y ∧ trajectoryFromYaml cd (some y) = .ok (some tr') ∧
      tr'.D = tr.D ∧ tr'.N = tr.N ∧ tr'.segments.length = tr.segments.length ∧
      (∀ (i : ℕ) (s s' : Segment K), tr.segments[i]? = some s → tr'.segments[i]? = some s' →
        s'.polys = s.polys ∧ s'.N = s.N ∧ (∃ ns : ℕ, s'.time = (ns : K) / 10 ^ 9) ∧
        s'.time ≤ s.time ∧ s.time - s'.time < 1 / 10 ^ 9) ∧
      tr'.maxTime = (tr'.segments.map (·.time)).sum := by
  have hpoly : ∀ s ∈ tr.segments, Writable s ∧ s.polys ≠ [] := by
    intro s hs
    refine ⟨hw s hs, fun h0 => ?_⟩
    have := (hdn s hs).1
    rw [Segment.D, h0] at this
    simp at this; omega
  refine ⟨_, ⟨tr.D, tr.N, ((tr.segments.map (reload id)).map (·.time)).sum, tr.segments.map (reload id)⟩,
    trajectoryToYaml_ok cd tr hne hpoly, trajectoryFromYaml_eq_some.mpr ?_, rfl, rfl, by simp, ?_, rfl⟩
  · refine ⟨_, tr.segments.map (segTree cd), rfl, rfl, by simpa using hne, ?_, ?_, rfl⟩
    · rw [List.forall₂_map_left_iff, List.forall₂_map_right_iff, List.forall₂_same]
      intro s hs
      exact segTree_describes hc (hw s hs)
    · simp only [List.mem_map, forall_exists_index, and_imp]
      rintro s' s hs rfl
      exact ⟨by rw [← (hdn s hs).1]; simp [reload, Segment.D], (hdn s hs).2⟩
  · intro i s s' h1 h2
    have hs : s ∈ tr.segments := List.mem_of_getElem? h1
    simp only [List.getElem?_map, h1, Option.map_some, Option.some.injEq] at h2
    subst h2
    obtain ⟨r1, r2, r3, r4, r5⟩ := reloaded_reload id (hw s hs)
    exact ⟨by rw [r1]; simp, r2, r3, r4, r5⟩

/-- **C35** fails without dimensions: what is written for a trajectory with `D = 0` (whatever its
segment times) is rejected when read back. -/
theorem C35_dim0_false (cd : Codec K S) (tr : Trajectory K) (hne : tr.segments ≠ [])
    (hd : ∀ s ∈ tr.segments, s.D = 0) (hw : ∀ s ∈ tr.segments, Writable s) :
    ∃ y, trajectoryToYaml cd tr = .ok y ∧ trajectoryFromYaml cd (some y) = .ok none := by
  have hp : ∀ s ∈ tr.segments, s.polys = [] := fun s hs => List.length_eq_zero_iff.mp (hd s hs)
  refine ⟨.map [("segments", .seq (tr.segments.map fun s => .map (segHeader cd s)))], ?_, ?_⟩
  · unfold trajectoryToYaml segmentsToYaml
    rw [Res.mapM_ok (g := fun s => .map (segHeader cd s))
      (fun s hs => segmentToYaml_dim0 cd (hw s hs) (hp s hs)), Res.ok_bind, if_neg (by simpa using hne)]
    rfl
  · obtain ⟨s, ss, hs⟩ := List.exists_cons_of_ne_nil hne
    rw [hs]
    simp [trajectoryFromYaml, YNode.get, segmentsFromYaml, YNode.isSequence, YNode.size,
      List.range_succ_eq_map, segmentsLoop, YNode.idx, segmentFromYaml, segHeader, List.lookup]

/-- **C35** also fails for the empty trajectory: what is written for it makes the reader throw. -/
theorem C35_empty_false (cd : Codec K S) :
    trajectoryToYaml cd (Trajectory.empty : Trajectory K) = .ok .null ∧
    trajectoryFromYaml (K := K) cd (some .null) = .throws := ⟨rfl, rfl⟩

end

example : exIo.segments ≠ [] ∧ 0 < exIo.D ∧ (∀ s ∈ exIo.segments, s.D = exIo.D ∧ s.N = exIo.N) ∧
    (∀ s ∈ exIo.segments, Writable s) := by
  refine ⟨by decide, by decide, by decide, ?_⟩
  intro s hs
  simp only [exIo, List.mem_cons, List.not_mem_nil, or_false] at hs
  rcases hs with rfl | rfl <;> exact ⟨by norm_num, by norm_num, by norm_num, by norm_num⟩
example : (do let y ← trajectoryToYaml exCodec exIo; trajectoryFromYaml exCodec (some y)) =
    .ok (some ⟨2, 3, 3 / 2 + 333333333 / 10 ^ 9, [⟨[⟨[0, 1, 0]⟩, ⟨[1, 0, 1]⟩], 3 / 2, 3⟩,
      ⟨[⟨[2, 1, 0]⟩, ⟨[5, 4, 1 / 7]⟩], 333333333 / 10 ^ 9, 3⟩]⟩) := by decide +kernel

/-! ### C36 malformed nodes -/

/-- **C36**, partial: a node is accepted exactly when it describes a trajectory, and then it is this
trajectory; in particular there are the announced `D` polynomials. Missing from the full statement:
that the polynomials have `N` coefficients (false, `C36_count_false`), and that whatever is not
accepted is reported by returning false (false, `C36_throws_false`, `C36_abort_false`,
`C36_ub_false`). -/
theorem C36_accepts_partial [Field K] (cd : Codec K S) (y : Yaml S) (tr : Trajectory K) :
    trajectoryFromYaml cd (some y) = .ok (some tr) ↔ DescribesTrajectory cd y tr :=
  trajectoryFromYaml_eq_some

/-- **C36**, partial: a map in which one of the four entries is missing, or whose `coefficients` are
not a sequence, is never loaded as a segment, and the function returns false. -/
theorem C36_missing_partial [Field K] (cd : Codec K S) (m : List (String × Yaml S))
    (h : m.lookup "N" = none ∨ m.lookup "D" = none ∨ m.lookup "time" = none ∨
      m.lookup "coefficients" = none ∨
      ∃ c, m.lookup "coefficients" = some c ∧ ∀ l, c ≠ .seq l) :
    segmentFromYaml (K := K) cd (some (.map m)) = .ok none := by
  unfold segmentFromYaml
  simp only [YNode.get, Res.ok_bind]
  cases hN : m.lookup "N" with
  | none => rfl
  | some a =>
  cases hD : m.lookup "D" with
  | none => rfl
  | some b =>
  cases hT : m.lookup "time" with
  | none => rfl
  | some t =>
  cases hC : m.lookup "coefficients" with
  | none => rfl
  | some c =>
    have h : ∀ l, c ≠ .seq l := by simpa [hN, hD, hT, hC] using h
    have hseq : YNode.isSequence (some c) = .ok false := by
      cases c with
      | seq l => exact absurd rfl (h l)
      | null => rfl
      | scalar s => rfl
      | map l => rfl
    simp only [Option.isNone_some, Bool.false_eq_true, if_false, hseq, Res.ok_bind, if_true]
    rfl

/-- **C36**, partial: if the entry `segments` is there but is not a sequence, the function returns
false. -/
theorem C36_segments_partial [Field K] (cd : Codec K S) (m : List (String × Yaml S)) (c : Yaml S)
    (h : m.lookup "segments" = some c) (hc : ∀ l, c ≠ .seq l) :
    trajectoryFromYaml (K := K) cd (some (.map m)) = .ok none := by
  have hseq : YNode.isSequence (some c) = .ok false := by
    cases c with
    | seq l => exact absurd rfl (hc l)
    | null => rfl
    | scalar s => rfl
    | map l => rfl
  simp [trajectoryFromYaml, YNode.get, h, segmentsFromYaml, hseq]

/-- A segment node of the given numbers. -/
def segNode (n d t : ℤ) (cs : List (List ℚ)) : Yaml Txt :=
  .map [("N", .scalar (.i n)), ("D", .scalar (.i d)), ("time", .scalar (.i t)),
    ("coefficients", .seq (cs.map fun c => .seq (c.map fun x => .scalar (.d x))))]

def trNode (l : List (Yaml Txt)) : Yaml Txt := .map [("segments", .seq l)]

/-- **C36** is false: a node that announces 5 coefficients but lists 2 is loaded, with `N() = 5` and
polynomials of 2 coefficients. -/
theorem C36_count_false :
    ReadsBack exCodec id ∧ trajectoryFromYaml exCodec (some (trNode [segNode 5 1 (10 ^ 9) [[0, 1]]])) =
      .ok (some ⟨1, 5, 1, [⟨[⟨[0, 1]⟩], 1, 5⟩]⟩) := ⟨exCodec_readsBack, by decide +kernel⟩

/-- **C36** is false: a node without the entry `segments`, a segment with fewer coefficient lists
than announced dimensions, and a segment that is not a map make the function throw. -/
theorem C36_throws_false :
    trajectoryFromYaml exCodec (some (.map [])) = .throws ∧
    trajectoryFromYaml exCodec (some (trNode [segNode 2 2 (10 ^ 9) [[0, 1]]])) = .throws ∧
    trajectoryFromYaml exCodec (some (trNode [.scalar (.i 1)])) = .throws := by
  refine ⟨rfl, ?_, ?_⟩ <;> decide +kernel

/-- **C36** is false: an empty list of segments, and segments of different dimensions, abort the
process. -/
theorem C36_abort_false :
    trajectoryFromYaml exCodec (some (trNode [])) = .abort ∧
    trajectoryFromYaml exCodec (some (trNode [segNode 2 1 1 [[0, 1]], segNode 2 2 1 [[0, 1], [2, 3]]])) =
      .abort := by
  constructor <;> decide +kernel

/-- **C36** is false: a negative number of coefficients is undefined behaviour. -/
theorem C36_ub_false :
    trajectoryFromYaml exCodec (some (trNode [segNode (-1) 1 1 [[0, 1]]])) = .ub := by decide +kernel

example : DescribesTrajectory exCodec (trNode [segNode 2 1 (10 ^ 9) [[0, 1]]])
    ⟨1, 2, 1, [⟨[⟨[0, 1]⟩], 1, 2⟩]⟩ := by
  rw [← C36_accepts_partial]; decide +kernel

/-! ### C53 files -/

section
variable [Field K] [LinearOrder K] [IsStrictOrderedRing K] [FloorRing K]

/-- **C53.** If the file can be opened, `segmentsToFile` succeeds for segments whose polynomials have
`N()` coefficients, and `segmentsFromFile` then returns true and the segments with coefficients
rounded as by the emitter and times truncated to whole nanoseconds, in order, whatever the output
vector held before. -/
theorem C53_file_roundtrip (cd : Codec K S) (rnd : K → K) (hc : ReadsBack cd rnd)
    (segs old : List (Segment K))
    (h : ∀ s ∈ segs, Writable s ∧ ∀ p ∈ s.polys, p.coeffs.length = s.N) :
    ∃ y segs', segmentsToFile cd true segs = .ok (true, some y) ∧
      segmentsFromFile cd (.tree y) old = .ok (true, segs') ∧
      List.Forall₂ (Reloaded rnd) segs segs' := by
  refine ⟨_, _, segmentsToFile_ok cd segs h, segmentsFromFile_ok hc segs old h, ?_⟩
  rw [List.forall₂_map_right_iff, List.forall₂_same]
  exact fun s hs => reloaded_reload rnd (h s hs).1

/-- **C53.** The same for a trajectory with at least one segment: it comes back with the same `D`,
`N`. -/
theorem C53_trajectory_roundtrip (cd : Codec K S) (rnd : K → K) (hc : ReadsBack cd rnd) (tr : Trajectory K)
    (hne : tr.segments ≠ []) (hdn : ∀ s ∈ tr.segments, s.D = tr.D ∧ s.N = tr.N)
    (h : ∀ s ∈ tr.segments, Writable s ∧ ∀ p ∈ s.polys, p.coeffs.length = s.N) :
    ∃ y tr', trajectoryToFile cd true tr = .ok (true, some y) ∧
      trajectoryFromFile cd (.tree y) = .ok (true, tr') ∧ tr'.D = tr.D ∧ tr'.N = tr.N ∧
      List.Forall₂ (Reloaded rnd) tr.segments tr'.segments ∧
      tr'.maxTime = (tr'.segments.map (·.time)).sum := by
  refine ⟨_, ⟨tr.D, tr.N, ((tr.segments.map (reload rnd)).map (·.time)).sum, tr.segments.map (reload rnd)⟩,
    segmentsToFile_ok cd tr.segments h, ?_, rfl, rfl, ?_, rfl⟩
  · unfold trajectoryFromFile
    rw [segmentsFromFile_ok hc tr.segments [] h, Res.ok_bind,
      (setSegments_ok_iff ⟨tr.D, tr.N, ((tr.segments.map (reload rnd)).map (·.time)).sum,
        tr.segments.map (reload rnd)⟩ _).mpr ⟨by simpa using hne, ?_, rfl, rfl⟩]
    · rfl
    · simp only [List.mem_map, forall_exists_index, and_imp]
      rintro s' s hs rfl
      exact ⟨by rw [← (hdn s hs).1]; simp [reload, Segment.D], (hdn s hs).2⟩
  · rw [List.forall₂_map_right_iff, List.forall₂_same]
    exact fun s hs => reloaded_reload rnd (h s hs).1

end

/-- **C53.** Whatever the file contains and whether or not loading succeeds: every segment that is
handed out has polynomials with exactly the announced number of coefficients. -/
theorem C53_sizes [Field K] (cd : Codec K S) (y : Yaml S) (old segs : List (Segment K)) (b : Bool)
    (h : segmentsFromFile cd (.tree y) old = .ok (b, segs)) :
    ∀ s ∈ segs, ∀ p ∈ s.polys, p.coeffs.length = s.N := by
  unfold segmentsFromFile at h
  obtain ⟨n, hn, h⟩ := Res.bind_eq_ok.mp h
  split_ifs at h with h0
  · simp only [Res.pure_eq, Res.ok.injEq, Prod.mk.injEq] at h
    rw [← h.2]; simp
  · obtain ⟨sz, hsz, h⟩ := Res.bind_eq_ok.mp h
    exact segmentsTextLoop_sizes _ [] segs b (by simp) h

/-- **C53.** A file that cannot be opened is reported by returning false, both when writing (provided
the segments can be written at all) and when reading; the output vector is then unchanged. -/
theorem C53_unopened [Field K] [LinearOrder K] [IsStrictOrderedRing K] [FloorRing K] (cd : Codec K S)
    (segs old : List (Segment K)) (h : ∀ s ∈ segs, Writable s ∧ ∀ p ∈ s.polys, p.coeffs.length = s.N) :
    segmentsToFile cd false segs = .ok (false, none) ∧
    segmentsFromFile cd .missing old = .ok (false, old) := by
  refine ⟨?_, rfl⟩
  unfold segmentsToFile
  rw [Res.mapM_ok (g := segTree cd) (fun s hs => segmentToText_ok cd (h s hs).1 (h s hs).2), Res.ok_bind,
    if_neg (by decide)]
  rfl

/-- **C53** is false for segments whose polynomials are shorter than `N()` (which `trajectoryFromYaml`
produces, see `C36_count_false`): writing them reads out of bounds. -/
theorem C53_short_false :
    segmentsToFile exCodec true [(⟨[⟨[0, 1]⟩], 1, 5⟩ : Segment ℚ)] = .ub :=
  Res.eq_ub_of_isUb (by decide +kernel)

example : ∀ s ∈ exIo.segments, Writable s ∧ ∀ p ∈ s.polys, p.coeffs.length = s.N := by
  intro s hs
  simp only [exIo, List.mem_cons, List.not_mem_nil, or_false] at hs
  rcases hs with rfl | rfl <;> exact ⟨⟨by norm_num, by norm_num, by norm_num, by norm_num⟩, by decide⟩
example : segmentsFromFile exCodec (.tree (trNode [segNode 2 1 1 [[0, 1]], segNode 3 1 1 [[0, 1]]])) [] =
    .ok (false, [⟨[⟨[0, 1]⟩], 1 / 10 ^ 9, 2⟩]) := by decide +kernel

/-! ### C54 failing to load a trajectory from a file -/

/-- **C54** is false: for a file that does not exist, or that has no entry `segments`,
`trajectoryFromFile` does not return false but aborts the process. -/
theorem C54_abort_false [Field K] (cd : Codec K S) :
    trajectoryFromFile (K := K) cd .missing = .abort ∧
    trajectoryFromFile (K := K) cd (.tree (.map [])) = .abort := ⟨rfl, rfl⟩

/-- **C54** is false: when the second segment of a file is malformed, the function returns false, but
the trajectory has been replaced by one that consists of the first segment. -/
theorem C54_replaced_false :
    trajectoryFromFile exCodec (.tree (trNode [segNode 2 1 (10 ^ 9) [[0, 1]], segNode 3 1 1 [[0, 1]]])) =
      .ok (false, ⟨1, 2, 1, [⟨[⟨[0, 1]⟩], 1, 2⟩]⟩) := by decide +kernel

/-- **C54**, partial: if it returns (true or false), the trajectory consists of a non-empty prefix of
the segments of the file, with the announced sizes. Missing: that failures leave the trajectory
unchanged and do not abort (both false, see above). -/
theorem C54_prefix_partial [Field K] (cd : Codec K S) (y : Yaml S) (tr : Trajectory K) (b : Bool)
    (h : trajectoryFromFile cd (.tree y) = .ok (b, tr)) :
    segmentsFromFile cd (.tree y) [] = .ok (b, tr.segments) ∧ tr.segments ≠ [] ∧
    ∀ s ∈ tr.segments, s.D = tr.D ∧ s.N = tr.N ∧ ∀ p ∈ s.polys, p.coeffs.length = s.N := by
  unfold trajectoryFromFile at h
  obtain ⟨r, hr, h⟩ := Res.bind_eq_ok.mp h
  obtain ⟨t, ht, h⟩ := Res.bind_eq_ok.mp h
  simp only [Res.pure_eq, Res.ok.injEq, Prod.mk.injEq] at h
  obtain ⟨rfl, rfl⟩ := h
  obtain ⟨h1, h2, h3, _⟩ := (setSegments_ok_iff _ _).mp ht
  rw [h3]
  exact ⟨hr, h1, fun s hs => ⟨(h2 s hs).1, (h2 s hs).2, C53_sizes cd y [] r.2 r.1 hr s hs⟩⟩

example : trajectoryFromFile exCodec (.tree (trNode [segNode 2 1 (10 ^ 9) [[0, 1]]])) =
    .ok (true, ⟨1, 2, 1, [⟨[⟨[0, 1]⟩], 1, 2⟩]⟩) := by decide +kernel

end Verif
