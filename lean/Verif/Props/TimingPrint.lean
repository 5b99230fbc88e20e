import Mathlib.Algebra.Order.Ring.Rat
import Verif.Proofs.Timing
import Verif.Model.TimingPrint
import Verif.Spec.TimingPrint

/-! Property C111: the printed table of timers. -/

set_option linter.unusedSectionVars false

namespace Verif

open Spec

variable {K : Type} [Field K] [LinearOrder K] [IsStrictOrderedRing K]

theorem names_run (junk : ℕ → List K) (ops : List (TimingOp K)) : ∀ r,
    runTiming junk Registry.new ops = .ok r → ∀ tag, tag ∈ r.tags.map Prod.fst ↔ tag ∈ openNames ops := by
  induction ops using List.reverseRecOn with
  | nil =>
    intro r e tag
    obtain rfl : Registry.new = r := by simpa [runTiming] using e
    simp [Registry.new, openNames]
  | append_singleton ops op ih =>
    intro r e tag
    unfold runTiming at e
    rw [List.foldlM_append, Res.bind_eq_ok] at e
    obtain ⟨r1, e1, e2⟩ := e
    have h1 := ih r1 e1
    rw [List.foldlM_cons, Res.bind_eq_ok] at e2
    obtain ⟨r2, e2, e3⟩ := e2
    rw [List.foldlM_nil, Res.pure_eq, Res.ok.injEq] at e3
    subst e3
    have h2 : openNames (ops ++ [op]) = (match op with
      | .getHandle tag => tag :: openNames ops
      | .addTime _ _ => openNames ops
      | .reset => []) := by
      unfold openNames
      rw [List.foldl_append, List.foldl_cons, List.foldl_nil]
      cases op <;> rfl
    rw [h2]
    cases op with
    | getHandle t =>
      obtain rfl : (r1.getHandle junk t).2 = r2 := by simpa [TimingOp.step] using e2
      dsimp only
      rw [List.mem_cons, ← h1 tag]
      unfold Registry.getHandle
      cases e : r1.tags.lookup t with
      | none => simp
      | some x =>
        have := lookup_mem e
        dsimp only
        constructor
        · exact .inr
        · rintro (rfl | h)
          · exact List.mem_map.mpr ⟨_, this, rfl⟩
          · exact h
    | addTime h x =>
      obtain ⟨-, a', -, rfl⟩ := addTime_eq_ok (show r1.addTime h x = .ok r2 from e2)
      exact h1 tag
    | reset =>
      obtain rfl : r1.reset = r2 := by simpa [TimingOp.step] using e2
      simp [Registry.reset]

theorem accInv_stats {xs : List K} {a : Acc K} (N : ℕ) (hN : 0 < N) (h : AccInv N xs a) (hne : xs ≠ []) :
    a.mean = some (meanOf xs) ∧ a.rollingMean N = some (meanOf (lastN N xs)) ∧
      a.lazyVariance N = some (varianceOf (lastN N xs)) ∧ a.min = smallest xs ∧ a.max = largest xs := by
  have hpos : 0 < xs.length := List.length_pos_iff.mpr hne
  have hlen : (lastN N xs).length = min xs.length N := by
    unfold lastN
    rw [List.length_drop]
    omega
  have hmin : Nat.min a.windowSamples N = min xs.length N := by rw [h.windowSamples]
  have hm0 : min xs.length N ≠ 0 := by omega
  have hroll : a.rollingMean N = some (meanOf (lastN N xs)) := by
    unfold Acc.rollingMean divInt meanOf
    rw [hmin, if_neg hm0, h.windowSum, hlen]
  refine ⟨?_, hroll, ?_, ?_, ?_⟩
  · unfold Acc.mean divInt meanOf
    rw [h.totalSamples, if_neg (by omega), h.sum]
  · unfold Acc.lazyVariance
    rw [if_neg (by rw [h.windowSamples]; omega), hroll]
    simp only [Option.bind_eq_bind, Option.bind_some]
    unfold divInt
    rw [hmin, if_neg hm0]
    unfold varianceOf
    conv_rhs => rw [meanOf]
    rw [List.length_map, hlen]
    congr 2
    have hp := h.perm.map fun x => (x - meanOf (lastN N xs)) * (x - meanOf (lastN N xs))
    rw [hp.sum_eq]
    congr 1
    refine List.map_congr_left fun x _ => ?_
    ring
  · unfold smallest
    have key : ∀ (ys : List K), ys.foldr min dblMax ≤ dblMax ∧ (∀ y ∈ ys, ys.foldr min dblMax ≤ y) ∧
        (ys.foldr min dblMax = dblMax ∨ ys.foldr min dblMax ∈ ys) := by
      intro ys
      induction ys with
      | nil => simp
      | cons y ys ih =>
        rw [List.foldr_cons]
        refine ⟨(min_le_right _ _).trans ih.1, ?_, ?_⟩
        · intro z hz
          rcases List.mem_cons.mp hz with rfl | hz
          · exact min_le_left _ _
          · exact (min_le_right _ _).trans (ih.2.1 z hz)
        · rcases min_cases y (ys.foldr min dblMax) with ⟨h1, -⟩ | ⟨h1, -⟩ <;> rw [h1]
          · exact .inr (by simp)
          · rcases ih.2.2 with h2 | h2
            · exact .inl h2
            · exact .inr (by simp [h2])
    obtain ⟨k1, k2, k3⟩ := key xs
    apply le_antisymm
    · rcases k3 with h1 | h1
      · rw [h1]
        exact h.minLe.1
      · exact h.minLe.2 _ h1
    · rcases h.minMem with h1 | h1
      · rw [h1]
        exact k1
      · exact k2 _ h1
  · unfold largest
    have key : ∀ (ys : List K), dblMin ≤ ys.foldr max dblMin ∧ (∀ y ∈ ys, y ≤ ys.foldr max dblMin) ∧
        (ys.foldr max dblMin = dblMin ∨ ys.foldr max dblMin ∈ ys) := by
      intro ys
      induction ys with
      | nil => simp
      | cons y ys ih =>
        rw [List.foldr_cons]
        refine ⟨ih.1.trans (le_max_right _ _), ?_, ?_⟩
        · intro z hz
          rcases List.mem_cons.mp hz with rfl | hz
          · exact le_max_left _ _
          · exact (ih.2.1 z hz).trans (le_max_right _ _)
        · rcases max_cases y (ys.foldr max dblMin) with ⟨h1, -⟩ | ⟨h1, -⟩ <;> rw [h1]
          · exact .inr (by simp)
          · rcases ih.2.2 with h2 | h2
            · exact .inl h2
            · exact .inr (by simp [h2])
    obtain ⟨k1, k2, k3⟩ := key xs
    show a.max = xs.foldr max dblMin
    apply le_antisymm
    · rcases h.maxMem with h1 | h1
      · rw [h1]
        exact k1
      · exact k2 _ h1
    · rcases k3 with h1 | h1
      · rw [h1]
        exact h.maxGe.1
      · exact h.maxGe.2 _ h1

theorem timerWindow_pos : 0 < timerWindow := by decide

/-- **C111.** After any history of calls `Print` returns, and its table has one line for each name for which a
timer was requested since the last Reset, in alphabetical order. The line of a name has the figures of the
samples added to its handle: their number and, if there are any, total, mean, the standard deviation of the
last 50, the smallest, and the largest (but at least 2^-1022). The deviation should be that of all samples, as the
mean is: see `C111_deviation_false`. -/
theorem C111_print_partial (sq : K → K) (junk : ℕ → List K) (hj : ∀ i, (junk i).length = timerWindow)
    (ops : List (TimingOp K)) (r : Registry K) (e : runTiming junk Registry.new ops = .ok r) :
    ∃ rows, r.print sq = .ok rows ∧ (rows.map fun w => w.tag).Pairwise (· < ·) ∧
      (∀ name, name ∈ rows.map (fun w => w.tag) ↔ name ∈ openNames ops) ∧
      ∀ w ∈ rows, ∀ xs, xs = samplesOf (r.getHandle junk w.tag).1 ops →
        w.numSamples = xs.length ∧
        w.figures = if xs = [] then none else
          some ⟨xs.sum, some (meanOf xs), some (sq (varianceOf (lastN 50 xs))), smallest xs, largest xs⟩ := by
  have hinv : RegInv r := (run_extends junk ops _ _ regInv_new e).inv
  have hstat := statInv_run junk hj ops r e
  set tags := r.tags.insertionSort fun a b => a.1 ≤ b.1 with htags
  have hperm : tags.Perm r.tags := List.perm_insertionSort _ _
  have hrow : ∀ p ∈ tags, r.printRow sq p = .ok ⟨p.1, (samplesOf p.2 ops).length,
      if samplesOf p.2 ops = [] then none else
        some ⟨(samplesOf p.2 ops).sum, some (meanOf (samplesOf p.2 ops)),
          some (sq (varianceOf (lastN 50 (samplesOf p.2 ops)))), smallest (samplesOf p.2 ops),
          largest (samplesOf p.2 ops)⟩⟩ := by
    intro p hp
    have hh : p.2 < r.timers.length := hinv.valid p (hperm.mem_iff.mp hp)
    have ha := hstat.acc p.2 hh
    unfold Registry.printRow Registry.numSamples
    rw [Res.at'_of_lt hh, Res.ok_bind, Res.pure_eq, Res.ok_bind, ha.totalSamples]
    by_cases hx : samplesOf p.2 ops = []
    · rw [hx, if_neg (by simp), if_pos rfl]
      rfl
    · obtain ⟨s1, -, s2, s3, s4⟩ := accInv_stats timerWindow timerWindow_pos ha hx
      rw [if_pos (List.length_pos_iff.mpr hx), if_neg hx, Res.ok_bind, s1, s2, s3, s4, ha.sum]
      rfl
  have hprint : r.print sq = .ok (tags.map fun p => ⟨p.1, (samplesOf p.2 ops).length,
      if samplesOf p.2 ops = [] then none else
        some ⟨(samplesOf p.2 ops).sum, some (meanOf (samplesOf p.2 ops)),
          some (sq (varianceOf (lastN 50 (samplesOf p.2 ops)))), smallest (samplesOf p.2 ops),
          largest (samplesOf p.2 ops)⟩⟩) := Res.mapM_ok hrow
  have hnames : ((tags.map fun p : String × ℕ => (⟨p.1, (samplesOf p.2 ops).length,
      if samplesOf p.2 ops = [] then none else
        some ⟨(samplesOf p.2 ops).sum, some (meanOf (samplesOf p.2 ops)),
          some (sq (varianceOf (lastN 50 (samplesOf p.2 ops)))), smallest (samplesOf p.2 ops),
          largest (samplesOf p.2 ops)⟩⟩ : TimingRow K)).map fun w => w.tag) = tags.map Prod.fst := by
    rw [List.map_map]
    rfl
  refine ⟨_, hprint, ?_, ?_, ?_⟩
  · rw [hnames]
    have h1 : (tags.map Prod.fst).Nodup := (hperm.map Prod.fst).nodup_iff.mpr hinv.keys
    have h2 : (tags.map Prod.fst).Pairwise (· ≤ ·) := by
      rw [List.pairwise_map]
      haveI : Std.Total (fun a b : String × ℕ => a.1 ≤ b.1) := ⟨fun a b => le_total a.1 b.1⟩
      haveI : IsTrans (String × ℕ) (fun a b : String × ℕ => a.1 ≤ b.1) := ⟨fun a b c => le_trans⟩
      exact List.pairwise_insertionSort _ _
    exact (h2.and h1).imp fun hp => lt_of_le_of_ne hp.1 hp.2
  · intro name
    rw [hnames, (hperm.map Prod.fst).mem_iff]
    exact names_run junk ops r e name
  · intro w hw xs hxs
    obtain ⟨p, hp, rfl⟩ := List.mem_map.mp hw
    have hl : (r.getHandle junk p.1).1 = p.2 := by
      unfold Registry.getHandle
      rw [lookup_of_mem hinv.keys (hperm.mem_iff.mp hp)]
    dsimp only at hxs
    rw [hl] at hxs
    subst hxs
    exact ⟨rfl, rfl⟩

/-- **C111.** `GetHz` is one divided by the mean of the last 50 samples of the handle; without samples, or if
that mean is zero, it is not a number. -/
theorem C111_hz (junk : ℕ → List K) (hj : ∀ i, (junk i).length = timerWindow)
    (ops : List (TimingOp K)) (r : Registry K) (e : runTiming junk Registry.new ops = .ok r) (h : ℕ)
    (hh : h < r.timers.length) (xs : List K) (hxs : xs = samplesOf h ops) :
    r.getHz h = .ok (if xs = [] ∨ meanOf (lastN 50 xs) = 0 then none else some (1 / meanOf (lastN 50 xs))) := by
  subst hxs
  have ha := (statInv_run junk hj ops r e).acc h hh
  unfold Registry.getHz
  rw [Res.at'_of_lt hh, Res.ok_bind, Res.pure_eq]
  by_cases hx : samplesOf h ops = []
  · rw [if_pos (.inl hx)]
    unfold Acc.rollingMean divInt
    rw [ha.windowSamples, hx]
    rfl
  · obtain ⟨-, s1, -⟩ := accInv_stats timerWindow timerWindow_pos ha hx
    rw [s1]
    show Res.ok (if meanOf (lastN 50 (samplesOf h ops)) = 0 then none else _) = _
    by_cases h0 : meanOf (lastN 50 (samplesOf h ops)) = 0
    · rw [if_pos h0, if_pos (.inr h0)]
    · rw [if_neg h0, if_neg (by tauto)]
      rfl

/-- Three names, a Reset before the last two; samples for one of them. -/
example :
    let junk : ℕ → List ℚ := fun _ => List.replicate 50 0
    let ops : List (TimingOp ℚ) := [.getHandle "c", .addTime 0 9, .reset, .getHandle "b", .getHandle "a",
      .addTime 1 3, .addTime 1 5]
    (do
      let r ← runTiming junk Registry.new ops
      let rows ← r.print id
      let hz ← r.getHz 1
      pure (rows, hz)) =
    (.ok ([⟨"a", 0, none⟩, ⟨"b", 2, some ⟨8, some 4, some 1, 3, 5⟩⟩], some (1 / 4)) :
      Res (List (TimingRow ℚ) × Option ℚ)) := by
  decide +kernel

/-- Printing the mean "+-" the standard deviation of the samples, as the layout of the table says. -/
def DeviationOfSamples (sq : K → K) : Prop :=
  ∀ (junk : ℕ → List K), (∀ i, (junk i).length = timerWindow) → ∀ (ops : List (TimingOp K)) (r : Registry K),
    runTiming junk Registry.new ops = .ok r → ∀ rows, r.print sq = .ok rows → ∀ w ∈ rows, ∀ f,
      w.figures = some f → f.stddev = some (sq (varianceOf (samplesOf (r.getHandle junk w.tag).1 ops)))

/-- **C111, refuted part.** The mean is that of all samples, the deviation next to it only that of the last
50: with one sample of 51 s and then fifty of 0 s the table says 1 s +- 0 s. -/
theorem C111_deviation_false : ¬ DeviationOfSamples (K := ℚ) id := by
  intro h
  have hd : ∀ (junk : ℕ → List ℚ) (ops : List (TimingOp ℚ)), junk = (fun _ => List.replicate 50 0) →
      ops = .getHandle "a" :: .addTime 0 51 :: List.replicate 50 (.addTime 0 0) →
      ∃ r, runTiming junk Registry.new ops = .ok r ∧ (r.getHandle junk "a").1 = 0 ∧
        ∃ f, r.print id = .ok [⟨"a", 51, some f⟩] ∧ f.mean = some 1 ∧ f.stddev = some 0 ∧
          varianceOf (samplesOf 0 ops) ≠ 0 := by
    rintro _ _ rfl rfl
    have key : (match runTiming (fun _ => List.replicate 50 (0 : ℚ)) Registry.new
        (.getHandle "a" :: .addTime 0 51 :: List.replicate 50 (.addTime 0 0)) with
      | .ok r => decide ((r.getHandle (fun _ => List.replicate 50 (0 : ℚ)) "a").1 = 0 ∧
          r.print id = .ok [⟨"a", 51, some ⟨51, some 1, some 0, 0, 51⟩⟩])
      | _ => false) = true := by decide +kernel
    revert key
    generalize runTiming (fun _ => List.replicate 50 (0 : ℚ)) Registry.new
        (.getHandle "a" :: .addTime 0 51 :: List.replicate 50 (.addTime 0 0)) = q
    rcases q with r | _ | _ | _ | _
    · intro k
      obtain ⟨k1, k2⟩ := of_decide_eq_true k
      exact ⟨r, rfl, k1, _, k2, rfl, rfl, by decide +kernel⟩
    all_goals exact fun k => absurd k (by simp)
  obtain ⟨r, e, e1, f, e2, -, e3, e4⟩ := hd _ _ rfl rfl
  have := h _ (fun _ => by simp [timerWindow]) _ r e _ e2 _ (List.mem_singleton.mpr rfl) f rfl
  rw [e1, e3, Option.some.injEq] at this
  exact e4 this.symm

end Verif
