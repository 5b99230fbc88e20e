import Mathlib.Algebra.Order.Field.Basic
import Mathlib.Data.List.Perm.Basic
import Mathlib.Algebra.BigOperators.Group.List.Lemmas
import Mathlib.Tactic.Ring
import Mathlib.Tactic.Linarith
import Verif.Spec.Timing

/- Helper lemmas for the timing statistics. -/
set_option linter.unusedSectionVars false

namespace Verif

open Spec

variable {K : Type} [Field K] [LinearOrder K] [IsStrictOrderedRing K]

theorem incInt_ok {n : ℕ} (h : n < intMax) : incInt n = .ok (n + 1) := if_pos h

/-- The state of an accumulator after the samples `xs`. -/
structure AccInv (N : ℕ) (xs : List K) (a : Acc K) : Prop where
  windowSamples : a.windowSamples = xs.length
  totalSamples : a.totalSamples = xs.length
  sum : a.sum = xs.sum
  len : a.samples.length = N
  slot : ∀ j, (hj : j < xs.length) → xs.length ≤ j + N → a.samples[j % N]? = some xs[j]
  perm : (a.samples.take (min xs.length N)).Perm (lastN N xs)
  windowSum : a.windowSum = (lastN N xs).sum
  minLe : a.min ≤ dblMax ∧ ∀ x ∈ xs, a.min ≤ x
  minMem : a.min = dblMax ∨ a.min ∈ xs
  maxGe : dblMin ≤ a.max ∧ ∀ x ∈ xs, x ≤ a.max
  maxMem : a.max = dblMin ∨ a.max ∈ xs

theorem accInv_new (N : ℕ) (junk : List K) (h : junk.length = N) : AccInv N [] (Acc.new junk) :=
  ⟨rfl, rfl, rfl, h, by simp, by simp [lastN], by simp [Acc.new, Acc.start, lastN], ⟨le_rfl, by simp⟩, Or.inl rfl,
    ⟨le_rfl, by simp⟩, Or.inl rfl⟩

theorem set_perm {α : Type} (l : List α) (k : ℕ) (hk : k < l.length) (x : α) :
    (l.set k x).Perm (x :: l.eraseIdx k) := by
  induction l generalizing k with
  | nil => simp at hk
  | cons a as ih =>
    cases k with
    | zero => simp
    | succ k =>
      simp only [List.set_cons_succ, List.eraseIdx_cons_succ]
      exact ((ih k (by simpa using hk)).cons a).trans (List.Perm.swap x a _)

theorem perm_erase {α : Type} (l : List α) (k : ℕ) (hk : k < l.length) :
    l.Perm (l[k] :: l.eraseIdx k) := by
  induction l generalizing k with
  | nil => simp at hk
  | cons a as ih =>
    cases k with
    | zero => simp
    | succ k =>
      simp only [List.getElem_cons_succ, List.eraseIdx_cons_succ]
      exact ((ih k (by simpa using hk)).cons a).trans (List.Perm.swap _ a _)

/-- The part of the invariant that concerns the window. -/
theorem addWindow_ok (N : ℕ) (hN : 0 < N) (xs : List K) (a : Acc K) (h : AccInv N xs a)
    (hn : xs.length < intMax) (x : K) :
    ∃ sm, ∃ ws, a.addWindow N x = .ok (sm, ws, xs.length + 1) ∧ sm.length = N ∧
      (∀ j, (hj : j < (xs ++ [x]).length) → (xs ++ [x]).length ≤ j + N →
        sm[j % N]? = some (xs ++ [x])[j]) ∧
      (sm.take (min (xs ++ [x]).length N)).Perm (lastN N (xs ++ [x])) ∧
      ws = (lastN N (xs ++ [x])).sum := by
  have hlenx : (xs ++ [x]).length = xs.length + 1 := by simp
  by_cases hlt : xs.length < N
  · refine ⟨a.samples.set xs.length x, a.windowSum + x, ?_, by simp [h.len], ?_, ?_, ?_⟩
    · unfold Acc.addWindow
      rw [h.windowSamples, if_pos hlt, Res.at'_of_lt (by rw [h.len]; exact hlt), Res.ok_bind,
        incInt_ok hn]
      rfl
    · intro j hj hj2
      rw [hlenx] at hj hj2
      have hjN : j < N := by omega
      rw [Nat.mod_eq_of_lt hjN]
      by_cases e : j = xs.length
      · subst e
        rw [List.getElem?_set_self (by rw [h.len]; exact hjN)]
        simp
      · have hj' : j < xs.length := by omega
        rw [List.getElem?_set_ne (Ne.symm e)]
        have := h.slot j hj' (by omega)
        rw [Nat.mod_eq_of_lt hjN] at this
        rw [this, List.getElem_append_left hj']
    · have e1 : lastN N (xs ++ [x]) = xs ++ [x] := by
        unfold lastN
        rw [hlenx, show xs.length + 1 - N = 0 by omega, List.drop_zero]
      have e2 : lastN N xs = xs := by
        unfold lastN
        rw [show xs.length - N = 0 by omega, List.drop_zero]
      have hp := h.perm
      rw [show min xs.length N = xs.length by omega, e2] at hp
      rw [hlenx, show min (xs.length + 1) N = xs.length + 1 by omega, e1]
      have e3 : (a.samples.set xs.length x).take (xs.length + 1) = a.samples.take xs.length ++ [x] := by
        apply List.ext_getElem?
        intro i
        rw [List.getElem?_take]
        by_cases hi : i < xs.length
        · rw [if_pos (by omega), List.getElem?_set_ne (by omega),
            List.getElem?_append_left (by rw [List.length_take, h.len]; omega), List.getElem?_take,
            if_pos hi]
        · by_cases hi2 : i = xs.length
          · subst hi2
            rw [if_pos (by omega), List.getElem?_set_self (by rw [h.len]; exact hlt),
              List.getElem?_append_right (by rw [List.length_take]; omega), List.length_take, h.len,
              show min xs.length N = xs.length by omega]
            simp
          · rw [if_neg (by omega), eq_comm, List.getElem?_eq_none]
            rw [List.length_append, List.length_take, List.length_singleton]
            omega
      rw [e3]
      exact hp.append_right [x]
    · have e1 : lastN N (xs ++ [x]) = xs ++ [x] := by
        unfold lastN
        rw [hlenx, show xs.length + 1 - N = 0 by omega, List.drop_zero]
      have e2 : lastN N xs = xs := by
        unfold lastN
        rw [show xs.length - N = 0 by omega, List.drop_zero]
      rw [e1, h.windowSum, e2, List.sum_append, List.sum_singleton]
  · have hge : N ≤ xs.length := not_lt.mp hlt
    have hk : xs.length % N < a.samples.length := by rw [h.len]; exact Nat.mod_lt _ hN
    have hold : xs.length - N < xs.length := by omega
    have hslot := h.slot (xs.length - N) hold (by omega)
    have hmod : (xs.length - N) % N = xs.length % N := by
      conv_rhs => rw [show xs.length = (xs.length - N) + N by omega]
      rw [Nat.add_mod_right]
    rw [hmod, List.getElem?_eq_getElem hk] at hslot
    have hslot' : a.samples[xs.length % N] = xs[xs.length - N] := by simpa using hslot
    have e0 : lastN N xs = xs[xs.length - N] :: xs.drop (xs.length - N + 1) := by
      unfold lastN
      exact List.drop_eq_getElem_cons hold
    have e1 : lastN N (xs ++ [x]) = xs.drop (xs.length - N + 1) ++ [x] := by
      unfold lastN
      rw [hlenx, show xs.length + 1 - N = xs.length - N + 1 by omega,
        List.drop_append_of_le_length (by omega)]
    refine ⟨a.samples.set (xs.length % N) x, a.windowSum + (x - xs[xs.length - N]), ?_,
      by simp [h.len], ?_, ?_, ?_⟩
    · unfold Acc.addWindow
      rw [h.windowSamples, if_neg hlt, if_neg (by omega), Res.at'_of_lt hk, Res.ok_bind, incInt_ok hn,
        hslot']
      rfl
    · intro j hj hj2
      rw [hlenx] at hj hj2
      by_cases e : j = xs.length
      · subst e
        rw [List.getElem?_set_self hk]
        simp
      · have hj' : j < xs.length := by omega
        have hne : xs.length % N ≠ j % N := by
          intro hc
          have h1 : (xs.length - j) % N = 0 := Nat.sub_mod_eq_zero_of_mod_eq hc
          rw [Nat.mod_eq_of_lt (by omega)] at h1
          omega
        rw [List.getElem?_set_ne hne, h.slot j hj' (by omega), List.getElem_append_left hj']
    · have hp := h.perm
      rw [show min xs.length N = N by omega, List.take_of_length_le (by rw [h.len]), e0] at hp
      rw [hlenx, show min (xs.length + 1) N = N by omega,
        List.take_of_length_le (by rw [List.length_set, h.len]), e1]
      have p1 := perm_erase a.samples (xs.length % N) hk
      rw [hslot'] at p1
      have p2 : (a.samples.eraseIdx (xs.length % N)).Perm (xs.drop (xs.length - N + 1)) :=
        (List.perm_cons _).mp (p1.symm.trans hp)
      exact (set_perm a.samples (xs.length % N) hk x).trans
        ((p2.cons x).trans (List.perm_append_singleton x _).symm)
    · rw [e1, h.windowSum, e0, List.sum_cons, List.sum_append, List.sum_singleton]
      ring

theorem acc_add_ok (N : ℕ) (hN : 0 < N) (xs : List K) (a : Acc K) (h : AccInv N xs a)
    (hn : xs.length < intMax) (x : K) : ∃ a', a.add N x = .ok a' ∧ AccInv N (xs ++ [x]) a' := by
  obtain ⟨sm, ws, e, h1, h2, h3, h4⟩ := addWindow_ok N hN xs a h hn x
  have red : a.add N x = .ok ⟨xs.length + 1, xs.length + 1, ws, a.sum + x,
      if x < a.min then x else a.min, if x > a.max then x else a.max, sm⟩ := by
    unfold Acc.add
    rw [e, Res.ok_bind, h.totalSamples, incInt_ok hn]
    rfl
  refine ⟨_, red, ⟨by simp, by simp, by simp [h.sum], h1, h2, h3, h4, ?_, ?_, ?_, ?_⟩⟩
  · constructor
    · simp only
      split
      · next hc => exact le_trans hc.le h.minLe.1
      · exact h.minLe.1
    · intro y hy
      simp only
      rcases List.mem_append.mp hy with hy | hy
      · split
        · next hc => exact le_trans hc.le (h.minLe.2 y hy)
        · exact h.minLe.2 y hy
      · obtain rfl : y = x := by simpa using hy
        split
        · exact le_rfl
        · next hc => exact not_lt.mp hc
  · simp only
    split
    · right; simp
    · rcases h.minMem with hm | hm
      · exact Or.inl hm
      · right; simp [hm]
  · constructor
    · simp only
      split
      · next hc => exact le_trans h.maxGe.1 hc.le
      · exact h.maxGe.1
    · intro y hy
      simp only
      rcases List.mem_append.mp hy with hy | hy
      · split
        · next hc => exact le_trans (h.maxGe.2 y hy) hc.le
        · exact h.maxGe.2 y hy
      · obtain rfl : y = x := by simpa using hy
        split
        · exact le_rfl
        · next hc => exact not_lt.mp hc
  · simp only
    split
    · right; simp
    · rcases h.maxMem with hm | hm
      · exact Or.inl hm
      · right; simp [hm]

theorem addAll_inv (N : ℕ) (hN : 0 < N) (ys xs : List K) (a : Acc K) (h : AccInv N xs a)
    (hn : (xs ++ ys).length ≤ intMax) : ∃ a', addAll N a ys = .ok a' ∧ AccInv N (xs ++ ys) a' := by
  induction ys generalizing xs a with
  | nil => exact ⟨a, rfl, by simpa using h⟩
  | cons y ys ih =>
    simp only [List.length_append, List.length_cons] at hn
    obtain ⟨a1, e1, h1⟩ := acc_add_ok N hN xs a h (by omega) y
    obtain ⟨a2, e2, h2⟩ := ih (xs ++ [y]) a1 h1 (by simp; omega)
    refine ⟨a2, ?_, by simpa using h2⟩
    show (y :: ys).foldlM (Acc.add N) a = _
    rw [List.foldlM_cons, e1, Res.ok_bind]
    exact e2

theorem addAll_ok (N : ℕ) (hN : 0 < N) (junk : List K) (hj : junk.length = N) (xs : List K)
    (hn : xs.length ≤ intMax) : ∃ a, addAll N (Acc.new junk) xs = .ok a ∧ AccInv N xs a := by
  simpa using addAll_inv N hN xs [] (Acc.new junk) (accInv_new N junk hj) (by simpa using hn)

/-! #### the registry -/

/-- Tags and handles are unique and handles are valid. -/
structure RegInv (r : Registry K) : Prop where
  keys : (r.tags.map Prod.fst).Nodup
  handles : (r.tags.map Prod.snd).Nodup
  valid : ∀ e ∈ r.tags, e.2 < r.timers.length

theorem lookup_mem {tag : String} {h : ℕ} {l : List (String × ℕ)} (e : l.lookup tag = some h) :
    (tag, h) ∈ l := by
  induction l with
  | nil => simp at e
  | cons x xs ih =>
    obtain ⟨a, b⟩ := x
    rw [List.lookup_cons] at e
    by_cases hc : tag = a
    · subst hc
      simp at e
      simp [e]
    · have : (tag == a) = false := by simpa using hc
      rw [this] at e
      simp only at e
      exact List.mem_cons_of_mem _ (ih e)

theorem lookup_none {tag : String} {l : List (String × ℕ)} (e : l.lookup tag = none) :
    ∀ p ∈ l, p.1 ≠ tag := by
  induction l with
  | nil => simp
  | cons x xs ih =>
    obtain ⟨a, b⟩ := x
    rw [List.lookup_cons] at e
    by_cases hc : tag = a
    · subst hc
      simp at e
    · have : (tag == a) = false := by simpa using hc
      rw [this] at e
      simp only at e
      intro p hp
      rcases List.mem_cons.mp hp with rfl | hp
      · exact fun h => hc h.symm
      · exact ih e p hp

theorem lookup_of_mem {tag : String} {h : ℕ} {l : List (String × ℕ)} (hk : (l.map Prod.fst).Nodup)
    (hm : (tag, h) ∈ l) : l.lookup tag = some h := by
  induction l with
  | nil => simp at hm
  | cons x xs ih =>
    obtain ⟨a, b⟩ := x
    rw [List.lookup_cons]
    simp only [List.map_cons, List.nodup_cons] at hk
    rcases List.mem_cons.mp hm with e | hm'
    · obtain ⟨rfl, rfl⟩ := Prod.mk.inj e
      simp
    · have hne : tag ≠ a := by
        rintro rfl
        exact hk.1 (List.mem_map.mpr ⟨(tag, h), hm', rfl⟩)
      have : (tag == a) = false := by simpa using hne
      rw [this]
      exact ih hk.2 hm'

theorem regInv_new : RegInv (Registry.new : Registry K) := ⟨by simp [Registry.new], by simp [Registry.new],
  by simp [Registry.new]⟩

/-- What a call can do to the registry. -/
structure Extends (noReset : Prop) (r r' : Registry K) : Prop where
  inv : RegInv r'
  grow : r.timers.length ≤ r'.timers.length
  fresh : ∀ e ∈ r'.tags, e ∈ r.tags ∨ r.timers.length ≤ e.2
  keep : noReset → ∀ e ∈ r.tags, e ∈ r'.tags

theorem getHandle_spec (junk : ℕ → List K) (r : Registry K) (h : RegInv r) (tag : String) :
    Extends True r (r.getHandle junk tag).2 ∧
      (tag, (r.getHandle junk tag).1) ∈ (r.getHandle junk tag).2.tags := by
  unfold Registry.getHandle
  cases e : r.tags.lookup tag with
  | some x => exact ⟨⟨h, le_rfl, fun e he => Or.inl he, fun _ e he => he⟩, lookup_mem e⟩
  | none =>
    simp only
    refine ⟨⟨⟨?_, ?_, ?_⟩, by simp, ?_, fun _ e he => List.mem_cons_of_mem _ he⟩, by simp⟩
    · simp only [List.map_cons, List.nodup_cons]
      refine ⟨?_, h.keys⟩
      intro hm
      obtain ⟨p, hp, hpe⟩ := List.mem_map.mp hm
      exact lookup_none e p hp hpe
    · simp only [List.map_cons, List.nodup_cons]
      refine ⟨?_, h.handles⟩
      intro hm
      obtain ⟨p, hp, hpe⟩ := List.mem_map.mp hm
      have := h.valid p hp
      omega
    · intro p hp
      simp only [List.length_append, List.length_singleton]
      rcases List.mem_cons.mp hp with rfl | hp
      · simp
      · have := h.valid p hp
        omega
    · intro p hp
      rcases List.mem_cons.mp hp with rfl | hp
      · exact Or.inr le_rfl
      · exact Or.inl hp

theorem addTime_eq_ok {r r' : Registry K} {h : ℕ} {x : K} (e : r.addTime h x = .ok r') :
    ∃ hh : h < r.timers.length, ∃ a', (r.timers[h]).add timerWindow x = .ok a' ∧
      r' = { r with timers := r.timers.set h a' } := by
  unfold Registry.addTime at e
  obtain ⟨a, ha, e1⟩ := Res.bind_eq_ok.mp e
  obtain ⟨a', ha', e2⟩ := Res.bind_eq_ok.mp e1
  rw [Res.at'_eq_ok, List.getElem?_eq_some_iff] at ha
  obtain ⟨hh, rfl⟩ := ha
  exact ⟨hh, a', ha', by simpa using e2.symm⟩

theorem step_extends (junk : ℕ → List K) (r r' : Registry K) (h : RegInv r) (op : TimingOp K)
    (e : op.step junk r = .ok r') : Extends (∀ _ : op = .reset, False) r r' := by
  cases op with
  | getHandle tag =>
    obtain rfl : (r.getHandle junk tag).2 = r' := by simpa [TimingOp.step] using e
    have := (getHandle_spec junk r h tag).1
    exact ⟨this.inv, this.grow, this.fresh, fun _ => this.keep trivial⟩
  | addTime hd x =>
    obtain ⟨hh, a', _, rfl⟩ := addTime_eq_ok e
    exact ⟨⟨h.keys, h.handles, by simpa using h.valid⟩, by simp, fun e he => Or.inl he,
      fun _ e he => he⟩
  | reset =>
    obtain rfl : r.reset = r' := by simpa [TimingOp.step] using e
    exact ⟨⟨by simp [Registry.reset], by simp [Registry.reset], by simp [Registry.reset]⟩,
      le_rfl, by simp [Registry.reset], fun hc => absurd rfl (fun h => hc h)⟩

theorem run_extends (junk : ℕ → List K) (ops : List (TimingOp K)) (r r' : Registry K) (h : RegInv r)
    (e : runTiming junk r ops = .ok r') : Extends (∀ op ∈ ops, op ≠ .reset) r r' := by
  induction ops generalizing r with
  | nil =>
    obtain rfl : r = r' := by simpa [runTiming] using e
    exact ⟨h, le_rfl, fun e he => Or.inl he, fun _ e he => he⟩
  | cons op ops ih =>
    unfold runTiming at e
    rw [List.foldlM_cons] at e
    obtain ⟨r1, e1, e2⟩ := Res.bind_eq_ok.mp e
    have s1 := step_extends junk r r1 h op e1
    have s2 := ih r1 s1.inv e2
    refine ⟨s2.inv, le_trans s1.grow s2.grow, ?_, ?_⟩
    · intro p hp
      rcases s2.fresh p hp with hp | hp
      · exact s1.fresh p hp
      · exact Or.inr (le_trans s1.grow hp)
    · intro hno p hp
      exact s2.keep (fun o ho => hno o (by simp [ho])) p (s1.keep (fun hc => hno op (by simp) hc) p hp)

/-- Every timer holds the statistics of the samples added to its handle. -/
structure StatInv (ops : List (TimingOp K)) (r : Registry K) : Prop where
  acc : ∀ h, (hh : h < r.timers.length) → AccInv timerWindow (samplesOf h ops) r.timers[h]
  none : ∀ h, r.timers.length ≤ h → samplesOf h ops = []

theorem samplesOf_append (h : ℕ) (ops : List (TimingOp K)) (op : TimingOp K) :
    samplesOf h (ops ++ [op]) = samplesOf h ops ++ samplesOf h [op] := by
  unfold samplesOf
  rw [List.filterMap_append]

theorem add_count {N : ℕ} {a a' : Acc K} {x : K} (e : a.add N x = .ok a') : a.totalSamples < intMax := by
  unfold Acc.add at e
  obtain ⟨_, _, e⟩ := Res.bind_eq_ok.mp e
  obtain ⟨n, hn, _⟩ := Res.bind_eq_ok.mp e
  by_contra hc
  unfold incInt at hn
  rw [if_neg hc] at hn
  simp at hn

theorem statInv_step (junk : ℕ → List K) (hj : ∀ i, (junk i).length = timerWindow)
    (ops : List (TimingOp K)) (r r' : Registry K) (h : StatInv ops r) (op : TimingOp K)
    (e : op.step junk r = .ok r') : StatInv (ops ++ [op]) r' := by
  cases op with
  | getHandle tag =>
    obtain rfl : (r.getHandle junk tag).2 = r' := by simpa [TimingOp.step] using e
    have hs : ∀ x, samplesOf x (ops ++ [TimingOp.getHandle tag]) = samplesOf x ops := by
      intro x; rw [samplesOf_append]; simp [samplesOf]
    unfold Registry.getHandle
    cases r.tags.lookup tag with
    | some x => exact ⟨fun x hx => by rw [hs]; exact h.acc x hx, fun x hx => by rw [hs]; exact h.none x hx⟩
    | none =>
      simp only
      refine ⟨?_, ?_⟩
      · intro x hx
        rw [hs]
        simp only [List.length_append, List.length_singleton] at hx
        by_cases hx' : x < r.timers.length
        · rw [List.getElem_append_left hx']
          exact h.acc x hx'
        · obtain rfl : x = r.timers.length := by omega
          rw [h.none _ le_rfl, List.getElem_append_right le_rfl]
          simp only [Nat.sub_self, List.getElem_cons_zero]
          exact accInv_new _ _ (hj _)
      · intro x hx
        rw [hs]
        simp only [List.length_append, List.length_singleton] at hx
        exact h.none x (by omega)
  | addTime hd v =>
    obtain ⟨hh, a', ea, rfl⟩ := addTime_eq_ok e
    have hs : ∀ x, samplesOf x (ops ++ [TimingOp.addTime hd v]) =
        samplesOf x ops ++ if hd = x then [v] else [] := by
      intro x
      rw [samplesOf_append]
      congr 1
      by_cases hc : hd = x <;> simp [samplesOf, hc]
    refine ⟨?_, ?_⟩
    · intro x hx
      simp only [List.length_set] at hx
      rw [hs]
      by_cases hc : hd = x
      · subst hc
        simp only [if_true, List.getElem_set_self]
        have hi := h.acc hd hh
        obtain ⟨a2, e2, h2⟩ := acc_add_ok timerWindow (by decide) _ _ hi (by
          rw [← hi.totalSamples]; exact add_count ea) v
        rw [e2] at ea
        obtain rfl : a2 = a' := by simpa using ea
        exact h2
      · simp only [if_neg hc, List.append_nil]
        rw [List.getElem_set_ne hc]
        exact h.acc x hx
    · intro x hx
      simp only [List.length_set] at hx
      rw [hs, h.none x hx, if_neg (by omega)]
      rfl
  | reset =>
    obtain rfl : r.reset = r' := by simpa [TimingOp.step] using e
    have hs : ∀ x, samplesOf x (ops ++ [TimingOp.reset]) = samplesOf x ops := by
      intro x; rw [samplesOf_append]; simp [samplesOf]
    exact ⟨fun x hx => by rw [hs]; exact h.acc x hx, fun x hx => by rw [hs]; exact h.none x hx⟩

theorem statInv_run (junk : ℕ → List K) (hj : ∀ i, (junk i).length = timerWindow)
    (ops : List (TimingOp K)) (r' : Registry K)
    (e : runTiming junk Registry.new ops = .ok r') : StatInv ops r' := by
  have key : ∀ (rest done : List (TimingOp K)) (r : Registry K), StatInv done r →
      runTiming junk r rest = .ok r' → StatInv (done ++ rest) r' := by
    intro rest
    induction rest with
    | nil =>
      intro done r h e
      obtain rfl : r = r' := by simpa [runTiming] using e
      simpa using h
    | cons op rest ih =>
      intro done r h e
      unfold runTiming at e
      rw [List.foldlM_cons] at e
      obtain ⟨r1, e1, e2⟩ := Res.bind_eq_ok.mp e
      have := ih (done ++ [op]) r1 (statInv_step junk hj done r r1 h op e1) e2
      simpa using this
  exact key ops [] Registry.new ⟨by simp [Registry.new], by simp [samplesOf]⟩ e

end Verif
