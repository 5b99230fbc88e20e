import Mathlib.Data.Rat.Floor
import Verif.Props.TimingPrint
import Verif.Proofs.TimingText

/-! Property C138: the text of times and of the table of timers. -/

set_option linter.unusedSectionVars false

namespace Verif

open Spec

variable {K : Type} [Field K] [LinearOrder K] [IsStrictOrderedRing K] [FloorSemiring K]

/-- **C138.** The text of a time with at most 247 digits before the point is a decimal number that differs from the
time by at most half a microsecond. -/
theorem C138_accuracy_partial (x : K) (h : |x| ≤ 10 ^ 247 - 1) :
    ∃ q : ℚ, readDecimal (timeText x) = some q ∧ |(q : K) - x| ≤ 1 / (2 * 10 ^ 6) := timeText_shows h

/-- **C138.** Texts keep the order: a longer time is not shown as a smaller number. -/
theorem C138_order_partial (x y : K) (h : x ≤ y) (hx : |x| ≤ 10 ^ 247 - 1) (hy : |y| ≤ 10 ^ 247 - 1) :
    ∃ p q : ℚ, readDecimal (timeText x) = some p ∧ readDecimal (timeText y) = some q ∧ p ≤ q :=
  ⟨shown x, shown y, by rw [timeText_all hx, printf_read], by rw [timeText_all hy, printf_read], shown_mono h⟩

example : |(1 / 3 : ℚ)| ≤ 10 ^ 247 - 1 ∧ timeText (1 / 3 : ℚ) = "00.333333".toList ∧
    readDecimal (timeText (1 / 3 : ℚ)) = some (333333 / 1000000) ∧
    timeText (-1234.5678915 : ℚ) = "-1234.567892".toList ∧ timeText (0.0000005 : ℚ) = "00.000000".toList := by
  decide +kernel

/-- **C138.** The text of a time has nine characters if and only if the time, rounded to microseconds, is above -10
and below 100 seconds; it never has fewer. -/
theorem C138_width (x : K) :
    ((timeText x).length = 9 ↔ -10 + 1 / (2 * 10 ^ 6) < x ∧ x < 100 - 1 / (2 * 10 ^ 6)) ∧ 9 ≤ (timeText x).length :=
  ⟨timeText_length_nine x, timeText_min_length x⟩

example : (timeText (99.9999994 : ℚ)).length = 9 ∧ (timeText (99.9999995 : ℚ)).length = 10 := by decide +kernel

/-- **C138.** Infinities and NaN are shown with nine characters too, which are not a number. -/
theorem C138_special (nanNeg neg : Bool) :
    (Dbl.timeText nanNeg (.inf neg)).length = 9 ∧ readDecimal (Dbl.timeText nanNeg (.inf neg)) = none ∧
    (Dbl.timeText nanNeg .nan).length = 9 ∧ readDecimal (Dbl.timeText nanNeg .nan) = none := by
  unfold Dbl.timeText
  cases nanNeg <;> cases neg <;> decide

/-- **C138** fails for large times: from 10^255 seconds on, the buffer of 256 characters ends before the point, and the
text shows a number below 10^255. The number 2^1000 is a finite double and is not shown to half a microsecond. -/
theorem C138_large_false : (∀ x : K, 10 ^ 255 ≤ x → ∃ q : ℚ, readDecimal (timeText x) = some q ∧ q < 10 ^ 255) ∧
    ¬ Shows (timeText (2 ^ 1000 : ℝ)) (2 ^ 1000 : ℝ) := by
  have h1 : ∀ (L : Type) [Field L] [LinearOrder L] [IsStrictOrderedRing L] [FloorSemiring L] (x : L), 10 ^ 255 ≤ x →
      ∃ q : ℚ, readDecimal (timeText x) = some q ∧ q + 1 ≤ 10 ^ 255 := by
    intro L _ _ _ _ x hx
    obtain ⟨n, e, hn⟩ := timeText_cut hx
    refine ⟨n, e, ?_⟩
    have : ((n + 1 : ℕ) : ℚ) ≤ ((10 ^ 255 : ℕ) : ℚ) := Nat.cast_le.mpr hn
    push_cast at this
    exact this
  refine ⟨fun x hx => ?_, fun h => ?_⟩
  · obtain ⟨q, e, hq⟩ := h1 K x hx
    exact ⟨q, e, by linarith⟩
  · have hx : (10 : ℝ) ^ 255 ≤ 2 ^ 1000 :=
      calc (10 : ℝ) ^ 255 ≤ 10 ^ 300 := pow_le_pow_right₀ (by norm_num) (by norm_num)
        _ = (10 ^ 3) ^ 100 := by rw [← pow_mul]
        _ ≤ (2 ^ 10) ^ 100 := pow_le_pow_left₀ (by norm_num) (by norm_num) _
        _ = 2 ^ 1000 := by rw [← pow_mul]
    obtain ⟨q, e, hq⟩ := h1 ℝ (2 ^ 1000) hx
    obtain ⟨q', e', hq'⟩ := h
    rw [e, Option.some.injEq] at e'
    subst e'
    have h2 : (q : ℝ) + 1 ≤ 10 ^ 255 := by exact_mod_cast hq
    have h3 := (abs_le.mp hq').1
    have h4 : (1 : ℝ) ≤ 2 ^ 1000 - q := by
      rw [le_sub_iff_add_le, add_comm]
      exact h2.trans hx
    have h5 : (2 : ℝ) ^ 1000 - q ≤ 1 / (2 * 10 ^ 6) := by
      rw [← neg_sub, neg_le]
      exact h3
    have h6 := h4.trans h5
    norm_num at h6

/-- **C138.** After any history of calls whose names have no tabs and line ends, the text of the table has two lines of
heading, then one line for each row of the table (of C111), and the line, read column by column, says what the row
says: the name, in a column as wide as the longest name ever used, so that the columns after it are aligned; the
number of samples; and the figures, each to half a microsecond. Without names the text is empty. -/
theorem C138_table_partial (sq : K → K) (junk : ℕ → List K) (hj : ∀ i, (junk i).length = timerWindow)
    (ops : List (TimingOp K)) (r : WideRegistry K) (e : runWide junk WideRegistry.new ops = .ok r)
    (hn : ∀ name ∈ openNames ops, '\t' ∉ name.toList ∧ '\n' ∉ name.toList) :
    runTiming junk Registry.new ops = .ok r.reg ∧
    ∃ rows text, r.reg.print sq = .ok rows ∧ r.printText sq = .ok text ∧
      (openNames ops = [] → text = []) ∧
      (openNames ops ≠ [] → ∃ lines,
        fields '\n' text = "SM Timing".toList :: "-----------".toList :: lines ++ [[]] ∧
        List.Forall₂ (LineSays (((everNamed ops).map fun s => s.toList.length).foldr max 0)) rows lines) := by
  obtain ⟨h1, h2, h3⟩ := wide_run junk ops r e
  obtain ⟨rows, e1, -, h5, -⟩ := C111_print_partial sq junk hj ops r.reg h1
  refine ⟨h1, rows, tableText r.maxTagLength rows, e1, ?_, fun h0 => ?_, fun h0 => ?_⟩
  · unfold WideRegistry.printText
    rw [e1]
    rfl
  · have : rows = [] := by
      cases rows with
      | nil => rfl
      | cons w rows =>
        have := (h5 w.tag).mp (by simp)
        rw [h0] at this
        cases this
    unfold tableText
    rw [if_pos this]
  · have hne : rows ≠ [] := by
      rintro rfl
      obtain ⟨name, hm⟩ := List.exists_mem_of_ne_nil _ h0
      have := (h5 name).mpr hm
      cases this
    have hopen : ∀ w ∈ rows, w.tag ∈ openNames ops := fun w hw => (h5 w.tag).mp (List.mem_map.mpr ⟨w, hw, rfl⟩)
    refine ⟨rows.map (rowLine r.maxTagLength), fields_table _ rows hne fun w hw => (hn _ (hopen w hw)).2, ?_⟩
    rw [← h2, List.forall₂_map_right_iff, List.forall₂_same]
    intro w hw
    obtain ⟨p, hp, hpe⟩ := List.mem_map.mp ((names_run junk ops r.reg h1 w.tag).mpr (hopen w hw))
    exact rowLine_says (hn _ (hopen w hw)).1 (hpe ▸ h3 p hp)

/-- Two names, the longer one with samples; before a Reset a name that is longer still. -/
example :
    let junk : ℕ → List ℚ := fun _ => List.replicate 50 0
    let ops : List (TimingOp ℚ) := [.getHandle "longest", .addTime 0 9, .reset, .getHandle "solve", .getHandle "a",
      .addTime 1 3, .addTime 1 5]
    (∀ name ∈ openNames ops, '\t' ∉ name.toList ∧ '\n' ∉ name.toList) ∧
    (do
      let r ← runWide junk WideRegistry.new ops
      r.printText id) = (.ok ("SM Timing\n-----------\na      \t      0\t\n" ++
        "solve  \t      2\t08.000000\t(04.000000 +- 01.000000)\t[03.000000,05.000000]\n").toList : Res (List Char)) := by
  decide +kernel

/-- **C138** fails for names with line ends: the table then has more lines than timers, and whoever names a timer can
make up lines. -/
theorem C138_names_false :
    (∀ (sq : K → K) (junk : ℕ → List K), (∀ i, (junk i).length = timerWindow) → ∀ (ops : List (TimingOp K))
      (r : WideRegistry K), runWide junk WideRegistry.new ops = .ok r →
      ∀ name ∈ openNames ops, '\n' ∈ name.toList →
      ∃ rows text, r.reg.print sq = .ok rows ∧ r.printText sq = .ok text ∧
        rows.length + 3 < (fields '\n' text).length) ∧
    ∃ (r : WideRegistry ℚ), runWide (fun _ => List.replicate 50 0) WideRegistry.new
      [.getHandle "a\t      1\t00.000001\nb"] = .ok r ∧
      r.printText id = .ok "SM Timing\n-----------\na\t      1\t00.000001\nb\t      0\t\n".toList := by
  constructor
  · intro sq junk hj ops r e name hm hl
    obtain ⟨h1, -, -⟩ := wide_run junk ops r e
    obtain ⟨rows, e1, -, h5, -⟩ := C111_print_partial sq junk hj ops r.reg h1
    obtain ⟨w, hw, rfl⟩ := List.mem_map.mp ((h5 name).mpr hm)
    refine ⟨rows, tableText r.maxTagLength rows, e1, ?_, ?_⟩
    · unfold WideRegistry.printText
      rw [e1]
      rfl
    · have hne : rows ≠ [] := List.ne_nil_of_mem hw
      rw [fields_length]
      unfold tableText
      rw [if_neg hne, List.count_append, show ("SM Timing\n".toList ++ "-----------\n".toList).count '\n' = 2 by decide]
      have h6 := count_rows r.maxTagLength rows
      have h7 : w.tag.toList.count '\n' ≤ (rows.map fun w => w.tag.toList.count '\n').sum :=
        List.single_le_sum (fun _ _ => Nat.zero_le _) _ (List.mem_map.mpr ⟨w, hw, rfl⟩)
      have h8 : 0 < w.tag.toList.count '\n' := List.count_pos_iff.mpr hl
      omega
  · exact ⟨_, rfl, by decide +kernel⟩

end Verif
