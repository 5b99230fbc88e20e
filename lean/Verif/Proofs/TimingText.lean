import Mathlib.Algebra.Order.Floor.Semiring
import Mathlib.Data.Nat.Digits.Lemmas
import Mathlib.Tactic.Linarith
import Mathlib.Tactic.Ring
import Mathlib.Tactic.NormNum
import Mathlib.Tactic.FieldSimp
import Mathlib.Tactic.IntervalCases
import Verif.Proofs.Timing
import Verif.Spec.TimingText

/-! Helper lemmas for C138: texts of numbers and tables. -/

set_option linter.unusedSectionVars false

namespace Verif

open Spec

/-! ### digits -/

theorem digitValue_ofNat {d : ℕ} (h : d < 10) : digitValue (Char.ofNat (48 + d)) = some d := by
  interval_cases d <;> decide

theorem readDigits_map (ds : List ℕ) (h : ∀ d ∈ ds, d < 10) (a : ℕ) :
    readDigits a (ds.map fun d => Char.ofNat (48 + d)) = some (ds.foldl (fun a d => 10 * a + d) a) := by
  induction ds generalizing a with
  | nil => rfl
  | cons d ds ih =>
    rw [List.map_cons, readDigits, digitValue_ofNat (h d (by simp)), Option.bind_some,
      ih fun x hx => h x (by simp [hx])]
    rfl

theorem natText_ne_nil (n : ℕ) : natText n ≠ [] := by
  unfold natText
  by_cases h : n = 0
  · rw [if_pos h]
    simp
  · rw [if_neg h]
    simpa using Nat.digits_ne_nil_iff_ne_zero.mpr h

theorem natText_read (n : ℕ) : readDigits 0 (natText n) = some n := by
  unfold natText
  by_cases h : n = 0
  · rw [if_pos h, h]
    decide
  · rw [if_neg h, ← List.map_reverse, readDigits_map _ fun d hd =>
      Nat.digits_lt_base (by norm_num) (List.mem_reverse.mp hd), List.foldl_reverse]
    congr 1
    conv_rhs => rw [← Nat.ofDigits_digits 10 n, Nat.ofDigits_eq_foldr]
    congr 1
    funext d a
    simp
    ring

theorem readDigits_zeros (k : ℕ) (s : List Char) : readDigits 0 (List.replicate k '0' ++ s) = readDigits 0 s := by
  induction k with
  | zero => rfl
  | succ k ih =>
    rw [List.replicate_succ, List.cons_append, readDigits, show digitValue '0' = some 0 by decide]
    exact ih

theorem padLeft_ne_nil {c : Char} {w : ℕ} {s : List Char} (h : s ≠ []) : padLeft c w s ≠ [] := by
  unfold padLeft
  simp [h]

theorem padLeft_length (c : Char) (w : ℕ) (s : List Char) : (padLeft c w s).length = max w s.length := by
  unfold padLeft
  simp
  omega

theorem readNat_zeros (k : ℕ) (n : ℕ) : readNat (List.replicate k '0' ++ natText n) = some n := by
  unfold readNat
  rw [if_neg (by simp [natText_ne_nil]), readDigits_zeros, natText_read]

theorem natText_length_le {n k : ℕ} (hk : 1 ≤ k) : (natText n).length ≤ k ↔ n < 10 ^ k := by
  unfold natText
  by_cases h : n = 0
  · rw [if_pos h, h]
    simpa using hk
  · rw [if_neg h, List.length_reverse, List.length_map]
    exact Nat.digits_length_le_iff (by norm_num) n

theorem natText_digit {n : ℕ} {c : Char} (h : c ∈ natText n) : ∃ d < 10, c = Char.ofNat (48 + d) := by
  unfold natText at h
  by_cases h0 : n = 0
  · rw [if_pos h0, List.mem_singleton] at h
    exact ⟨0, by norm_num, h⟩
  · rw [if_neg h0, List.mem_reverse, List.mem_map] at h
    obtain ⟨d, hd, rfl⟩ := h
    exact ⟨d, Nat.digits_lt_base (by norm_num) hd, rfl⟩

theorem digit_ne {d : ℕ} (h : d < 10) (c : Char) (hc : digitValue c = none) : Char.ofNat (48 + d) ≠ c := by
  rintro rfl
  rw [digitValue_ofNat h] at hc
  cases hc

theorem natText_not_mem (n : ℕ) (c : Char) (hc : digitValue c = none) : c ∉ natText n := by
  intro h
  obtain ⟨d, hd, e⟩ := natText_digit h
  exact digit_ne hd c hc e.symm

/-! ### fields -/

theorem fields_ne_nil (c : Char) (s : List Char) : fields c s ≠ [] := by
  cases s with
  | nil => simp [fields]
  | cons a s =>
    unfold fields
    split
    · simp
    · split <;> simp

theorem fields_single {c : Char} {s : List Char} (h : c ∉ s) : fields c s = [s] := by
  induction s with
  | nil => rfl
  | cons a s ih =>
    unfold fields
    rw [if_neg fun e => h (by simp [e]), ih fun e => h (by simp [e])]

theorem fields_append {c : Char} {l : List Char} (h : c ∉ l) (s : List Char) :
    fields c (l ++ c :: s) = l :: fields c s := by
  induction l with
  | nil => simp [fields]
  | cons a l ih =>
    rw [List.cons_append]
    conv_lhs => unfold fields
    rw [if_neg fun e => h (by simp [e]), ih fun e => h (by simp [e])]

theorem fields_length (c : Char) (s : List Char) : (fields c s).length = s.count c + 1 := by
  induction s with
  | nil => rfl
  | cons a s ih =>
    unfold fields
    by_cases h : a = c
    · rw [if_pos h, h, List.length_cons, ih, List.count_cons_self]
    · rw [if_neg h, List.count_cons_of_ne (fun e => h e), ← ih]
      have := fields_ne_nil c s
      cases e : fields c s with
      | nil => exact absurd e this
      | cons f fs => rfl

variable {K : Type} [Field K] [LinearOrder K] [IsStrictOrderedRing K] [FloorSemiring K]

/-! ### rounding -/

theorem nearestEven_floor (y : K) : ⌊y⌋₊ ≤ nearestEven y ∧ nearestEven y ≤ ⌊y⌋₊ + 1 := by
  unfold nearestEven
  split
  · omega
  · split
    · omega
    · split <;> omega

theorem nearestEven_near {y : K} (hy : 0 ≤ y) : |(nearestEven y : K) - y| ≤ 1 / 2 := by
  have h1 := Nat.floor_le hy
  have h2 := Nat.lt_floor_add_one y
  rw [abs_le]
  unfold nearestEven
  split
  · constructor <;> linarith
  · split
    · push_cast
      constructor <;> linarith
    · have : y - ⌊y⌋₊ = 1 / 2 := le_antisymm (not_lt.mp ‹_›) (not_lt.mp ‹_›)
      split
      · constructor <;> linarith
      · push_cast
        constructor <;> linarith

theorem nearestEven_mono {y z : K} (h : y ≤ z) : nearestEven y ≤ nearestEven z := by
  rcases (Nat.floor_mono h).lt_or_eq with h1 | h1
  · exact ((nearestEven_floor y).2.trans h1).trans (nearestEven_floor z).1
  · unfold nearestEven
    rw [h1]
    split
    · split
      · exact le_rfl
      · split
        · omega
        · split <;> omega
    · rw [if_neg (c := z - ↑⌊z⌋₊ < 1 / 2) (by linarith)]
      split
      · rw [if_pos (by linarith)]
      · split
        · split
          · omega
          · exact le_rfl
        · split
          · exact le_rfl
          · exact le_rfl

theorem nearestEven_lt {y : K} (hy : 0 ≤ y) {M : ℕ} (hM : 0 < M) (he : M % 2 = 0) :
    nearestEven y < M ↔ y < M - 1 / 2 := by
  have h1 := abs_le.mp (nearestEven_near hy)
  constructor
  · intro h
    by_contra hc
    have hc := not_lt.mp hc
    have h2 : (nearestEven y : K) ≤ M - 1 := by
      have : nearestEven y + 1 ≤ M := h
      have : ((nearestEven y + 1 : ℕ) : K) ≤ M := by exact_mod_cast this
      push_cast at this
      linarith
    have h3 : y = M - 1 / 2 := by linarith [h1.1]
    have h4 : ⌊y⌋₊ = M - 1 := by
      rw [Nat.floor_eq_iff hy, Nat.cast_sub hM, h3]
      push_cast
      constructor <;> linarith
    have h5 : y - ⌊y⌋₊ = 1 / 2 := by
      rw [h4, h3, Nat.cast_sub hM]
      push_cast
      ring
    unfold nearestEven at h
    rw [if_neg (by rw [h5]; exact lt_irrefl _), if_neg (by rw [h5]; exact lt_irrefl _), h4,
      if_neg (by omega)] at h
    omega
  · intro h
    have : (nearestEven y : K) < M := by linarith [h1.2]
    exact_mod_cast this

/-! ### the text of a number -/

/-- The number of millionths that is shown. -/
def micros (x : K) : ℕ := nearestEven (|x| * 10 ^ 6)

theorem micros_near (x : K) : |(micros x : K) - |x| * 10 ^ 6| ≤ 1 / 2 := nearestEven_near (by positivity)

theorem fraction_length (m : ℕ) : (padLeft '0' 6 (natText (m % 10 ^ 6))).length = 6 := by
  rw [padLeft_length]
  have : (natText (m % 10 ^ 6)).length ≤ 6 := (natText_length_le (by norm_num)).mpr (Nat.mod_lt _ (by norm_num))
  omega

theorem fixedText_length (x : K) : (fixedText x).length = (natText (micros x / 10 ^ 6)).length + 7 := by
  show (natText (micros x / 10 ^ 6) ++ '.' :: padLeft '0' 6 (natText (micros x % 10 ^ 6))).length = _
  rw [List.length_append, List.length_cons, fraction_length]

theorem fixed_read (w : ℕ) (x : K) :
    readUnsigned (padLeft '0' w (fixedText x)) = some ((micros x : ℚ) / 10 ^ 6) := by
  have e : padLeft '0' w (fixedText x) =
      (List.replicate (w - (fixedText x).length) '0' ++ natText (micros x / 10 ^ 6)) ++
        '.' :: padLeft '0' 6 (natText (micros x % 10 ^ 6)) := by
    unfold padLeft
    rw [List.append_assoc]
    rfl
  have n1 : '.' ∉ List.replicate (w - (fixedText x).length) '0' ++ natText (micros x / 10 ^ 6) := by
    rw [List.mem_append, not_or]
    exact ⟨by simp [List.mem_replicate], natText_not_mem _ _ (by decide)⟩
  have n2 : '.' ∉ padLeft '0' 6 (natText (micros x % 10 ^ 6)) := by
    unfold padLeft
    rw [List.mem_append, not_or]
    exact ⟨by simp [List.mem_replicate], natText_not_mem _ _ (by decide)⟩
  unfold readUnsigned
  rw [e, fields_append n1, fields_single n2]
  dsimp only
  rw [readNat_zeros, Option.bind_some, fraction_length]
  unfold padLeft
  rw [readNat_zeros, Option.map_some]
  congr 1
  clear e n1 n2
  have := Nat.div_add_mod (micros x) (10 ^ 6)
  generalize micros x / 10 ^ 6 = a at this ⊢
  generalize micros x % 10 ^ 6 = b at this ⊢
  rw [← this]
  push_cast
  ring

theorem fixed_not_minus (w : ℕ) (x : K) (s : List Char) : padLeft '0' w (fixedText x) ≠ '-' :: s := by
  intro h
  have h1 : '-' ∈ padLeft '0' w (fixedText x) := by simp [h]
  have h2 : '-' ∉ padLeft '0' w (fixedText x) := by
    show '-' ∉ List.replicate _ '0' ++ (natText (micros x / 10 ^ 6) ++
      '.' :: padLeft '0' 6 (natText (micros x % 10 ^ 6)))
    unfold padLeft
    simp only [List.mem_append, List.mem_cons, not_or]
    exact ⟨by simp [List.mem_replicate], natText_not_mem _ _ (by decide), by decide,
      by simp [List.mem_replicate], natText_not_mem _ _ (by decide)⟩
  exact h2 h1

theorem readDecimal_of_ne {s : List Char} (h : ∀ t, s ≠ '-' :: t) : readDecimal s = readUnsigned s := by
  unfold readDecimal
  split
  · exact absurd rfl (h _)
  · rfl

/-- The number that is shown. -/
def shown (x : K) : ℚ := if x < 0 then -((micros x : ℚ) / 10 ^ 6) else (micros x : ℚ) / 10 ^ 6

theorem printf_read (x : K) : readDecimal (printf096 x) = some (shown x) := by
  unfold printf096 shown
  by_cases h : x < 0
  · rw [if_pos h, if_pos h, readDecimal, fixed_read, Option.map_some]
  · rw [if_neg h, if_neg h, readDecimal_of_ne (fixed_not_minus 9 x), fixed_read]

theorem shown_near (x : K) : |((shown x : ℚ) : K) - x| ≤ 1 / (2 * 10 ^ 6) := by
  have h := abs_le.mp (micros_near x)
  unfold shown
  rw [abs_le]
  by_cases hx : x < 0
  · rw [if_pos hx]
    rw [abs_of_neg hx] at h
    push_cast
    constructor <;> [skip; skip] <;> linarith [h.1, h.2]
  · rw [if_neg hx]
    rw [abs_of_nonneg (not_lt.mp hx)] at h
    push_cast
    constructor <;> linarith [h.1, h.2]

theorem shown_mono {x y : K} (h : x ≤ y) : shown x ≤ shown y := by
  have cast : ∀ {a b : ℕ}, a ≤ b → (a : ℚ) / 10 ^ 6 ≤ (b : ℚ) / 10 ^ 6 := by
    intro a b hab
    have : (a : ℚ) ≤ b := by exact_mod_cast hab
    linarith
  have nn : ∀ a : ℕ, (0 : ℚ) ≤ (a : ℚ) / 10 ^ 6 := fun a => by positivity
  unfold shown
  by_cases hy : y < 0
  · have hx : x < 0 := h.trans_lt hy
    rw [if_pos hx, if_pos hy]
    apply neg_le_neg
    apply cast
    apply nearestEven_mono
    rw [abs_of_neg hx, abs_of_neg hy]
    nlinarith
  · rw [if_neg hy]
    by_cases hx : x < 0
    · rw [if_pos hx]
      linarith [nn (micros x), nn (micros y)]
    · rw [if_neg hx]
      apply cast
      apply nearestEven_mono
      rw [abs_of_nonneg (not_lt.mp hx), abs_of_nonneg (not_lt.mp hy)]
      nlinarith

theorem printf_length (x : K) : (printf096 x).length =
    if x < 0 then 1 + max 8 ((natText (micros x / 10 ^ 6)).length + 7)
    else max 9 ((natText (micros x / 10 ^ 6)).length + 7) := by
  unfold printf096
  split
  · rw [List.length_cons, padLeft_length, fixedText_length, add_comm]
  · rw [padLeft_length, fixedText_length]

theorem micros_lt {x : K} {M : ℕ} (hM : 0 < M) (he : M % 2 = 0) : micros x < M ↔ |x| * 10 ^ 6 < M - 1 / 2 :=
  nearestEven_lt (by positivity) hM he

theorem timeText_all {x : K} (h : |x| ≤ 10 ^ 247 - 1) : timeText x = printf096 x := by
  unfold timeText
  apply List.take_of_length_le
  have h1 : micros x < 10 ^ 247 * 10 ^ 6 := by
    rw [micros_lt (by norm_num) (by norm_num)]
    push_cast
    linarith
  have h2 : (natText (micros x / 10 ^ 6)).length ≤ 247 := by
    rw [natText_length_le (by norm_num)]
    exact Nat.div_lt_of_lt_mul (by rw [mul_comm]; exact h1)
  rw [printf_length]
  split <;> omega

theorem timeText_shows {x : K} (h : |x| ≤ 10 ^ 247 - 1) : Shows (timeText x) x :=
  ⟨shown x, by rw [timeText_all h, printf_read], shown_near x⟩

theorem timeText_length_nine (x : K) : (timeText x).length = 9 ↔
    (-10 + 1 / (2 * 10 ^ 6) < x ∧ x < 100 - 1 / (2 * 10 ^ 6)) := by
  have h0 : (timeText x).length = 9 ↔ (printf096 x).length = 9 := by
    unfold timeText
    rw [List.length_take]
    omega
  rw [h0, printf_length]
  have key : ∀ k, 1 ≤ k → ((natText (micros x / 10 ^ 6)).length ≤ k ↔ |x| * 10 ^ 6 < 10 ^ (k + 6) - 1 / 2) := by
    intro k hk
    rw [natText_length_le hk, Nat.div_lt_iff_lt_mul (by norm_num), ← pow_add]
    rw [micros_lt (by positivity)]
    · push_cast
      rfl
    · rw [pow_succ]
      omega
  by_cases hx : x < 0
  · rw [if_pos hx]
    have k1 := key 1 le_rfl
    rw [abs_of_neg hx] at k1
    constructor
    · intro h
      have := k1.mp (by omega)
      norm_num at this ⊢
      constructor <;> linarith
    · rintro ⟨h, -⟩
      have := k1.mpr (by norm_num at h ⊢; linarith)
      omega
  · rw [if_neg hx]
    have k1 := key 2 (by norm_num)
    rw [abs_of_nonneg (not_lt.mp hx)] at k1
    constructor
    · intro h
      have := k1.mp (by omega)
      norm_num at this ⊢
      constructor <;> linarith
    · rintro ⟨-, h⟩
      have := k1.mpr (by norm_num at h ⊢; linarith)
      omega

theorem timeText_min_length (x : K) : 9 ≤ (timeText x).length := by
  unfold timeText
  rw [List.length_take, printf_length]
  split <;> omega

theorem readDigits_lt (s : List Char) : ∀ (a k : ℕ), (∀ c ∈ s, ∃ d < 10, c = Char.ofNat (48 + d)) → a < 10 ^ k →
    ∃ v, readDigits a s = some v ∧ v < 10 ^ (k + s.length) := by
  induction s with
  | nil => exact fun a k _ h => ⟨a, rfl, h⟩
  | cons c s ih =>
    intro a k hs ha
    obtain ⟨d, hd, rfl⟩ := hs c (by simp)
    obtain ⟨v, hv, hl⟩ := ih (10 * a + d) (k + 1) (fun c hc => hs c (by simp [hc])) (by rw [pow_succ]; omega)
    refine ⟨v, ?_, ?_⟩
    · rw [readDigits, digitValue_ofNat hd]
      exact hv
    · rw [List.length_cons, show k + (s.length + 1) = k + 1 + s.length by ring]
      exact hl

/-- The text of a large number is cut before the point. -/
theorem timeText_cut {x : K} (h : 10 ^ 255 ≤ x) : ∃ n : ℕ, readDecimal (timeText x) = some (n : ℚ) ∧ n < 10 ^ 255 := by
  have hx : ¬ x < 0 := by
    have : (0 : K) ≤ 10 ^ 255 := by positivity
    linarith
  have h1 : ¬ micros x < 10 ^ 255 * 10 ^ 6 := by
    rw [micros_lt (by norm_num) (by norm_num), abs_of_nonneg (not_lt.mp hx)]
    push_cast
    linarith
  have h2 : 255 < (natText (micros x / 10 ^ 6)).length := by
    by_contra hc
    rw [not_lt, natText_length_le (by norm_num)] at hc
    exact h1 ((Nat.div_lt_iff_lt_mul (by norm_num)).mp hc)
  have e : timeText x = (natText (micros x / 10 ^ 6)).take 255 := by
    unfold timeText printf096
    rw [if_neg hx]
    have : padLeft '0' 9 (fixedText x) = fixedText x := by
      unfold padLeft
      rw [fixedText_length, show 9 - ((natText (micros x / 10 ^ 6)).length + 7) = 0 by omega]
      rfl
    rw [this]
    show (natText (micros x / 10 ^ 6) ++ _).take 255 = _
    rw [List.take_append_of_le_length h2.le]
  have hd : ∀ c ∈ timeText x, ∃ d < 10, c = Char.ofNat (48 + d) := by
    rw [e]
    exact fun c hc => natText_digit (List.mem_of_mem_take hc)
  have hl : (timeText x).length = 255 := by
    rw [e, List.length_take]
    omega
  obtain ⟨v, hv, hvl⟩ := readDigits_lt (timeText x) 0 0 hd (by norm_num)
  refine ⟨v, ?_, ?_⟩
  · rw [readDecimal_of_ne]
    · unfold readUnsigned
      rw [fields_single]
      · dsimp only
        unfold readNat
        rw [if_neg (List.length_pos_iff.mp (by rw [hl]; norm_num)), hv]
        rfl
      · intro hc
        obtain ⟨d, hd, e⟩ := hd _ hc
        exact digit_ne hd '.' (by decide) e.symm
    · intro t ht
      obtain ⟨d, hd, e⟩ := hd '-' (by simp [ht])
      exact digit_ne hd '-' (by decide) e.symm
  · rw [hl, zero_add] at hvl
    exact hvl

/-! ### lines and tables -/

/-- A character that occurs in no text of a number. -/
def Foreign (c : Char) : Prop := digitValue c = none ∧ c ≠ '.' ∧ c ≠ '-'

theorem natText_foreign (n : ℕ) {c : Char} (h : Foreign c) : c ∉ natText n := natText_not_mem n c h.1

theorem zeros_foreign (k : ℕ) {c : Char} (h : Foreign c) : c ∉ List.replicate k '0' := by
  intro hc
  obtain rfl := List.eq_of_mem_replicate hc
  exact absurd h.1 (by decide)

theorem timeText_foreign (x : K) {c : Char} (h : Foreign c) : c ∉ timeText x := by
  intro hc
  have h1 : ∀ w, c ∉ padLeft '0' w (fixedText x) := by
    intro w
    show c ∉ List.replicate _ '0' ++ (natText (micros x / 10 ^ 6) ++
      '.' :: padLeft '0' 6 (natText (micros x % 10 ^ 6)))
    unfold padLeft
    simp only [List.mem_append, List.mem_cons, not_or]
    exact ⟨zeros_foreign _ h, natText_foreign _ h, h.2.1, zeros_foreign _ h, natText_foreign _ h⟩
  have h2 : c ∈ printf096 x := List.mem_of_mem_take hc
  unfold printf096 at h2
  split at h2
  · rcases List.mem_cons.mp h2 with h3 | h3
    · exact h.2.2 h3
    · exact h1 _ h3
  · exact h1 _ h2

theorem figureText_foreign (x : Option K) {c : Char} (h : Foreign c) (hn : c ∉ "nan ".toList) :
    c ∉ figureText x := by
  cases x with
  | some x => exact timeText_foreign x h
  | none =>
    intro hc
    apply hn
    have : ∀ d ∈ figureText (none : Option K), d ∈ "nan ".toList := by
      show ∀ d ∈ padLeft ' ' 9 "nan".toList, d ∈ "nan ".toList
      decide
    exact this c hc

theorem tab_foreign : Foreign '\t' := ⟨by decide, by decide, by decide⟩

theorem newline_foreign : Foreign '\n' := ⟨by decide, by decide, by decide⟩

theorem dropWhile_spaces (k n : ℕ) : (List.replicate k ' ' ++ natText n).dropWhile (· = ' ') = natText n := by
  induction k with
  | zero =>
    rw [List.replicate_zero, List.nil_append]
    cases e : natText n with
    | nil => rfl
    | cons c s =>
      rw [List.dropWhile_cons_of_neg]
      have : ' ' ∉ natText n := natText_not_mem _ _ (by decide)
      rw [e] at this
      simp only [decide_eq_true_eq]
      rintro rfl
      exact this (by simp)
  | succ k ih =>
    rw [List.replicate_succ, List.cons_append, List.dropWhile_cons_of_pos (by simp), ih]

/-- A line without its end. -/
def rowLine (width : ℕ) (w : TimingRow K) : List Char :=
  padRight ' ' width w.tag.toList ++ '\t' :: (padLeft ' ' 7 (natText w.numSamples) ++ '\t' ::
  restText w.figures)

theorem rowText_eq (width : ℕ) (w : TimingRow K) : rowText width w = rowLine width w ++ ['\n'] := by
  unfold rowText rowLine
  simp

/-- The three columns of figures. -/
def figureColumns (f : TimingFigures K) : List (List Char) :=
  [timeText f.total, '(' :: (figureText f.mean ++ " +- ".toList ++ figureText f.stddev ++ [')']),
    '[' :: (timeText f.min ++ ',' :: timeText f.max ++ [']'])]

theorem figuresText_eq (f : TimingFigures K) : figuresText f =
    timeText f.total ++ '\t' :: (('(' :: (figureText f.mean ++ " +- ".toList ++ figureText f.stddev ++ [')'])) ++
      '\t' :: ('[' :: (timeText f.min ++ ',' :: timeText f.max ++ [']']))) := by
  unfold figuresText
  have e : ")\t".toList = [')', '\t'] := by decide
  rw [e]
  simp

theorem fields_figures (f : TimingFigures K) : fields '\t' (figuresText f) = figureColumns f := by
  have hf := fun x : Option K => figureText_foreign x tab_foreign (by decide)
  rw [figuresText_eq, fields_append (timeText_foreign _ tab_foreign), fields_append, fields_single]
  · rfl
  · simp only [List.mem_cons, List.mem_append, not_or]
    exact ⟨by decide, ⟨timeText_foreign _ tab_foreign, by decide, timeText_foreign _ tab_foreign⟩, by decide,
      by simp⟩
  · simp only [List.mem_cons, List.mem_append, not_or]
    exact ⟨by decide, ⟨⟨hf _, by decide⟩, hf _⟩, by decide, by simp⟩

theorem rowLine_says {width : ℕ} {w : TimingRow K} (ht : '\t' ∉ w.tag.toList) (hw : w.tag.toList.length ≤ width) :
    LineSays width w (rowLine width w) := by
  have hn : '\t' ∉ padRight ' ' width w.tag.toList := by
    unfold padRight
    rw [List.mem_append, not_or]
    exact ⟨ht, by simp [List.mem_replicate]⟩
  have hc : '\t' ∉ padLeft ' ' 7 (natText w.numSamples) := by
    unfold padLeft
    rw [List.mem_append, not_or]
    exact ⟨by simp [List.mem_replicate], natText_foreign _ tab_foreign⟩
  refine ⟨padRight ' ' width w.tag.toList, padLeft ' ' 7 (natText w.numSamples), fields '\t' (restText w.figures),
    ?_, ⟨_, rfl⟩, ?_, ?_, ?_, ?_⟩
  · unfold rowLine
    rw [fields_append hn, fields_append hc]
  · unfold padRight
    simp
    omega
  · rw [padLeft_length]
    omega
  · unfold padLeft
    rw [dropWhile_spaces]
    exact readNat_zeros 0 _
  · cases w.figures with
    | none => rfl
    | some f =>
      dsimp only
      rintro ⟨h1, ⟨m, hm, hm'⟩, ⟨d, hd, hd'⟩, h2, h3⟩
      refine ⟨_, _, _, _, _, fields_figures f, timeText_shows h1, ⟨m, hm, ?_⟩, ⟨d, hd, ?_⟩, timeText_shows h2,
        timeText_shows h3⟩
      · rw [hm]
        exact timeText_shows hm'
      · rw [hd]
        exact timeText_shows hd'

theorem rowLine_newline {width : ℕ} {w : TimingRow K} (ht : '\n' ∉ w.tag.toList) : '\n' ∉ rowLine width w := by
  have hf := fun x : Option K => figureText_foreign x newline_foreign (by decide)
  unfold rowLine padRight padLeft
  simp only [List.mem_append, List.mem_cons, not_or]
  refine ⟨⟨ht, by simp [List.mem_replicate]⟩, by decide, ⟨by simp [List.mem_replicate],
    natText_foreign _ newline_foreign⟩, by decide, ?_⟩
  cases w.figures with
  | none => simp [restText]
  | some f =>
    rw [restText, figuresText_eq]
    simp only [List.mem_append, List.mem_cons, not_or]
    exact ⟨timeText_foreign _ newline_foreign, by decide, ⟨by decide, ⟨⟨hf _, by decide⟩, hf _⟩, by decide, by simp⟩,
      by decide, by decide, ⟨timeText_foreign _ newline_foreign, by decide, timeText_foreign _ newline_foreign⟩,
      by decide, by simp⟩

theorem fields_rows (width : ℕ) (rows : List (TimingRow K)) (h : ∀ w ∈ rows, '\n' ∉ w.tag.toList) :
    fields '\n' (rows.flatMap (rowText width)) = rows.map (rowLine width) ++ [[]] := by
  induction rows with
  | nil => rfl
  | cons w rows ih =>
    rw [List.flatMap_cons, rowText_eq, List.append_assoc, List.singleton_append,
      fields_append (rowLine_newline (h w (by simp))), ih fun v hv => h v (by simp [hv])]
    rfl

theorem fields_table (width : ℕ) (rows : List (TimingRow K)) (h0 : rows ≠ [])
    (h : ∀ w ∈ rows, '\n' ∉ w.tag.toList) :
    fields '\n' (tableText width rows) =
      "SM Timing".toList :: "-----------".toList :: rows.map (rowLine width) ++ [[]] := by
  unfold tableText
  rw [if_neg h0, show "SM Timing\n".toList = "SM Timing".toList ++ ['\n'] by decide,
    show "-----------\n".toList = "-----------".toList ++ ['\n'] by decide, List.append_assoc, List.append_assoc,
    List.append_assoc, List.singleton_append, List.singleton_append, fields_append (by decide),
    fields_append (by decide), fields_rows width rows h]
  rfl

theorem count_rows (width : ℕ) (rows : List (TimingRow K)) :
    rows.length + (rows.map fun w => w.tag.toList.count '\n').sum ≤ (rows.flatMap (rowText width)).count '\n' := by
  induction rows with
  | nil => simp
  | cons w rows ih =>
    rw [List.flatMap_cons, List.count_append, List.length_cons, List.map_cons, List.sum_cons]
    have : 1 + w.tag.toList.count '\n' ≤ (rowText width w).count '\n' := by
      rw [rowText_eq, List.count_append]
      unfold rowLine padRight
      rw [List.count_append, List.count_append]
      have : ['\n'].count '\n' = 1 := by decide
      omega
    omega

/-! ### the width of the first column -/

theorem wide_run (junk : ℕ → List K) (ops : List (TimingOp K)) : ∀ r, runWide junk WideRegistry.new ops = .ok r →
    runTiming junk Registry.new ops = .ok r.reg ∧
    r.maxTagLength = ((everNamed ops).map fun s => s.toList.length).foldr max 0 ∧
    ∀ e ∈ r.reg.tags, e.1.toList.length ≤ r.maxTagLength := by
  induction ops using List.reverseRecOn with
  | nil =>
    intro r e
    obtain rfl : WideRegistry.new = r := by simpa [runWide] using e
    exact ⟨rfl, rfl, fun e he => by simp [WideRegistry.new, Registry.new] at he⟩
  | append_singleton ops op ih =>
    intro r e
    unfold runWide at e
    rw [List.foldlM_append, Res.bind_eq_ok] at e
    obtain ⟨r1, e1, e2⟩ := e
    rw [List.foldlM_cons, Res.bind_eq_ok] at e2
    obtain ⟨r2, e2, e3⟩ := e2
    rw [List.foldlM_nil, Res.pure_eq, Res.ok.injEq] at e3
    subst e3
    obtain ⟨h1, h2, h3⟩ := ih r1 e1
    have hrun : ∀ r3, TimingOp.step junk r1.reg op = .ok r3 →
        runTiming junk Registry.new (ops ++ [op]) = .ok r3 := by
      intro r3 e3
      unfold runTiming at h1 ⊢
      rw [List.foldlM_append, h1, Res.ok_bind, List.foldlM_cons, e3, Res.ok_bind]
      rfl
    have fold : ∀ (l : List ℕ) (x : ℕ), (l ++ [x]).foldr max 0 = max (l.foldr max 0) x := by
      intro l x
      induction l with
      | nil => simp
      | cons y l ih => rw [List.cons_append, List.foldr_cons, ih, List.foldr_cons, max_assoc]
    cases op with
    | getHandle t =>
      obtain rfl : r1.getHandle junk t = r2 := by simpa [TimingOp.stepWide] using e2
      have en : everNamed (ops ++ [TimingOp.getHandle t]) = everNamed ops ++ [t] := by
        unfold everNamed
        rw [List.filterMap_append]
        rfl
      refine ⟨hrun _ rfl, ?_, ?_⟩
      · rw [en, List.map_append, List.map_singleton, fold, ← h2]
        unfold WideRegistry.getHandle
        cases e : r1.reg.tags.lookup t with
        | none => rfl
        | some x =>
          dsimp only
          have := h3 _ (lookup_mem e)
          exact (max_eq_left this).symm
      · unfold WideRegistry.getHandle Registry.getHandle
        cases e : r1.reg.tags.lookup t with
        | none =>
          dsimp only
          intro p hp
          rcases List.mem_cons.mp hp with rfl | hp
          · exact le_max_right _ _
          · exact (h3 p hp).trans (le_max_left _ _)
        | some x => exact h3
    | addTime h x =>
      have en : everNamed (ops ++ [TimingOp.addTime h x]) = everNamed ops := by
        unfold everNamed
        rw [List.filterMap_append]
        simp
      obtain ⟨r3, e3, e4⟩ := Res.bind_eq_ok.mp (show (r1.reg.addTime h x >>= fun r' =>
        pure (⟨r', r1.maxTagLength⟩ : WideRegistry K)) = .ok r2 from e2)
      rw [Res.pure_eq, Res.ok.injEq] at e4
      subst e4
      refine ⟨hrun _ e3, by rw [en]; exact h2, ?_⟩
      obtain ⟨-, a', -, rfl⟩ := addTime_eq_ok e3
      exact h3
    | reset =>
      have en : everNamed (ops ++ [TimingOp.reset]) = everNamed ops := by
        unfold everNamed
        rw [List.filterMap_append]
        simp
      obtain rfl : r1.reset = r2 := by simpa [TimingOp.stepWide] using e2
      exact ⟨hrun _ rfl, by rw [en]; exact h2, fun p hp => by simp [WideRegistry.reset, Registry.reset] at hp⟩

end Verif
