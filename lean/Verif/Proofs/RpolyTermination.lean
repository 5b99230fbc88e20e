import Verif.Proofs.RpolyChain
import Mathlib.Algebra.Order.Archimedean.Basic
import Mathlib.Analysis.SpecificLimits.Basic

/-
In exact arithmetic the root finder returns.
-/
set_option linter.unusedSectionVars false

namespace Verif

open Spec Polynomial

/-- With enough fuel the result is always the same value, which satisfies `P`. -/
def Settles {α : Type} (g : ℕ → Res α) (P : α → Prop) : Prop := ∃ F a, P a ∧ ∀ fuel, F ≤ fuel → g fuel = .ok a

section
variable {α β : Type}

theorem Settles.bind {x : ℕ → Res α} {f : ℕ → α → Res β} {P : α → Prop} {Q : β → Prop} (hx : Settles x P)
    (hf : ∀ a, P a → Settles (fun fuel => f fuel a) Q) : Settles (fun fuel => x fuel >>= f fuel) Q := by
  obtain ⟨F, a, ha, h1⟩ := hx
  obtain ⟨F', b, hb, h2⟩ := hf a ha
  refine ⟨max F F', b, hb, fun fuel hfuel => ?_⟩
  beta_reduce
  rw [h1 fuel (by omega), Res.ok_bind]
  exact h2 fuel (by omega)

theorem Res.Rets.settles {x : Res α} {P : α → Prop} (h : x.Rets P) : Settles (fun _ => x) P := by
  obtain ⟨a, h1, h2⟩ := h
  exact ⟨0, a, h2, fun _ _ => h1⟩

end

/-! ### The polynomial of the moduli -/

theorem absValue_mono (l : List ℝ) {x y : ℝ} (hx : 0 ≤ x) (hxy : x ≤ y) : absValue l x ≤ absValue l y := by
  induction l using List.reverseRecOn with
  | nil => simp [absValue, decPoly_nil]
  | append_singleton l a ih =>
    rw [absValue_snoc, absValue_snoc]
    have := mul_le_mul hxy ih (absValue_nonneg l hx) (le_trans hx hxy)
    linarith

theorem moduli_snoc (m : RMath ℝ) (hm : ExactMath m) (l : List ℝ) (c : ℝ) :
    moduli m (l ++ [c]) = (l.map fun x => |x|) ++ [-|c|] := by
  unfold moduli
  have e : m.fabs = fun x => |x| := funext hm.fabs
  rw [e, List.map_append, List.map_singleton, List.length_append, List.length_singleton, Nat.add_sub_cancel,
    List.modify_eq_set_getElem?]
  simp

theorem polyValue_snoc (x : ℝ) (l : List ℝ) (c : ℝ) (hl : l ≠ []) :
    polyValue x (l ++ [c]) = polyValue x l * x + c := by
  cases l with
  | nil => exact absurd rfl hl
  | cons a l => simp [polyValue]

theorem polyValue_abs (x : ℝ) (l : List ℝ) : polyValue x (l.map fun x => |x|) = absValue l x := by
  induction l using List.reverseRecOn with
  | nil => simp [polyValue, num_eq, absValue, decPoly_nil]
  | append_singleton l a ih =>
    rw [List.map_append, List.map_singleton, absValue_snoc]
    by_cases hl : l = []
    · subst hl
      simp [polyValue, absValue, decPoly_nil]
    · rw [polyValue_snoc _ _ _ (by simpa using hl), ih, mul_comm]

/-- The derivative of `x Σ |l_k| x^(n-k)` as it is computed. -/
noncomputable def slope (x : ℝ) : List ℝ → ℝ
  | [] => 0
  | c :: cs => (cs.foldl (fun (r : ℝ × ℝ) c => (x * r.1 + |c|, x * r.2 + (x * r.1 + |c|))) (|c|, |c|)).2

theorem slope_single (x a : ℝ) : slope x [a] = |a| := rfl

theorem foldl_fst (x : ℝ) (cs : List ℝ) : ∀ (pre : List ℝ) (d : ℝ),
    (cs.foldl (fun (r : ℝ × ℝ) c => (x * r.1 + |c|, x * r.2 + (x * r.1 + |c|))) (absValue pre x, d)).1 =
      absValue (pre ++ cs) x := by
  induction cs with
  | nil => intro pre d; simp
  | cons c cs ih =>
    intro pre d
    have := ih (pre ++ [c]) (x * d + (x * absValue pre x + |c|))
    rw [absValue_snoc] at this
    simpa using this

theorem slope_snoc (x : ℝ) (l : List ℝ) (a : ℝ) (hl : l ≠ []) :
    slope x (l ++ [a]) = x * slope x l + absValue (l ++ [a]) x := by
  cases l with
  | nil => exact absurd rfl hl
  | cons c cs =>
    have h := foldl_fst x cs [c] |c|
    rw [absValue_single] at h
    rw [absValue_snoc]
    simp only [slope, List.cons_append, List.foldl_append, List.foldl_cons, List.foldl_nil, h]
    simp

theorem valueDeriv_eq (x : ℝ) (l : List ℝ) (c : ℝ) (hl : l ≠ []) :
    valueDeriv x ((l.map fun x => |x|) ++ [-|c|]) = (x * absValue l x - |c|, slope x l) := by
  cases l with
  | nil => exact absurd rfl hl
  | cons a l =>
    have h := foldl_fst x l [a] |a|
    rw [absValue_single] at h
    simp only [List.singleton_append] at h
    rw [← h]
    simp only [valueDeriv, List.map_cons, List.cons_append, List.dropLast_concat, List.foldl_map, slope]
    rw [List.getLastD_eq_getLast?]
    simp [sub_eq_add_neg]

theorem slope_nonneg {x : ℝ} (hx : 0 ≤ x) (l : List ℝ) : 0 ≤ slope x l := by
  induction l using List.reverseRecOn with
  | nil => simp [slope]
  | append_singleton l a ih =>
    by_cases hl : l = []
    · subst hl
      exact abs_nonneg a
    · rw [slope_snoc x l a hl]
      have := absValue_nonneg (l ++ [a]) hx
      positivity

theorem slope_pos {x : ℝ} (hx : 0 < x) (l : List ℝ) (hl : l ≠ []) (h0 : ∀ a ∈ l.head?, a ≠ 0) :
    0 < slope x l := by
  induction l using List.reverseRecOn with
  | nil => exact absurd rfl hl
  | append_singleton l a ih =>
    by_cases hl' : l = []
    · subst hl'
      exact abs_pos.mpr (h0 a (by simp))
    · rw [slope_snoc x l a hl']
      have := absValue_nonneg (l ++ [a]) hx.le
      have := ih hl' (fun b hb => h0 b (by
        cases l with
        | nil => exact absurd rfl hl'
        | cons c l => simpa using hb))
      positivity

/-- The function lies above its tangents. -/
theorem tangent {x y : ℝ} (hx : 0 ≤ x) (hy : 0 ≤ y) (l : List ℝ) :
    x * absValue l x + slope x l * (y - x) ≤ y * absValue l y := by
  induction l using List.reverseRecOn with
  | nil => simp [slope, absValue, decPoly_nil]
  | append_singleton l a ih =>
    by_cases hl : l = []
    · subst hl
      simp only [List.nil_append, slope_single, absValue_single]
      linarith
    · rw [slope_snoc x l a hl, absValue_snoc, absValue_snoc]
      have hs := slope_nonneg hx l
      nlinarith [mul_le_mul_of_nonneg_left ih hy, mul_nonneg hs (sq_nonneg (y - x))]

/-- The function is below `c` near zero. -/
theorem small_arg (l : List ℝ) (c : ℝ) (hc : c ≠ 0) : ∃ L, 0 < L ∧ ∀ x, 0 ≤ x → x ≤ L → x * absValue l x < |c| := by
  have hc' := abs_pos.mpr hc
  have hP := absValue_nonneg l (zero_le_one (α := ℝ))
  refine ⟨min 1 (|c| / (absValue l 1 + 1) / 2), by positivity, fun x h0 h1 => ?_⟩
  have h2 := absValue_mono l h0 (le_trans h1 (min_le_left _ _))
  have h3 : x ≤ |c| / (absValue l 1 + 1) / 2 := le_trans h1 (min_le_right _ _)
  have h4 : x * (absValue l 1 + 1) ≤ |c| / 2 := by
    rw [div_div, le_div_iff₀ (by positivity)] at h3
    linarith
  nlinarith

/-! ### The two loops -/

theorem chop_settles (pt : List ℝ) (L : ℝ) (hL : ∀ x, 0 ≤ x → x ≤ L → ¬ 0 < polyValue x pt) :
    ∀ (n : ℕ) (x : ℝ), 0 < x → x * (1 / 10) ^ (n + 1) ≤ L →
      Settles (fun fuel => chop pt fuel x) (fun y => 0 < y) := by
  intro n
  induction n with
  | zero =>
    intro x hx h
    refine ⟨1, x, hx, fun fuel hf => ?_⟩
    obtain ⟨f, rfl⟩ : ∃ f, fuel = f + 1 := ⟨fuel - 1, by omega⟩
    beta_reduce
    unfold chop
    simp only [num_eq]
    rw [if_neg]
    have := hL ((1 : ℕ) / (10 : ℕ) * x) (by positivity) (by push_cast; linarith)
    simpa using this
  | succ n ih =>
    intro x hx h
    by_cases hv : (num 0 : ℝ) < polyValue (num 1 / num 10 * x) pt
    · have hx' : (num 1 / num 10 * x : ℝ) = x * (1 / 10) := by simp only [num_eq]; push_cast; ring
      obtain ⟨F, y, hy, hF⟩ := ih (num 1 / num 10 * x) (by rw [hx']; positivity) (by
        rw [hx', mul_assoc, ← pow_succ']
        exact h)
      refine ⟨F + 1, y, hy, fun fuel hf => ?_⟩
      obtain ⟨f, rfl⟩ : ∃ f, fuel = f + 1 := ⟨fuel - 1, by omega⟩
      beta_reduce
      unfold chop
      dsimp only
      rw [if_pos hv]
      exact hF f (by omega)
    · refine ⟨1, x, hx, fun fuel hf => ?_⟩
      obtain ⟨f, rfl⟩ : ∃ f, fuel = f + 1 := ⟨fuel - 1, by omega⟩
      beta_reduce
      unfold chop
      dsimp only
      rw [if_neg hv]

theorem newtonBound_succ (m : RMath ℝ) (pt : List ℝ) (fuel : ℕ) (x dx : ℝ) :
    newtonBound m pt (fuel + 1) x dx = if num 1 / num 200 < m.fabs (dx / x) then
      newtonBound m pt fuel (x - (valueDeriv x pt).1 / (valueDeriv x pt).2)
        ((valueDeriv x pt).1 / (valueDeriv x pt).2) else .ok x := rfl

/-- Newton's iteration to the right of the zero. -/
theorem newton_settles_right (m : RMath ℝ) (hm : ExactMath m) (l : List ℝ) (c L : ℝ) (hl : l ≠ [])
    (h0 : ∀ a ∈ l.head?, a ≠ 0) (hc : c ≠ 0) (hL0 : 0 < L)
    (hL : ∀ x, 0 ≤ x → x ≤ L → x * absValue l x < |c|) :
    ∀ (n : ℕ) (x dx : ℝ), 0 < x → |c| ≤ x * absValue l x → x ≤ L + n * (L / 200) →
      Settles (fun fuel => newtonBound m ((l.map fun x => |x|) ++ [-|c|]) fuel x dx) (fun _ => True) := by
  intro n
  induction n with
  | zero =>
    intro x dx hx hv hn
    exact absurd (hL x hx.le (by simpa using hn)) (not_lt.mpr hv)
  | succ n ih =>
    intro x dx hx hv hn
    by_cases hd : (num 1 / num 200 : ℝ) < m.fabs (dx / x)
    · have hs := slope_pos hx l hl h0
      obtain ⟨d, hd'⟩ : ∃ d, d = (x * absValue l x - |c|) / slope x l := ⟨_, rfl⟩
      have hds : d * slope x l = x * absValue l x - |c| := by rw [hd']; field_simp
      have hd0 : 0 ≤ d := by rw [hd']; exact div_nonneg (by linarith) hs.le
      have ht0 := tangent hx.le (le_refl (0 : ℝ)) l
      have hx1 : 0 < x - d := by
        have hc' := abs_pos.mpr hc
        by_contra hneg
        push Not at hneg
        nlinarith
      have hv1 : |c| ≤ (x - d) * absValue l (x - d) := by
        have := tangent hx.le hx1.le l
        nlinarith
      have hstep : ∀ fuel, newtonBound m ((l.map fun x => |x|) ++ [-|c|]) (fuel + 1) x dx =
          newtonBound m ((l.map fun x => |x|) ++ [-|c|]) fuel (x - d) d := by
        intro fuel
        rw [newtonBound_succ, if_pos hd, valueDeriv_eq x l c hl, ← hd']
      by_cases hd2 : (num 1 / num 200 : ℝ) < m.fabs (d / (x - d))
      · have hL1 : L < x - d := by
          by_contra hle
          push Not at hle
          exact absurd (hL _ hx1.le hle) (not_lt.mpr hv1)
        have hbig : L / 200 ≤ d := by
          rw [hm.fabs, abs_of_nonneg (div_nonneg hd0 hx1.le), lt_div_iff₀ hx1] at hd2
          simp only [num_eq] at hd2
          push_cast at hd2
          linarith
        obtain ⟨F, y, hy, hF⟩ := ih (x - d) d hx1 hv1 (by
          push_cast at hn
          linarith)
        refine ⟨F + 1, y, hy, fun fuel hf => ?_⟩
        obtain ⟨f, rfl⟩ : ∃ f, fuel = f + 1 := ⟨fuel - 1, by omega⟩
        beta_reduce
        rw [hstep]
        exact hF f (by omega)
      · refine ⟨2, x - d, trivial, fun fuel hf => ?_⟩
        obtain ⟨f, rfl⟩ : ∃ f, fuel = f + 1 + 1 := ⟨fuel - 2, by omega⟩
        beta_reduce
        rw [hstep, newtonBound_succ, if_neg hd2]
    · refine ⟨1, x, trivial, fun fuel hf => ?_⟩
      obtain ⟨f, rfl⟩ : ∃ f, fuel = f + 1 := ⟨fuel - 1, by omega⟩
      beta_reduce
      rw [newtonBound_succ, if_neg hd]

theorem newton_settles (m : RMath ℝ) (hm : ExactMath m) (l : List ℝ) (c : ℝ) (hl : l ≠ [])
    (h0 : ∀ a ∈ l.head?, a ≠ 0) (hc : c ≠ 0) (x dx : ℝ) (hx : 0 < x) :
    Settles (fun fuel => newtonBound m ((l.map fun x => |x|) ++ [-|c|]) fuel x dx) (fun _ => True) := by
  obtain ⟨L, hL0, hL⟩ := small_arg l c hc
  by_cases hd : (num 1 / num 200 : ℝ) < m.fabs (dx / x)
  · have hs := slope_pos hx l hl h0
    obtain ⟨d, hd'⟩ : ∃ d, d = (x * absValue l x - |c|) / slope x l := ⟨_, rfl⟩
    have hds : d * slope x l = x * absValue l x - |c| := by rw [hd']; field_simp
    have ht0 := tangent hx.le (le_refl (0 : ℝ)) l
    have hx1 : 0 < x - d := by
      have hc' := abs_pos.mpr hc
      by_contra hneg
      push Not at hneg
      nlinarith
    have hv1 : |c| ≤ (x - d) * absValue l (x - d) := by
      have := tangent hx.le hx1.le l
      nlinarith
    obtain ⟨n, hn⟩ := exists_nat_ge ((x - d) / (L / 200))
    rw [div_le_iff₀ (by positivity)] at hn
    obtain ⟨F, y, hy, hF⟩ := newton_settles_right m hm l c L hl h0 hc hL0 hL n (x - d) d hx1 hv1 (by linarith)
    refine ⟨F + 1, y, hy, fun fuel hf => ?_⟩
    obtain ⟨f, rfl⟩ : ∃ f, fuel = f + 1 := ⟨fuel - 1, by omega⟩
    beta_reduce
    rw [newtonBound_succ, if_pos hd, valueDeriv_eq x l c hl, ← hd']
    exact hF f (by omega)
  · refine ⟨1, x, trivial, fun fuel hf => ?_⟩
    obtain ⟨f, rfl⟩ : ∃ f, fuel = f + 1 := ⟨fuel - 1, by omega⟩
    beta_reduce
    rw [newtonBound_succ, if_neg hd]

theorem lowerBound_settles (m : RMath ℝ) (hm : ExactMath m) (p : List ℝ) (hp : 2 ≤ p.length)
    (h0 : ∀ a ∈ p.head?, a ≠ 0) : Settles (fun fuel => lowerBound m fuel p) (fun _ => True) := by
  obtain ⟨l, c, rfl⟩ : ∃ l c, p = l ++ [c] := by
    have : p ≠ [] := by rintro rfl; simp at hp
    exact ⟨p.dropLast, p.getLast this, (List.dropLast_append_getLast this).symm⟩
  have hl : l ≠ [] := by
    rintro rfl
    simp at hp
  have h0l : ∀ a ∈ l.head?, a ≠ 0 := fun a ha => h0 a (by
    cases l with
    | nil => exact absurd rfl hl
    | cons b l => simpa using ha)
  have hlen : (l ++ [c]).length - 1 = l.length := by simp
  unfold lowerBound
  rw [hlen, moduli_snoc m hm]
  have hget0 : ∃ a, l.head? = some a ∧ ((l.map fun x => |x|) ++ [-|c|])[0]? = some |a| := by
    cases l with
    | nil => exact absurd rfl hl
    | cons b l => exact ⟨b, rfl, rfl⟩
  obtain ⟨a, ha, hg0⟩ := hget0
  have ha0 : 0 < |a| := abs_pos.mpr (h0l a (by rw [ha]; rfl))
  have hgn : ((l.map fun x => |x|) ++ [-|c|])[l.length]? = some (-|c|) := by
    rw [List.getElem?_append_right (by simp)]
    simp
  have hgn1 : ∃ b : ℝ, 0 ≤ b ∧ ((l.map fun x => |x|) ++ [-|c|])[l.length - 1]? = some b := by
    have hpos : l.length - 1 < l.length := by
      have := List.length_pos_of_ne_nil hl
      omega
    refine ⟨|l[l.length - 1]|, abs_nonneg _, ?_⟩
    rw [List.getElem?_append_left (by simpa using hpos), List.getElem?_map, List.getElem?_eq_getElem hpos]
    rfl
  obtain ⟨b, hb, hg1⟩ := hgn1
  have e0 : Res.at' ((l.map fun x => |x|) ++ [-|c|]) 0 = .ok |a| := Res.at'_eq_ok.mpr hg0
  have en : Res.at' ((l.map fun x => |x|) ++ [-|c|]) l.length = .ok (-|c|) := Res.at'_eq_ok.mpr hgn
  have e1 : Res.at' ((l.map fun x => |x|) ++ [-|c|]) (l.length - 1) = .ok b := Res.at'_eq_ok.mpr hg1
  simp only [e0, en, e1, Res.ok_bind]
  have hz : ∀ x : ℝ, m.isZero x = decide (x = 0) := by
    intro x
    by_cases h : x = 0
    · rw [(hm.isZero x).mpr h]; simp [h]
    · have : m.isZero x ≠ true := fun h' => h ((hm.isZero x).mp h')
      simp [h, this]
  simp only [hz, decide_eq_true_eq, neg_neg]
  by_cases hc : c = 0
  · subst hc
    have hx0 : (if b = 0 then m.est |(0 : ℝ)| |a| l.length else
        if |(0 : ℝ)| / b < m.est |(0 : ℝ)| |a| l.length then |(0 : ℝ)| / b else m.est |(0 : ℝ)| |a| l.length) =
        0 := by
      rw [abs_zero, hm.est_zero, zero_div, if_neg (lt_irrefl _), ite_self]
    rw [hx0]
    refine ⟨1, 0, trivial, fun fuel hf => ?_⟩
    obtain ⟨f, rfl⟩ : ∃ f, fuel = f + 1 := ⟨fuel - 1, by omega⟩
    beta_reduce
    have hch : chop ((l.map fun x => |x|) ++ [-|(0 : ℝ)|]) (f + 1) 0 = .ok 0 := by
      unfold chop
      dsimp only
      rw [if_neg]
      rw [polyValue_snoc _ _ _ (by simpa using hl)]
      simp [num_eq]
    rw [hch, Res.ok_bind, newtonBound_succ, if_neg]
    rw [hm.fabs]
    simp [num_eq]
  · have hc' := abs_pos.mpr hc
    have hxpos : 0 < (if b = 0 then m.est |c| |a| l.length else
        if |c| / b < m.est |c| |a| l.length then |c| / b else m.est |c| |a| l.length) := by
      have he := hm.est_pos |c| |a| l.length hc' ha0
      split
      · exact he
      · split
        · rename_i hb0 _
          exact div_pos hc' (lt_of_le_of_ne hb (Ne.symm hb0))
        · exact he
    generalize (if b = 0 then m.est |c| |a| l.length else
        if |c| / b < m.est |c| |a| l.length then |c| / b else m.est |c| |a| l.length) = x at hxpos
    obtain ⟨L, hL0, hL⟩ := small_arg l c hc
    obtain ⟨n, hn⟩ := exists_pow_lt_of_lt_one (show 0 < L / x by positivity) (show (1 / 10 : ℝ) < 1 by norm_num)
    refine Settles.bind (chop_settles _ L (fun y hy hyL => ?_) n x hxpos ?_) fun y hy =>
      newton_settles m hm l c hl h0l hc y y hy
    · rw [polyValue_snoc _ _ _ (by simpa using hl), polyValue_abs, mul_comm]
      have := hL y hy hyL
      linarith
    · rw [lt_div_iff₀ hxpos] at hn
      have h1 : (1 / 10 : ℝ) ^ (n + 1) ≤ (1 / 10) ^ n := pow_le_pow_of_le_one (by norm_num) (by norm_num) (by omega)
      have := mul_le_mul_of_nonneg_left h1 hxpos.le
      linarith

/-! ### The driver -/

theorem mainLoop_settles (m : RMath ℝ) (hm : ExactMath m) (degree : ℕ) (hd : degree ≤ 100) :
    ∀ (rounds : ℕ) (p : List ℝ) (xx yy : ℝ) (z : Slots ℝ), 1 ≤ p.length → p.length ≤ degree + 1 →
    p.length ≤ rounds → (∀ a ∈ p.head?, a ≠ 0) → Filled (degree - (p.length - 1)) z →
    Settles (fun fuel => mainLoop m fuel degree rounds p xx yy z) (fun r => r.1 ≤ degree ∧ Filled r.1 r.2) := by
  intro rounds
  induction rounds with
  | zero => intro p xx yy z h1 _ h3; omega
  | succ rounds ih =>
    intro p xx yy z h1 h2 h3 h0 hz
    unfold mainLoop
    split
    · rename_i h
      rw [show p.length - 1 = 0 by omega] at hz
      exact (Res.rets_ok ⟨Nat.le_refl _, by simpa using hz⟩).settles
    · rename_i hn1
      split
      · exact ((finalZeros_rets m degree p z (by omega) (by omega) hd h2 hz).bind fun z' hz' =>
          Res.rets_pure ⟨Nat.le_refl _, hz'⟩).settles
      · have hl := scaleCoeffs_length m p
        obtain ⟨c, hc, hsc⟩ := scaleCoeffs_eq m hm p
        simp only
        refine (lowerBound_settles m hm _ (by omega) ?_).bind fun bnd _ => ?_
        · intro a ha
          rw [hsc, List.head?_map] at ha
          obtain ⟨b, hb, hab⟩ := Option.mem_map.mp ha
          rw [← hab]
          exact mul_ne_zero (h0 b hb) hc
        refine (startK_rets m _ (by omega)).settles.bind fun k hk => ?_
        have hshift : (shiftLoop m bnd k (scaleCoeffs m p) 20 1 xx yy).Rets
            (fun r => (∀ f, r.1 = some f → f.qp.length = (scaleCoeffs m p).length) ∧
              SomeOK m (scaleCoeffs m p) r.1) := by
          obtain ⟨r, e1, e2⟩ := shiftLoop_rets m bnd k _ (by omega) hk 20 1 xx yy
          exact ⟨r, e1, e2, shiftLoop_found m bnd k _ 20 1 xx yy r e1⟩
        refine hshift.settles.bind fun r hr => ?_
        rw [hl]
        cases hf : r.1 with
        | none =>
          exact (Res.rets_pure ⟨by omega, by simpa using hz⟩).settles
        | some f =>
          simp only
          refine (storeFound_rets degree (p.length - 1) f z (by omega) hd (by omega) hz).settles.bind
            fun z' hz' => ?_
          have hq := hr.1 f hf
          have hfo := hr.2 f hf
          have hhead : f.qp.head? = (scaleCoeffs m p).head? := by
            rcases hfo with ⟨_, u, v, r, e, _, hq, hqp, _⟩ | ⟨_, r, _, hq, hqp, _⟩
            · rw [hqp]
              exact (quadSD_shape u v _ r hq).2
            · rw [hqp]
              exact (horner_shape _ _ r hq).2
          have hlen : (f.qp.take (p.length - if f.two = true then 2 else 1)).length =
              p.length - if f.two = true then 2 else 1 := by
            rw [List.length_take]
            omega
          have h21 : (if f.two = true then 2 else 1) ≤ 2 ∧ 1 ≤ (if f.two = true then 2 else 1) := by
            split <;> omega
          refine ih _ _ _ z' (by omega) (by omega) (by omega) ?_ ?_
          · intro a ha
            rw [List.head?_take, if_neg (by omega), hhead, hsc, List.head?_map] at ha
            obtain ⟨b, hb, hab⟩ := Option.mem_map.mp ha
            rw [← hab]
            exact mul_ne_zero (h0 b hb) hc
          · rw [hlen]
            rw [show p.length - (if f.two = true then 2 else 1) - 1 =
              p.length - 1 - (if f.two = true then 2 else 1) by omega]
            exact hz'

theorem rpoly_settles (m : RMath ℝ) (hm : ExactMath m) (op : List ℝ) (degree : ℕ) (h : op.length = degree + 1)
    (z : Slots ℝ) (hz : z.length = 100) :
    Settles (fun fuel => rpoly m fuel op degree z) (fun r => r.1 ≤ degree ∧ Filled r.1.toNat r.2) := by
  unfold rpoly
  split
  · exact (Res.rets_ok ⟨by simp, ⟨hz, by simp⟩⟩).settles
  · rename_i hd
    refine (Res.rets_at' (by omega)).settles.bind fun c hc => ?_
    split
    · exact (Res.rets_pure ⟨by simp, ⟨hz, by simp⟩⟩).settles
    · rename_i h0
      have hrem : (removeZeros m op degree 0 z).Rets (fun r => (1 ≤ r.1.length ∧ r.1.length ≤ degree + 1 ∧
          Filled (degree - (r.1.length - 1)) r.2) ∧ ∃ n', r.1 = op.take (n' + 1)) := by
        obtain ⟨r, e1, e2⟩ := removeZeros_rets m op degree (by omega) ⟨c, hc, by simpa using h0⟩ degree 0 z
          (by omega) (by omega) ⟨hz, by simp⟩
        obtain ⟨n', k, g1, _⟩ := removeZeros_chain m hm op degree degree 0 z (by omega) (by omega) r e1
        exact ⟨r, e1, e2, n', g1⟩
      refine hrem.settles.bind fun r hr => ?_
      obtain ⟨⟨h1, h2, h3⟩, n', hn'⟩ := hr
      refine (mainLoop_settles m hm degree (by omega) (degree + 1) r.1 _ _ r.2 h1 h2 h2 ?_ h3).bind
        fun x hx => ?_
      · intro a ha
        rw [hn', List.head?_take, if_neg (by omega), List.head?_eq_getElem?] at ha
        rw [hc] at ha
        have : c = a := by simpa using ha
        rw [← this]
        intro h
        exact h0 ((hm.isZero c).mpr h)
      · exact (Res.rets_pure ⟨by simpa using hx.1, by simpa using hx.2⟩).settles

end Verif
