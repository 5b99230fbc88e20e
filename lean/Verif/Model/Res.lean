/-
Outcomes of a C++ call.

`ok a`    the call returns `a`;
`abort`   a glog `CHECK` failed and the process is aborted;
`throws`  a C++ exception leaves the call;
`ub`      undefined behaviour (out-of-bounds access, Eigen size mismatch, ...);
`hang`    the call does not return (only produced when the fuel of a loop that
          has no static bound in the C++ runs out).
-/
namespace Verif

inductive Res (α : Type) where
  | ok (a : α)
  | abort
  | throws
  | ub
  | hang
  deriving DecidableEq, Repr

namespace Res

variable {α β γ : Type}

/-- Sequencing: anything but a normal return is passed on. -/
def bind : Res α → (α → Res β) → Res β
  | ok a, f => f a
  | abort, _ => abort
  | throws, _ => throws
  | ub, _ => ub
  | hang, _ => hang

instance : Monad Res where
  pure := ok
  bind := bind

@[simp] theorem pure_eq (a : α) : (pure a : Res α) = ok a := rfl
@[simp] theorem ok_bind (a : α) (f : α → Res β) : (ok a >>= f) = f a := rfl
@[simp] theorem abort_bind (f : α → Res β) : ((abort : Res α) >>= f) = abort := rfl
@[simp] theorem throws_bind (f : α → Res β) : ((throws : Res α) >>= f) = throws := rfl
@[simp] theorem ub_bind (f : α → Res β) : ((ub : Res α) >>= f) = ub := rfl
@[simp] theorem hang_bind (f : α → Res β) : ((hang : Res α) >>= f) = hang := rfl

instance : LawfulMonad Res := LawfulMonad.mk'
  (id_map := by intro α x; cases x <;> rfl)
  (pure_bind := by intros; rfl)
  (bind_assoc := by intro α β γ x f g; cases x <;> rfl)

@[simp] theorem map_ok (f : α → β) (a : α) : (f <$> (ok a : Res α)) = ok (f a) := rfl

theorem bind_eq_ok {x : Res α} {f : α → Res β} {b : β} :
    (x >>= f) = ok b ↔ ∃ a, x = ok a ∧ f a = ok b := by
  cases x <;> simp

/-- A glog `CHECK`. -/
def check (c : Prop) [Decidable c] : Res Unit := if c then ok () else abort

@[simp] theorem check_of {c : Prop} [Decidable c] (h : c) : check c = ok () := if_pos h
theorem check_of_not {c : Prop} [Decidable c] (h : ¬ c) : check c = abort := if_neg h

@[simp] theorem check_eq_ok {c : Prop} [Decidable c] {u : Unit} : check c = ok u ↔ c := by
  unfold check; split <;> simp_all

@[simp] theorem check_false : check False = abort := rfl

/-- Element access `v[i]` of a `std::vector` or an Eigen vector: reading outside is
undefined behaviour. -/
def at' (l : List α) (i : Nat) : Res α :=
  match l[i]? with
  | some a => ok a
  | none => ub

theorem at'_of_lt {l : List α} {i : Nat} (h : i < l.length) : at' l i = ok l[i] := by
  simp [at', h]

theorem at'_of_ge {l : List α} {i : Nat} (h : l.length ≤ i) : at' l i = ub := by
  simp [at', h]

theorem at'_eq_ok {l : List α} {i : Nat} {a : α} : at' l i = ok a ↔ l[i]? = some a := by
  unfold at'; split <;> simp_all

theorem mapM_ok {l : List α} {f : α → Res β} {g : α → β} (h : ∀ a ∈ l, f a = ok (g a)) :
    l.mapM f = ok (l.map g) := by
  induction l with
  | nil => rfl
  | cons a l ih =>
    rw [List.mapM_cons, h a (by simp), ok_bind, ih (fun b hb => h b (by simp [hb]))]
    rfl

/-- Whether the outcome is undefined behaviour. -/
def isUb : Res α → Bool
  | .ub => true
  | _ => false

theorem eq_ub_of_isUb {x : Res α} (h : x.isUb = true) : x = .ub := by
  cases x <;> simp_all [isUb]

end Res
end Verif
