/-!
# Shared vocabulary of the models

`Res` is the outcome of a modelled C++ call: a normal result, a thrown exception
(`cybozu::Exception`), or undefined behaviour (an access outside an object, a division by
zero, ...).  Models return `.ub` wherever the C++ code would leave the defined part of the
language, so "no UB" is a property to be proved, not an assumption.
-/
namespace Verif

/-- Outcome of a modelled C++ call. -/
inductive Res (α : Type u) where
  | ok (a : α)
  | throw
  | ub
  deriving DecidableEq, Repr

namespace Res

/-- Sequencing: an exception or UB ends the computation. -/
@[inline] def bind {α : Type u} {β : Type v} (r : Res α) (f : α → Res β) : Res β :=
  match r with
  | .ok a => f a
  | .throw => .throw
  | .ub => .ub

instance : Monad Res where
  pure := .ok
  bind := Res.bind

@[simp] theorem pure_eq {α : Type u} (a : α) : (pure a : Res α) = .ok a := rfl
@[simp] theorem ok_bind {α β : Type u} (a : α) (f : α → Res β) :
    (Res.ok a >>= f) = f a := rfl
@[simp] theorem throw_bind {α β : Type u} (f : α → Res β) :
    ((Res.throw : Res α) >>= f) = .throw := rfl
@[simp] theorem ub_bind {α β : Type u} (f : α → Res β) :
    ((Res.ub : Res α) >>= f) = .ub := rfl

theorem bind_eq_ok {α β : Type u} {r : Res α} {f : α → Res β} {b : β} :
    (r >>= f) = .ok b ↔ ∃ a, r = .ok a ∧ f a = .ok b := by
  cases r <;> simp

instance : LawfulMonad Res := LawfulMonad.mk'
  (id_map := by intro α x; cases x <;> rfl)
  (pure_bind := by intros; rfl)
  (bind_assoc := by intro α β γ x f g; cases x <;> rfl)

end Res

/-- Array read `p[i]` with the bound made explicit. -/
def at? {α : Type u} (l : List α) (i : Nat) : Res α :=
  match l[i]? with
  | some a => .ok a
  | none => .ub

@[simp] theorem at?_eq_ok {α : Type u} {l : List α} {i : Nat} (h : i < l.length) :
    at? l i = .ok l[i] := by
  simp [at?, h]

theorem at?_eq_ub {α : Type u} {l : List α} {i : Nat} (h : l.length ≤ i) :
    at? l i = .ub := by
  simp [at?, h]

end Verif
