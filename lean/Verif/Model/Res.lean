/-!
# Outcomes of modelled C++ calls

A C++ call returns normally (`ok`), throws (`throw`), or runs into undefined behaviour (`ub`:
signed overflow, out-of-range access, division by zero in integer arithmetic, null dereference).
This type is a modelling device; it corresponds to no particular file.
-/

namespace K52

/-- Outcome of a modelled call. -/
inductive Res (α : Type u) where
  | ok (a : α)
  | throw (what : String)
  | ub
  deriving Repr, DecidableEq

namespace Res

/-- Sequencing: exceptions and undefined behaviour stop the call. -/
def bind {α : Type u} {β : Type v} : Res α → (α → Res β) → Res β
  | .ok a, f => f a
  | .throw w, _ => .throw w
  | .ub, _ => .ub

instance : Monad Res where
  pure := Res.ok
  bind := Res.bind

/-- The call threw an exception (of any kind). -/
def threw {α : Type u} : Res α → Prop
  | .throw _ => True
  | _ => False

@[simp] theorem pure_eq {α : Type u} (a : α) : (pure a : Res α) = .ok a := rfl
@[simp] theorem ok_bind {α β : Type u} (a : α) (f : α → Res β) : (Res.ok a >>= f) = f a := rfl
@[simp] theorem throw_bind {α β : Type u} (w : String) (f : α → Res β) :
    ((Res.throw w : Res α) >>= f) = .throw w := rfl
@[simp] theorem ub_bind {α β : Type u} (f : α → Res β) : ((Res.ub : Res α) >>= f) = .ub := rfl
@[simp] theorem threw_throw {α : Type u} (w : String) : (Res.throw w : Res α).threw := trivial
@[simp] theorem not_threw_ok {α : Type u} (a : α) : ¬ (Res.ok a).threw := id
@[simp] theorem not_threw_ub {α : Type u} : ¬ (Res.ub : Res α).threw := id

theorem bind_eq_ok {α β : Type u} {x : Res α} {f : α → Res β} {b : β} :
    (x >>= f) = .ok b ↔ ∃ a, x = .ok a ∧ f a = .ok b := by
  cases x with
  | ok a => simp
  | throw w => simp
  | ub => simp

end Res

/-- Result of a 32 bit signed arithmetic operation: undefined behaviour when the exact result does not fit `int`. -/
def int32 (x : Int) : Res Int :=
  if -2147483648 ≤ x ∧ x ≤ 2147483647 then .ok x else .ub

end K52
