/-
Common vocabulary of the model: outcomes of running C++ code.
-/
namespace Mlibc

/-- Outcome of running a piece of C++ code.
`ub`: the code would access memory outside the objects it was given, or otherwise run into undefined
behaviour. `panic`: a failed `__ensure`, `panicLogger` or trap, i.e. the process aborts
(options/internal/include/mlibc/debug.hpp, bits/ensure.h). -/
inductive Res (α : Type u) where
  | ok (a : α)
  | ub
  | panic
  deriving DecidableEq, Repr

namespace Res

/-- Sequencing: stop at the first `ub` or `panic`. -/
def bind {α : Type u} {β : Type v} (x : Res α) (f : α → Res β) : Res β :=
  match x with
  | ok a => f a
  | ub => ub
  | panic => panic

instance : Monad Res where
  pure := Res.ok
  bind := Res.bind

@[simp] theorem pure_eq {α : Type u} (a : α) : (pure a : Res α) = .ok a := rfl
@[simp] theorem ok_bind {α β : Type u} (a : α) (f : α → Res β) : (Res.ok a >>= f) = f a := rfl
@[simp] theorem ub_bind {α β : Type u} (f : α → Res β) : ((Res.ub : Res α) >>= f) = .ub := rfl
@[simp] theorem panic_bind {α β : Type u} (f : α → Res β) : ((Res.panic : Res α) >>= f) = .panic := rfl

/-- Successful sequencing decomposes. -/
theorem bind_eq_ok {α β : Type u} {x : Res α} {f : α → Res β} {b : β} :
    (x >>= f) = .ok b ↔ ∃ a, x = .ok a ∧ f a = .ok b := by
  cases x <;> simp

instance : LawfulMonad Res := LawfulMonad.mk'
  (id_map := by intro α x; cases x <;> rfl)
  (pure_bind := by intros; rfl)
  (bind_assoc := by intro α β γ x f g; cases x <;> rfl)

@[simp] theorem map_ok {α β : Type u} (f : α → β) (a : α) : (f <$> Res.ok a) = .ok (f a) := rfl
@[simp] theorem map_ub {α β : Type u} (f : α → β) : (f <$> (Res.ub : Res α)) = .ub := rfl
@[simp] theorem map_panic {α β : Type u} (f : α → β) : (f <$> (Res.panic : Res α)) = .panic := rfl

/-- The code completes normally. -/
def isOk {α : Type u} : Res α → Bool
  | ok _ => true
  | _ => false

end Res

/-- `__ensure(cond)`. options/internal/include/bits/ensure.h -/
def ensure (c : Bool) : Res Unit := if c then .ok () else .panic

@[simp] theorem ensure_true : ensure true = .ok () := rfl
@[simp] theorem ensure_false : ensure false = .panic := rfl

/-- The two lists have the same length and are related element by element. -/
inductive Pointwise {α : Type u} {β : Type v} (R : α → β → Prop) : List α → List β → Prop where
  | nil : Pointwise R [] []
  | cons {a b as bs} : R a b → Pointwise R as bs → Pointwise R (a :: as) (b :: bs)

end Mlibc
