/-!
# Outcomes of a C++ computation

`Res α` is the result type of every modelled operation which may have undefined behaviour or may
fail to terminate.  `ub` and `hang` are ordinary values: a safety theorem says that the outcome is
`ok _`, a finding says that it is `ub` or `hang`.
-/

namespace Verif

/-- Outcome of a modelled C++ computation. -/
inductive Res (α : Type u) where
  /-- normal completion -/
  | ok : α → Res α
  /-- undefined behaviour (out-of-bounds access, negative shift, signed overflow, …) -/
  | ub : Res α
  /-- the computation never returns -/
  | hang : Res α
deriving Repr, DecidableEq

namespace Res

/-- Sequencing: undefined behaviour and non-termination absorb what follows. -/
@[inline] def bind {α β} (x : Res α) (f : α → Res β) : Res β :=
  match x with
  | ok a => f a
  | ub => ub
  | hang => hang

instance : Monad Res where
  pure := ok
  bind := bind

@[simp] theorem pure_eq {α} (a : α) : (pure a : Res α) = ok a := rfl
@[simp] theorem bind_ok {α β} (a : α) (f : α → Res β) : (ok a >>= f) = f a := rfl
@[simp] theorem bind_ub {α β} (f : α → Res β) : ((ub : Res α) >>= f) = ub := rfl
@[simp] theorem bind_hang {α β} (f : α → Res β) : ((hang : Res α) >>= f) = hang := rfl

theorem bind_eq_ok {α β} {x : Res α} {f : α → Res β} {b : β} :
    (x >>= f) = ok b ↔ ∃ a, x = ok a ∧ f a = ok b := by
  cases x <;> simp

instance : LawfulMonad Res := LawfulMonad.mk'
  (id_map := by intro α x; cases x <;> rfl)
  (pure_bind := by intros; rfl)
  (bind_assoc := by intro α β γ x f g; cases x <;> rfl)

/-- The computation completes without undefined behaviour. -/
def isOk {α} : Res α → Bool
  | ok _ => true
  | _ => false

/-- Turn a failed lookup (`none`) into undefined behaviour. -/
def ofOption {α} : Option α → Res α
  | some a => ok a
  | none => ub

@[simp] theorem ofOption_some {α} (a : α) : ofOption (some a) = ok a := rfl
@[simp] theorem ofOption_none {α} : (ofOption none : Res α) = ub := rfl

end Res

/-- A byte of memory. -/
abbrev Byte := BitVec 8

end Verif
