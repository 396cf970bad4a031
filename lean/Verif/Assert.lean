import Mathlib.Data.Nat.Notation

/-!
# What a debug build does

With `MATHIC_DEBUG` defined `MATHIC_ASSERT(X)` evaluates `X` and stops the program if it is false, with
`MATHIC_SLOW_DEBUG` so does `MATHIC_SLOW_ASSERT` (src/mathic/stdinc.h:74-91). The models of debug builds
have both defined. Without them `MATHIC_ASSERT(X)` is `MATHIC_ASSUME(X)`, which is nothing for GCC and
`__assume(X)` for Microsoft's compiler (src/mathic/stdinc.h:16, 51): there a false assertion is undefined
behaviour in release builds as well.
-/

namespace Verif

/-- What becomes of a computation in a debug build: it ends, an assertion fails, or it is undefined. -/
inductive Dbg (α : Type*) where
  | ok (a : α)
  | failed
  | ub
deriving DecidableEq

namespace Dbg

universe u

/-- One computation after another. -/
protected def bind {α β : Type u} : Dbg α → (α → Dbg β) → Dbg β
  | ok a, f => f a
  | failed, _ => failed
  | ub, _ => ub

instance : Monad Dbg where
  pure := ok
  bind := Dbg.bind

/-- A part of the model that has no assertions; `none` is undefined. -/
def lift {α : Type u} : Option α → Dbg α
  | none => ub
  | some a => ok a

/-- What a debug build does that catches everything undefined by an assertion. -/
def caught {α : Type u} : Option α → Dbg α
  | none => failed
  | some a => ok a

/-- `MATHIC_ASSERT` (src/mathic/stdinc.h:84-91). -/
def assert (b : Bool) : Dbg Unit := if b then ok () else failed

variable {α β : Type u}

@[simp] theorem ok_bind (a : α) (f : α → Dbg β) : (ok a >>= f) = f a := rfl
@[simp] theorem failed_bind (f : α → Dbg β) : ((failed : Dbg α) >>= f) = failed := rfl
@[simp] theorem ub_bind (f : α → Dbg β) : ((ub : Dbg α) >>= f) = ub := rfl
@[simp] theorem pure_eq (a : α) : (pure a : Dbg α) = ok a := rfl
@[simp] theorem lift_some (a : α) : lift (some a) = ok a := rfl
@[simp] theorem lift_none : lift (none : Option α) = ub := rfl
@[simp] theorem assert_true : assert true = ok () := rfl
@[simp] theorem assert_false : assert false = failed := rfl

theorem assert_of {b : Bool} (h : b = true) : assert b = ok () := by rw [h]; rfl

theorem bind_ok {x : Dbg α} {f : α → Dbg β} {b : β} :
    (x >>= f) = ok b ↔ ∃ a, x = ok a ∧ f a = ok b := by
  cases x with
  | ok a => simp
  | failed => simp
  | ub => simp

theorem lift_ok {o : Option α} {a : α} : lift o = ok a ↔ o = some a := by
  cases o <;> simp [lift]

theorem assert_ok {b : Bool} {u : Unit} : assert b = ok u ↔ b = true := by
  cases b <;> simp [assert]

end Dbg

end Verif
