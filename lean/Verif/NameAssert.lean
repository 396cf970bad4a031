import Verif.Assert
import Verif.NameFactory

/-!
# Debug builds of `mathic::NameFactory` (src/mathic/NameFactory.h)

The functions of `NameFactory.lean` that have assertions (src/mathic/NameFactory.h:120, 196), with the products that the first one
makes.
-/

namespace Verif.NameFactory

open Verif.Dbg

variable {P : Type}

/-- The number of the factory function that `createNullOnUnknown` calls, if any (src/mathic/NameFactory.h:101-104). -/
def calledLoop (name : Str) : ℕ → List (Str × Option P) → Option ℕ
  | _, [] => none
  | i, (first, _) :: rest => if first = name then some i else calledLoop name (i + 1) rest

/-- `registerProduct` (src/mathic/NameFactory.h:117-122): the factory function that the assertion calls, and the factory. -/
def registerProductD (f : Factory P) (name : Str) (function : Option P) : Dbg (Option ℕ × Factory P) := do
  assert (createNullOnUnknown f name).isNone
  ok (calledLoop name 0 f.pairs, registerProduct f name function)

/-- Registrations one after the other (src/mathic/NameFactory.h:117-122), with the calls of factory functions. -/
def registerAllD (f : Factory P) : List (Str × Option P) → Dbg (List ℕ × Factory P)
  | [] => ok ([], f)
  | x :: xs => do
    let r ← registerProductD f x.1 x.2
    let q ← registerAllD r.2 xs
    ok (r.1.toList ++ q.1, q.2)

/-- Registrations one after the other in a release build (src/mathic/NameFactory.h:117-122). -/
def registerAll (f : Factory P) : List (Str × Option P) → Factory P
  | [] => f
  | x :: xs => registerAll (registerProduct f x.1 x.2) xs

/-- `uniqueNameWithPrefix` (src/mathic/NameFactory.h:169-199), with the assertion of line 196. -/
def uniqueNameWithPrefixD (f : Factory P) (pre : Str) : Dbg (Res Str) :=
  let found := namesWithPrefix f pre []
  let names := if found.contains pre then [pre] else found
  if names.isEmpty then
    ok (.exn (.unknownName (throwMsg
      ("No ".toList ++ f.abstractName ++ " has the prefix \"".toList ++ pre ++ "\".".toList))))
  else if names.length ≥ 2 then
    ok (.exn (.ambiguousName (throwMsg (listNames names
      ("More than one ".toList ++ f.abstractName ++ " has prefix \"".toList ++ pre ++ "\":\n ".toList)))))
  else do
    assert (names.length == 1)
    ok (match names.getLast? with
      | none => .ub
      | some name => .ok name)

end Verif.NameFactory
