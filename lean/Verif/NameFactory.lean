/-!
# Model of `mathic::NameFactory` and of the errors of mathic

/repo/src/mathic/NameFactory.h, /repo/src/mathic/error.h, /repo/src/mathic/error.cpp.
A string is a list of characters, one for each byte.
-/

namespace Verif.NameFactory

/-- `std::string`. -/
abbrev Str := List Char

/-- The exceptions of mathic with their messages, /repo/src/mathic/error.h:10-19 and 45-53:
`UnknownNameException`, `AmbiguousNameException`, another `MathicException`,
`InternalMathicException`. -/
inductive Err where
  | unknownName (msg : Str)
  | ambiguousName (msg : Str)
  | error (msg : Str)
  | internal (msg : Str)
deriving DecidableEq, Repr

/-- The outcome of a call: a result, an exception, or undefined behaviour. -/
inductive Res (α : Type) where
  | ok (a : α)
  | exn (e : Err)
  | ub
deriving DecidableEq, Repr

/-- One call after the other. -/
def Res.bind {α β : Type} (r : Res α) (f : α → Res β) : Res β :=
  match r with
  | .ok a => f a
  | .exn e => .exn e
  | .ub => .ub

/-- The message of `throwError`, /repo/src/mathic/error.h:39-42. -/
def throwMsg (errorMsg : Str) : Str := "ERROR: ".toList ++ errorMsg ++ ['\n']

/-- `reportError`, /repo/src/mathic/error.cpp:5-7. -/
def reportError {α : Type} (errorMsg : Str) : Res α := .exn (.error ("ERROR: ".toList ++ errorMsg))

/-- `reportInternalError(errorMsg)`, /repo/src/mathic/error.cpp:9-11. -/
def reportInternalError {α : Type} (errorMsg : Str) : Res α :=
  .exn (.internal ("INTERNAL ERROR: ".toList ++ errorMsg))

/-- `NameFactory`, /repo/src/mathic/NameFactory.h:49-53. Simplified: a factory function is the
product that it makes, `none` for a null pointer, so all its calls make equal products and it
throws no exception. -/
structure Factory (P : Type) where
  pairs : List (Str × Option P)
  abstractName : Str

variable {P : Type}

/-- The constructor, /repo/src/mathic/NameFactory.h:24. -/
def init (abstractName : Str) : Factory P := ⟨[], abstractName⟩

/-- The loop of `createNullOnUnknown`, /repo/src/mathic/NameFactory.h:101-104. -/
def createLoop (name : Str) : List (Str × Option P) → Option P
  | [] => none
  | (first, second) :: rest => if first = name then second else createLoop name rest

/-- `createNullOnUnknown`, /repo/src/mathic/NameFactory.h:98-105. -/
def createNullOnUnknown (f : Factory P) (name : Str) : Option P := createLoop name f.pairs

/-- `create`, /repo/src/mathic/NameFactory.h:107-115. -/
def create (f : Factory P) (name : Str) : Res P :=
  match createNullOnUnknown f name with
  | none => .exn (.unknownName (throwMsg
      ("Unknown ".toList ++ f.abstractName ++ " \"".toList ++ name ++ "\".".toList)))
  | some product => .ok product

/-- `registerProduct`, /repo/src/mathic/NameFactory.h:117-122, without the assertion. -/
def registerProduct (f : Factory P) (name : Str) (function : Option P) : Factory P :=
  ⟨f.pairs ++ [(name, function)], f.abstractName⟩

/-- `operator<` of `std::string`. -/
def strLt : Str → Str → Bool
  | _, [] => false
  | [], _ :: _ => true
  | a :: s, b :: t => a < b || (a == b && strLt s t)

/-- `first.compare(0, prefix.size(), prefix) == 0` in /repo/src/mathic/NameFactory.h:130. -/
def hasPrefix (pre first : Str) : Bool := first.take pre.length == pre

/-- The loop of `namesWithPrefix`, /repo/src/mathic/NameFactory.h:129-131. -/
def pushNames (pre : Str) : List (Str × Option P) → List Str → List Str
  | [], names => names
  | (first, _) :: rest, names =>
    pushNames pre rest (if hasPrefix pre first then names ++ [first] else names)

/-- `namesWithPrefix`, /repo/src/mathic/NameFactory.h:124-133. `std::sort` is a merge sort here,
which makes no difference: `sorted_unique`. -/
def namesWithPrefix (f : Factory P) (pre : Str) (names : List Str) : List Str :=
  (pushNames pre f.pairs names).mergeSort (fun a b => !strLt b a)

/-- `empty`, /repo/src/mathic/NameFactory.h:135-138. -/
def empty (f : Factory P) : Bool := f.pairs.isEmpty

/-- The loop that lists the names, /repo/src/mathic/NameFactory.h:191-192. -/
def listNames : List Str → Str → Str
  | [], msg => msg
  | name :: rest, msg => listNames rest (msg ++ ' ' :: name)

/-- `uniqueNameWithPrefix`, /repo/src/mathic/NameFactory.h:169-199. `names.back()` of an empty
vector is undefined. -/
def uniqueNameWithPrefix (f : Factory P) (pre : Str) : Res Str :=
  let found := namesWithPrefix f pre []
  let names := if found.contains pre then [pre] else found
  if names.isEmpty then
    .exn (.unknownName (throwMsg
      ("No ".toList ++ f.abstractName ++ " has the prefix \"".toList ++ pre ++ "\".".toList)))
  else if names.length ≥ 2 then
    .exn (.ambiguousName (throwMsg (listNames names
      ("More than one ".toList ++ f.abstractName ++ " has prefix \"".toList ++ pre ++ "\":\n ".toList))))
  else match names.getLast? with
    | none => .ub
    | some name => .ok name

/-- `createWithPrefix`, /repo/src/mathic/NameFactory.h:163-167. The result is a pointer that may be
null. -/
def createWithPrefix (f : Factory P) (pre : Str) : Res (Option P) :=
  (uniqueNameWithPrefix f pre).bind fun name => .ok (createNullOnUnknown f name)

end Verif.NameFactory
