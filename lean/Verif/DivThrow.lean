import Verif.DivAsk

/-!
# Model of `removeMultiples` of `DivList` with exceptions

`push_back` of the output object and `divides` of the configuration may throw. The exception leaves `removeMultiples`,
the client catches it. Simplification: copying entries does not throw.
-/

namespace Verif.DivList

open Verif.DivMask (Ext)

variable {T : Type}

/-- When something throws: `divides` when asked about the element at a position, `push_back` of the output by what the
output would have received then. -/
structure Faults (T : Type) where
  onDivides : ℕ → Bool
  onOutput : List T → Bool

/-- How a removal ends: with the list, what was put out and the number removed, or with an exception, which leaves a
list, or it is undefined. -/
inductive Removal (T : Type) where
  | done (l : List (Ext T)) (out : List T) (n : ℕ)
  | threw (l : List (Ext T)) (out : List T)
  | ub

/-- How the first loop ends. -/
inductive Found where
  | threw
  | at (i : ℕ)
  | nowhere

/-- The first loop of `removeMultiples` on a vector (src/mathic/DivList.h:230-235) up to the multiple, from position `i`
on. -/
def firstX (c : Conf T) (f : Faults T) (m : Ext T) : List (Ext T) → ℕ → Found
  | [], _ => .nowhere
  | e :: l, i =>
    if asks c m e && f.onDivides i then .threw
    else if divides c m e then .at i
    else firstX c f m l (i + 1)

/-- The second loop and what follows (src/mathic/DivList.h:239-250): `n` elements from position `it` are left. -/
def compactX (c : Conf T) (f : Faults T) (m : Ext T) (l : List (Ext T)) (it newEnd : ℕ) (out : List T) : ℕ → Removal T
  | 0 => .done (l.take newEnd) out (l.length - newEnd)
  | n + 1 =>
    match l[it]? with
    | none => .ub
    | some e =>
      if asks c m e && f.onDivides it then .threw l out
      else if !divides c m e then
        if newEnd < l.length then compactX c f m (l.set newEnd e) (it + 1) (newEnd + 1) out n else .ub
      else if f.onOutput (out ++ [e.t]) then .threw l out
      else compactX c f m l (it + 1) newEnd (out ++ [e.t]) n

/-- `removeMultiples` on a vector (src/mathic/DivList.h:224-251). -/
def removeVectorX (c : Conf T) (f : Faults T) (m : Ext T) (l : List (Ext T)) : Removal T :=
  match firstX c f m l 0 with
  | .threw => .threw l []
  | .nowhere => .done l [] 0
  | .at it =>
    match l[it]? with
    | none => .ub
    | some e =>
      if f.onOutput [e.t] then .threw l []
      else compactX c f m l (it + 1) it [e.t] (l.length - (it + 1))

/-- `removeMultiples` on a linked list (src/mathic/DivList.h:253-275) from position `i` on. -/
def removeListX (c : Conf T) (f : Faults T) (m : Ext T) : List (Ext T) → ℕ → List T → Removal T
  | [], _, out => .done [] out 0
  | e :: l, i, out =>
    if asks c m e && f.onDivides i then .threw (e :: l) out
    else if divides c m e then
      if f.onOutput (out ++ [e.t]) then .threw (e :: l) out
      else
        match removeListX c f m l (i + 1) (out ++ [e.t]) with
        | .done l' out' n => .done l' out' (n + 1)
        | r => r
    else
      match removeListX c f m l (i + 1) out with
      | .done l' out' n => .done (e :: l') out' n
      | .threw l' out' => .threw (e :: l') out'
      | .ub => .ub

/-- A call of `DivList`, or one of `removeMultiples` in which something may throw. -/
inductive OpX (T : Type) where
  | op (o : Op T)
  | remove (m : T) (f : Faults T)

/-- What a call gives back. `threw` is an exception, after which the output object has what is given. -/
inductive RetX (T : Type) where
  | ret (r : Ret T)
  | threw (out : List T)

/-- `DivList::removeMultiples` (src/mathic/DivList.h:428-441). -/
def removeX (c : Conf T) (s : State T) (m : T) (f : Faults T) : Option (RetX T × State T) :=
  match (if c.useLinkedList then removeListX c f (ext c s m) s.list 0 [] else removeVectorX c f (ext c s m) s.list) with
  | .ub => none
  | .threw l out => some (.threw out, { s with list := l })
  | .done l out n =>
    match reportChanges c { s with list := l } n with
    | none => none
    | some s' => some (.ret (.removed out (decide (n > 0))), s')

/-- One call. -/
def stepX (c : Conf T) (s : State T) : OpX T → Option (RetX T × State T)
  | .op o => (step c s o).map (fun r => (.ret r.1, r.2))
  | .remove m f => removeX c s m f

/-- A history of calls. -/
def runX (c : Conf T) (s : State T) : List (OpX T) → Option (List (RetX T) × State T)
  | [] => some ([], s)
  | op :: ops =>
    match stepX c s op with
    | none => none
    | some (r, s') =>
      match runX c s' ops with
      | none => none
      | some (rs, s'') => some (r :: rs, s'')

end Verif.DivList
