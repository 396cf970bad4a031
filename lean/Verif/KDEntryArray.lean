import Verif.DivMask
import Verif.DivList

/-!
# Model of `mathic::KDEntryArray` (src/mathic/KDEntryArray.h)

The array that a leaf of a binary KD tree or a node of a packed KD tree holds. Simplifications:
`Entry` and `Monomial` are one type `T` and monomials are passed by value; an iterator is an index.
Reading an element that is not constructed, going past the capacity and popping from an empty array
are undefined (`none`). Asserts and the memory arena are left out.
-/

namespace Verif.KDTree

open Verif.DivMask (Ext Bits Mask VarData combineAnd canDivide maxMask)

/-- A configuration of `KDTree` (src/mathic/KDTree.h:18-32 and src/mathic/DivFinder.h) together with
the choices that the C++ standard leaves to the library. -/
structure Conf (T : Type) where
  dm : DivMask.Conf T
  /-- `PackedTree`: `PackedKDTree`, else `BinaryKDTree` (src/mathic/KDTree.h:39-46) -/
  packed : Bool
  leafSize : ℕ
  useDivMask : Bool
  useTreeDivMask : Bool
  sortOnInsert : Bool
  allowRemovals : Bool
  useDivisorCache : Bool
  isLessThan : T → T → Bool
  doAutomaticRebuilds : Bool
  /-- `static_cast<size_t>(size * getRebuildRatio())` -/
  rebuildSize : ℕ → ℕ
  rebuildMin : ℕ
  /-- `std::sort` in `DivMask` -/
  sortVars : List VarData → List VarData
  /-- `std::sort` on entries -/
  sort : {α : Type} → (α → α → Bool) → List α → List α
  /-- `std::partition`: what ends up before and after the middle -/
  partition : {α : Type} → (α → Bool) → List α → List α × List α
  /-- whether `std::copy` onto itself is taken for undefined, as the standard has it, or for what the
  libraries do, which is nothing -/
  selfCopyUndefined : Bool

variable {T : Type}

/-- What an output object answers to an entry: `proceed` returns true, returns false, or throws. -/
inductive Flow where
  | go
  | stop
  | threw
  deriving DecidableEq

/-- A `KDEntryArray`: the constructed entries, and the mask of the base class `HasDivMask` (which is
not there without tree masks). -/
structure Arr (T : Type) where
  es : List (Ext T)
  mask : Mask

/-- `a.divides(b, conf)` on extended entries. -/
def divides (c : Conf T) (a b : Ext T) : Bool := Ext.divides c.dm c.useDivMask a b

/-- `Comparer<C>` (src/mathic/Comparer.h:9-11). -/
def comparer (c : Conf T) (a b : Ext T) : Bool := c.isLessThan a.t b.t

/-- `HasDivMask<UseTreeDivMask>::updateToLowerBound` (src/mathic/DivMask.h:370-372, 391). -/
def lower (c : Conf T) (m x : Mask) : Mask := if c.useTreeDivMask then combineAnd m x else m

/-- The empty array (src/mathic/KDEntryArray.h:185-192). -/
def Arr.empty : Arr T := ⟨[], maxMask⟩

/-- `push_back` (src/mathic/KDEntryArray.h:237-243). -/
def Arr.pushBack (c : Conf T) (a : Arr T) (e : Ext T) : Option (Arr T) :=
  if a.es.length < c.leafSize then some ⟨a.es ++ [e], lower c a.mask e.mask⟩ else none

/-- `pop_back` (src/mathic/KDEntryArray.h:245-250). -/
def Arr.popBack (a : Arr T) : Option (Arr T) :=
  if a.es = [] then none else some { a with es := a.es.dropLast }

/-- The loop of the constructors (src/mathic/KDEntryArray.h:210-211, 231-232). -/
def Arr.pushAll (c : Conf T) (a : Arr T) : List (Ext T) → Option (Arr T)
  | [] => some a
  | e :: es =>
    match a.pushBack c e with
    | none => none
    | some a' => pushAll c a' es

/-- `if (conf.getSortOnInsert()) std::sort(...)` (src/mathic/KDEntryArray.h:212-213, 233-234 and the two
`splitInsert`). -/
def sortEntries (c : Conf T) (l : List (Ext T)) : List (Ext T) :=
  if c.sortOnInsert then c.sort (comparer c) l else l

/-- The constructors from a range (src/mathic/KDEntryArray.h:194-214, 216-235). In the first one the
entries get their masks on the way, here the caller has done that. -/
def Arr.ofRange (c : Conf T) (l : List (Ext T)) : Option (Arr T) :=
  match (Arr.empty : Arr T).pushAll c l with
  | none => none
  | some a => some { a with es := sortEntries c a.es }

/-- The loop of `insert` at a position (src/mathic/KDEntryArray.h:261-262): `*moveTo = *(moveTo - 1)` for `n`
more positions down from `moveTo`. -/
def shiftUp {α : Type} (l : List α) (moveTo : ℕ) : ℕ → Option (List α)
  | 0 => some l
  | n + 1 =>
    match l[moveTo - 1]? with
    | none => none
    | some x => if moveTo < l.length then shiftUp (l.set moveTo x) (moveTo - 1) n else none

/-- `insert(iterator, entry)` (src/mathic/KDEntryArray.h:252-265). -/
def Arr.insertAt (c : Conf T) (a : Arr T) (it : ℕ) (e : Ext T) : Option (Arr T) :=
  if it = a.es.length then a.pushBack c e
  else
    match a.es.getLast? with
    | none => none
    | some b =>
      match a.pushBack c b with
      | none => none
      | some a' =>
        match shiftUp a'.es (a'.es.length - 1) (a'.es.length - 1 - it) with
        | none => none
        | some es => if it < es.length then some ⟨es.set it e, lower c a'.mask e.mask⟩ else none

/-- `insert(entry, conf)` (src/mathic/KDEntryArray.h:267-276). -/
def Arr.insert (c : Conf T) (a : Arr T) (e : Ext T) : Option (Arr T) :=
  if !c.sortOnInsert then a.pushBack c e
  else
    match DivList.upperBound (comparer c) a.es e with
    | none => none
    | some it => a.insertAt c it e

/-- The second loop of `removeMultiples` (src/mathic/KDEntryArray.h:308-314): `n` elements from position
`it` are left to look at, the elements kept are copied down to `newEnd`. -/
def compact (p : Ext T → Bool) (l : List (Ext T)) (it newEnd : ℕ) (out : List T) :
    ℕ → Option (List (Ext T) × ℕ × List T)
  | 0 => some (l, newEnd, out)
  | n + 1 =>
    match l[it]? with
    | none => none
    | some e =>
      if !p e then
        if newEnd < l.length then compact p (l.set newEnd e) (it + 1) (newEnd + 1) out n else none
      else compact p l (it + 1) newEnd (out ++ [e.t]) n

/-- The loop `do pop_back(); while (newSize < size())` (src/mathic/KDEntryArray.h:320-322). -/
def Arr.popLoop (a : Arr T) (newSize : ℕ) : Option (Arr T) :=
  match _h : a.popBack with
  | none => none
  | some a' => if newSize < a'.es.length then popLoop a' newSize else some a'
termination_by a.es.length
decreasing_by
  unfold Arr.popBack at _h
  split at _h
  · cases _h
  · rename_i hne
    cases _h
    have : 0 < a.es.length := List.length_pos_iff.mpr hne
    simp only [List.length_dropLast]
    omega

/-- `removeMultiples` (src/mathic/KDEntryArray.h:284-325): the array, what is put out, and the number
removed. -/
def Arr.removeMultiples (c : Conf T) (m : Ext T) (a : Arr T) : Option (Arr T × List T × ℕ) :=
  if c.leafSize = 1 then
    match a.es with
    | [] => some (a, [], 0)
    | e :: _ =>
      if !divides c m e then some (a, [], 0)
      else
        match a.popBack with
        | none => none
        | some a' => some (a', [e.t], 1)
  else
    match a.es.findIdx? (fun e => divides c m e) with
    | none => some (a, [], 0)
    | some it =>
      match a.es[it]? with
      | none => none
      | some e =>
        match compact (fun e => divides c m e) a.es (it + 1) it [e.t] (a.es.length - (it + 1)) with
        | none => none
        | some (l, newEnd, out) =>
          match Arr.popLoop { a with es := l } newEnd with
          | none => none
          | some a' => some (a', out, l.length - newEnd)

/-- The loop over variables in `removeElement` (src/mathic/KDEntryArray.h:333-335). -/
def sameExponents (c : Conf T) (m e : T) : Bool :=
  (List.range c.dm.varCount).all (fun v => c.dm.getExponent m v == c.dm.getExponent e v)

/-- The loop of `removeElement` that moves the later elements down (src/mathic/KDEntryArray.h:336-340), `n`
more from position `it`. -/
def shiftDown {α : Type} (l : List α) (it : ℕ) : ℕ → Option (List α)
  | 0 => some l
  | n + 1 =>
    match l[it + 1]? with
    | none => none
    | some x => if it < l.length then shiftDown (l.set it x) (it + 1) n else none

/-- `removeElement` (src/mathic/KDEntryArray.h:327-346). -/
def Arr.removeElement (c : Conf T) (m : T) (a : Arr T) : Option (Bool × Arr T) :=
  match a.es.findIdx? (fun e => sameExponents c m e.t) with
  | none => some (false, a)
  | some it =>
    match shiftDown a.es it (a.es.length - 1 - it) with
    | none => none
    | some l =>
      match Arr.popBack { a with es := l } with
      | none => none
      | some a' => some (true, a')

/-- The test with the mask of the array at the start of `findDivisor` and `findAllDivisors`
(src/mathic/KDEntryArray.h:352-354, 386-388). -/
def Arr.maskRejects (c : Conf T) (m : Ext T) (a : Arr T) : Bool :=
  c.useTreeDivMask && decide (1 < c.leafSize) && !canDivide a.mask m.mask

/-- `findDivisor` (src/mathic/KDEntryArray.h:348-380), `some none` is `end()`. -/
def Arr.findDivisor (c : Conf T) (m : Ext T) (a : Arr T) : Option (Option ℕ) :=
  if a.maskRejects c m then some none
  else if c.leafSize = 1 then
    if c.allowRemovals && a.es.isEmpty then some none
    else
      match a.es with
      | [] => none
      | e :: _ => some (if divides c e m then some 0 else none)
  else if !c.sortOnInsert then some (a.es.findIdx? (fun e => divides c e m))
  else
    match DivList.upperBound (comparer c) a.es m with
    | none => none
    | some k => some ((a.es.take k).findIdx? (fun e => divides c e m))

/-- The loop `if (match) if (!out.proceed(entry)) return false;` (src/mathic/KDEntryArray.h:398-401, 406-409,
427-430, 442-444). `got` is what the output has received. -/
def visit (p : Ext T → Bool) (proceed : List T → Flow) (got : List T) : List (Ext T) → List T × Flow
  | [] => (got, .go)
  | e :: l =>
    if p e then
      match proceed (got ++ [e.t]) with
      | .go => visit p proceed (got ++ [e.t]) l
      | .stop => (got ++ [e.t], .stop)
      | .threw => (got ++ [e.t], .threw)
    else visit p proceed got l

/-- The special case for leaf size one (src/mathic/KDEntryArray.h:393-395, 420-422, 439). -/
def Arr.visitOne (c : Conf T) (p : Ext T → Bool) (proceed : List T → Flow) (got : List T) (a : Arr T) :
    Option (List T × Flow) :=
  if c.allowRemovals && a.es.isEmpty then some (got, .go)
  else
    match a.es with
    | [] => none
    | e :: _ => if !p e then some (got, .go) else some (got ++ [e.t], proceed (got ++ [e.t]))

/-- `findAllDivisors` (src/mathic/KDEntryArray.h:382-412). The pointer that is returned when the mask
rejects is not null and so means true. -/
def Arr.findAllDivisors (c : Conf T) (m : Ext T) (proceed : List T → Flow) (got : List T) (a : Arr T) :
    Option (List T × Flow) :=
  if a.maskRejects c m then some (got, .go)
  else if c.leafSize = 1 then a.visitOne c (fun e => divides c e m) proceed got
  else if !c.sortOnInsert then some (visit (fun e => divides c e m) proceed got a.es)
  else
    match DivList.upperBound (comparer c) a.es m with
    | none => none
    | some k => some (visit (fun e => divides c e m) proceed got (a.es.take k))

/-- `findAllMultiples` (src/mathic/KDEntryArray.h:414-432). -/
def Arr.findAllMultiples (c : Conf T) (m : Ext T) (proceed : List T → Flow) (got : List T) (a : Arr T) :
    Option (List T × Flow) :=
  if c.leafSize = 1 then a.visitOne c (fun e => divides c m e) proceed got
  else some (visit (fun e => divides c m e) proceed got a.es)

/-- `forAll` (src/mathic/KDEntryArray.h:434-446). -/
def Arr.forAll (c : Conf T) (proceed : List T → Flow) (got : List T) (a : Arr T) : Option (List T × Flow) :=
  if c.leafSize = 1 then a.visitOne c (fun _ => true) proceed got
  else some (visit (fun _ => true) proceed got a.es)

/-- `recalculateTreeDivMask` (src/mathic/KDEntryArray.h:472-479). -/
def Arr.recalculate (c : Conf T) (a : Arr T) : Arr T :=
  if !c.useTreeDivMask then a else { a with mask := DivMask.lowerBound (a.es.map Ext.mask) }

/-- The loop over the entries in `split` (src/mathic/KDEntryArray.h:170-173). -/
def minMax {α : Type} (c : Conf T) (f : α → T) (var : ℕ) (first : α) (l : List α) : ℤ × ℤ :=
  l.foldl (fun m x => (min m.1 (c.dm.getExponent (f x) var), max m.2 (c.dm.getExponent (f x) var)))
    (c.dm.getExponent (f first) var, c.dm.getExponent (f first) var)

/-- The result of `split`: variable, exponent and the two parts of the range. -/
structure Split (α : Type) where
  var : ℕ
  exp : ℤ
  le : List α
  gt : List α

/-- `SplitEqualOrLess` (src/mathic/KDEntryArray.h:127-144). -/
def equalOrLess {α : Type} (c : Conf T) (f : α → T) (var : ℕ) (exp : ℤ) (x : α) : Bool :=
  !decide (exp < c.dm.getExponent (f x) var)

/-- The entry that `minExp` and `maxExp` start from (src/mathic/KDEntryArray.h:161-169). -/
def firstOf {α : Type} (l : List α) : Option α → Option α
  | some x => some x
  | none => l.head?

/-- The loop of `split` (src/mathic/KDEntryArray.h:158-180) for `n` more variables from `var` on. The inner
`none` is the exception. `extra` is the entry to be inserted, if there is one. -/
def splitLoop {α : Type} (c : Conf T) (f : α → T) (l : List α) (extra : Option α) (var : ℕ) :
    ℕ → Option (Option (Split α))
  | 0 => some none
  | n + 1 =>
    match firstOf l extra with
    | none => none
    | some first =>
      let m := minMax c f var first l
      if m.1 = m.2 then splitLoop c f l extra ((var + 1) % c.dm.varCount) n
      else
        match c.dm.ty.fit (m.2 - m.1) with
        | none => none
        | some d =>
          match c.dm.ty.fit (m.1 + d / 2) with
          | none => none
          | some exp =>
            let r := c.partition (equalOrLess c f var exp) l
            some (some ⟨var, exp, r.1, r.2⟩)

/-- `var + 1` on entry to `split`: `static_cast<size_t>(-1) + 1` is 0. -/
def nextVar : Option ℕ → ℕ
  | none => 0
  | some v => v + 1

/-- `split` (src/mathic/KDEntryArray.h:146-183). `hint` is the value of `var` on entry, `none` is
`static_cast<size_t>(-1)`. -/
def split {α : Type} (c : Conf T) (f : α → T) (l : List α) (extra : Option α) (hint : Option ℕ) :
    Option (Option (Split α)) :=
  splitLoop c f l extra (nextVar hint % c.dm.varCount) c.dm.varCount

end Verif.KDTree
