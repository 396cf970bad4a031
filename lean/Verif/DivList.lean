import Verif.Basic
import Verif.DivMask

/-!
# Model of `mathic::DivList` (src/mathic/DivList.h)

Simplifications: `Entry` and `Monomial` are one type `T`; a monomial passed to a call is a value,
so a call with a reference to an element of the list itself is outside of the model. An iterator is
an index into the list. `size() * getRebuildRatio()` is a floating point product, here it is any
function of the size. Output objects are functions from the entries received so far to the value
that `proceed` returns.
-/

namespace Verif.DivList

open Verif.DivMask (Ext Bits VarData)

/-- A configuration of `DivList` (src/mathic/DivList.h:15-28) together with the choices that the C++
standard leaves to the library: what `std::sort` and `std::list::sort` do with elements that compare
equal. -/
structure Conf (T : Type) where
  dm : DivMask.Conf T
  useLinkedList : Bool
  useDivMask : Bool
  sortOnInsert : Bool
  isLessThan : T → T → Bool
  doAutomaticRebuilds : Bool
  /-- `static_cast<size_t>(size * getRebuildRatio())` -/
  rebuildSize : ℕ → ℕ
  rebuildMin : ℕ
  /-- `std::sort` in `DivMask` -/
  sortVars : List VarData → List VarData
  /-- `std::sort` or `std::list::sort` in `sortAll` (src/mathic/DivList.h:315-323) -/
  sort : {α : Type} → (α → α → Bool) → List α → List α

variable {T : Type}

/-- The members of `DivList` (src/mathic/DivList.h:150-153). -/
structure State (T : Type) where
  list : List (Ext T)
  bits : Bits
  changes : ℕ

/-- The entries in list order, what the iterators show. -/
def State.contents (s : State T) : List T := s.list.map Ext.t

/-- The calculator's constructor; `Calculator<C,false>` has no data (src/mathic/DivMask.h:174, 344-352). -/
def calcInit (c : Conf T) : Option Bits :=
  if c.useDivMask then DivMask.rebuildDefault c.dm else some []

/-- `rebuild` of the calculator; `Calculator<C,false>` does nothing. -/
def calcRebuild (c : Conf T) (l : List T) : Option Bits :=
  if c.useDivMask then DivMask.rebuild c.dm c.sortVars l else some []

/-- `ExtEntry(entry, calc, conf)` and `ExtMonoRef(monomial, calc, conf)`. -/
def ext (c : Conf T) (s : State T) (t : T) : Ext T := Ext.make c.dm s.bits t

/-- `a.divides(b, conf)` on extended entries. -/
def divides (c : Conf T) (a b : Ext T) : Bool := Ext.divides c.dm c.useDivMask a b

/-- `Comparer<C>` (src/mathic/Comparer.h:9-11). -/
def comparer (c : Conf T) (a b : Ext T) : Bool := c.isLessThan a.t b.t

/-- `resetNumberOfChangesTillRebuild` (src/mathic/DivList.h:588-596). -/
def resetChanges (c : Conf T) (s : State T) : State T :=
  if c.doAutomaticRebuilds then
    { s with changes := max (c.rebuildSize s.list.length) c.rebuildMin }
  else s

/-- The constructor (src/mathic/DivList.h:391-397). The uninitialized counter is 0 here. -/
def init (c : Conf T) : Option (State T) :=
  match calcInit c with
  | none => none
  | some bits => some (resetChanges c ⟨[], bits, 0⟩)

/-- `rebuild` (src/mathic/DivList.h:574-586). -/
def rebuild (c : Conf T) (s : State T) : Option (State T) :=
  match calcRebuild c s.contents with
  | none => none
  | some bits => some (resetChanges c
      { s with bits := bits, list := s.list.map (fun x => Ext.make c.dm bits x.t) })

/-- `reportChanges` (src/mathic/DivList.h:598-608). -/
def reportChanges (c : Conf T) (s : State T) (n : ℕ) : Option (State T) :=
  if !c.doAutomaticRebuilds then some s
  else if s.changes > n then some { s with changes := s.changes - n }
  else rebuild c s

/-- `std::upper_bound` with a value: the first position whose element is larger. Undefined if the
elements that are larger are not a suffix. -/
def upperBound {α : Type} (lt : α → α → Bool) (l : List α) (x : α) : Option ℕ :=
  let k := (l.takeWhile (fun y => !lt x y)).length
  if (l.drop k).all (fun y => lt x y) then some k else none

/-- `insertSort` on `std::list` (src/mathic/DivList.h:294-304): the loop and the insertion. -/
def insertSortList {α : Type} (lt : α → α → Bool) (x : α) : List α → List α
  | [] => [x]
  | y :: l => if lt x y then x :: y :: l else y :: insertSortList lt x l

/-- `insertSort` on `std::vector` (src/mathic/DivList.h:306-313). -/
def insertSortVector {α : Type} (lt : α → α → Bool) (x : α) (l : List α) : Option (List α) :=
  match upperBound lt l x with
  | none => none
  | some k => some (l.take k ++ x :: l.drop k)

/-- The choice between the two `insertSort`. -/
def insertSort (c : Conf T) (x : Ext T) (l : List (Ext T)) : Option (List (Ext T)) :=
  if c.useLinkedList then some (insertSortList (comparer c) x l)
  else insertSortVector (comparer c) x l

/-- `insert` of one entry (src/mathic/DivList.h:399-408). -/
def insert (c : Conf T) (s : State T) (e : T) : Option (State T) :=
  let x := ext c s e
  if !c.sortOnInsert then reportChanges c { s with list := s.list ++ [x] } 1
  else
    match insertSort c x s.list with
    | none => none
    | some l => reportChanges c { s with list := l } 1

/-- The loop of single insertions (src/mathic/DivList.h:414-415). -/
def insertEach (c : Conf T) (s : State T) : List T → Option (State T)
  | [] => some s
  | e :: es =>
    match insert c s e with
    | none => none
    | some s' => insertEach c s' es

/-- `insert` of a range (src/mathic/DivList.h:410-427). -/
def insertRange (c : Conf T) (s : State T) (es : List T) : Option (State T) :=
  if !s.list.isEmpty then insertEach c s es
  else if es.isEmpty then some s
  else
    match calcRebuild c es with
    | none => none
    | some bits =>
      let l := s.list ++ es.map (Ext.make c.dm bits)
      some (resetChanges c ⟨if c.sortOnInsert then c.sort (comparer c) l else l, bits, s.changes⟩)

/-- The second loop of `removeMultiples` on a vector (src/mathic/DivList.h:239-245): `n` elements from
position `it` are left to look at, the elements kept are copied down to `newEnd`. -/
def compactLoop (c : Conf T) (m : Ext T) (l : List (Ext T)) (it newEnd : ℕ) (out : List T) :
    ℕ → Option (List (Ext T) × ℕ × List T)
  | 0 => some (l, newEnd, out)
  | n + 1 =>
    match l[it]? with
    | none => none
    | some e =>
      if !divides c m e then
        if newEnd < l.length then compactLoop c m (l.set newEnd e) (it + 1) (newEnd + 1) out n else none
      else compactLoop c m l (it + 1) newEnd (out ++ [e.t]) n

/-- `removeMultiples` on a vector (src/mathic/DivList.h:224-251): the list, what was put out, and the
number removed. -/
def removeMultiplesVector (c : Conf T) (m : Ext T) (l : List (Ext T)) :
    Option (List (Ext T) × List T × ℕ) :=
  match l.findIdx? (fun e => divides c m e) with
  | none => some (l, [], 0)
  | some it =>
    match l[it]? with
    | none => none
    | some e =>
      match compactLoop c m l (it + 1) it [e.t] (l.length - (it + 1)) with
      | none => none
      | some (l', newEnd, out) => some (l'.take newEnd, out, l.length - newEnd)

/-- `removeMultiples` on a linked list (src/mathic/DivList.h:253-275). -/
def removeMultiplesList (c : Conf T) (m : Ext T) : List (Ext T) → List (Ext T) × List T × ℕ
  | [] => ([], [], 0)
  | e :: l =>
    let r := removeMultiplesList c m l
    if divides c m e then (r.1, e.t :: r.2.1, r.2.2 + 1) else (e :: r.1, r.2.1, r.2.2)

/-- `removeMultiples` (src/mathic/DivList.h:429-447): what is put out and the value returned. -/
def removeMultiples (c : Conf T) (s : State T) (m : T) : Option (List T × Bool × State T) :=
  let x := ext c s m
  match (if c.useLinkedList then some (removeMultiplesList c x s.list)
      else removeMultiplesVector c x s.list) with
  | none => none
  | some (l, out, n) =>
    match reportChanges c { s with list := l } n with
    | none => none
    | some s' => some (out, decide (n > 0), s')

/-- The loop over variables in `removeElement` (src/mathic/DivList.h:453-458). -/
def sameExponents (c : Conf T) (m e : T) : Bool :=
  (List.range c.dm.varCount).all (fun v => c.dm.getExponent m v == c.dm.getExponent e v)

/-- `removeElement` (src/mathic/DivList.h:449-464). -/
def removeElement (c : Conf T) (s : State T) (m : T) : Bool × State T :=
  match s.list.findIdx? (fun e => sameExponents c m e.t) with
  | none => (false, s)
  | some i => (true, { s with list := s.list.eraseIdx i })

/-- The search loop without order (src/mathic/DivList.h:471-475, 487-491): the position found, the end if
there is none. -/
def findLoop (c : Conf T) (m : Ext T) : List (Ext T) → ℕ
  | [] => 0
  | e :: l => if divides c e m then 0 else findLoop c m l + 1

/-- `findDivisorSorted` on a vector (src/mathic/DivList.h:325-336). -/
def findSortedVector (c : Conf T) (l : List (Ext T)) (m : Ext T) : Option ℕ :=
  match upperBound (comparer c) l m with
  | none => none
  | some k =>
    let p := findLoop c m (l.take k)
    some (if p < (l.take k).length then p else l.length)

/-- `findDivisorSorted` on a linked list (src/mathic/DivList.h:338-356), `none` is the end. -/
def findSortedList (c : Conf T) (m : Ext T) (count : ℕ) : List (Ext T) → Option ℕ
  | [] => none
  | e :: l =>
    if count + 1 = 35 then
      if comparer c m e then none
      else if divides c e m then some 0
      else (findSortedList c m 0 l).map (· + 1)
    else if divides c e m then some 0
    else (findSortedList c m (count + 1) l).map (· + 1)

/-- `findDivisorIterator` (src/mathic/DivList.h:466-480): a position, the size for the end. -/
def findDivisorIterator (c : Conf T) (s : State T) (m : T) : Option ℕ :=
  let x := ext c s m
  if !c.sortOnInsert then some (findLoop c x s.list)
  else if c.useLinkedList then some ((findSortedList c x 0 s.list).getD s.list.length)
  else findSortedVector c s.list x

/-- `findDivisor` (src/mathic/DivList.h:482-498), the inner `none` is the null pointer. The code repeats
the loop of `findDivisorIterator`. -/
def findDivisor (c : Conf T) (s : State T) (m : T) : Option (Option T) :=
  match findDivisorIterator c s m with
  | none => none
  | some i => if i = s.list.length then some none else
    match s.list[i]? with
    | none => none
    | some e => some (some e.t)

/-- The loop `if (match) if (!out.proceed(entry)) break;` (src/mathic/DivList.h:511-514, 525-528, 543-545).
`got` is what the output has received. -/
def visit {α : Type} (t : α → T) (p : α → Bool) (proceed : List T → Bool) (got : List T) : List α → List T
  | [] => got
  | e :: l =>
    if p e then
      if proceed (got ++ [t e]) then visit t p proceed (got ++ [t e]) l else got ++ [t e]
    else visit t p proceed got l

/-- `findAllDivisorsSorted` on a linked list (src/mathic/DivList.h:371-389). -/
def visitSortedList (c : Conf T) (m : Ext T) (proceed : List T → Bool) (count : ℕ) (got : List T) :
    List (Ext T) → List T
  | [] => got
  | e :: l =>
    if count + 1 = 35 && comparer c m e then got
    else
      let count' := if count + 1 = 35 then 0 else count + 1
      if divides c e m then
        if proceed (got ++ [e.t]) then visitSortedList c m proceed count' (got ++ [e.t]) l
        else got ++ [e.t]
      else visitSortedList c m proceed count' got l

/-- `findAllDivisors` (src/mathic/DivList.h:506-518 and 358-369): what the output receives. -/
def findAllDivisors (c : Conf T) (s : State T) (m : T) (proceed : List T → Bool) : Option (List T) :=
  let x := ext c s m
  if !c.sortOnInsert then some (visit Ext.t (fun e => divides c e x) proceed [] s.list)
  else if c.useLinkedList then some (visitSortedList c x proceed 0 [] s.list)
  else
    match upperBound (comparer c) s.list x with
    | none => none
    | some k => some (visit Ext.t (fun e => divides c e x) proceed [] (s.list.take k))

/-- `findAllMultiples` (src/mathic/DivList.h:520-530). -/
def findAllMultiples (c : Conf T) (s : State T) (m : T) (proceed : List T → Bool) : List T :=
  visit Ext.t (fun e => divides c (ext c s m) e) proceed [] s.list

/-- `forAll` (src/mathic/DivList.h:540-547). -/
def forAll (s : State T) (proceed : List T → Bool) : List T :=
  visit Ext.t (fun _ => true) proceed [] s.list

/-- The loop of `moveToFront` on a vector (src/mathic/DivList.h:281-285). -/
def shiftLoop {α : Type} (l : List α) : ℕ → Option (List α)
  | 0 => some l
  | pos + 1 =>
    match l[pos]? with
    | none => none
    | some e => if pos + 1 < l.length then shiftLoop (l.set (pos + 1) e) pos else none

/-- `moveToFront` (src/mathic/DivList.h:277-292, 569-572). -/
def moveToFront (c : Conf T) (s : State T) (pos : ℕ) : Option (State T) :=
  match s.list[pos]? with
  | none => none
  | some v =>
    if c.useLinkedList then some { s with list := v :: s.list.eraseIdx pos }
    else
      match shiftLoop s.list pos with
      | none => none
      | some l => if 0 < l.length then some { s with list := l.set 0 v } else none

/-- The calls. -/
inductive Op (T : Type) where
  | insert (e : T)
  | insertRange (es : List T)
  | removeMultiples (m : T)
  | removeElement (m : T)
  | findDivisor (m : T)
  | findDivisorIterator (m : T)
  | findAllDivisors (m : T) (proceed : List T → Bool)
  | findAllMultiples (m : T) (proceed : List T → Bool)
  | forAll (proceed : List T → Bool)
  | moveToFront (pos : ℕ)
  | rebuild
  | size

/-- What a call gives back: values returned and what was put out. -/
inductive Ret (T : Type) where
  | unit
  | flag (b : Bool)
  | removed (out : List T) (b : Bool)
  | entry (e : Option T)
  | pos (i : ℕ)
  | got (l : List T)
  | num (n : ℕ)

/-- One call. -/
def step (c : Conf T) (s : State T) : Op T → Option (Ret T × State T)
  | .insert e => (insert c s e).map (.unit, ·)
  | .insertRange es => (insertRange c s es).map (.unit, ·)
  | .removeMultiples m => (removeMultiples c s m).map (fun r => (.removed r.1 r.2.1, r.2.2))
  | .removeElement m => let r := removeElement c s m; some (.flag r.1, r.2)
  | .findDivisor m => (findDivisor c s m).map (fun r => (.entry r, s))
  | .findDivisorIterator m => (findDivisorIterator c s m).map (fun r => (.pos r, s))
  | .findAllDivisors m p => (findAllDivisors c s m p).map (fun r => (.got r, s))
  | .findAllMultiples m p => some (.got (findAllMultiples c s m p), s)
  | .forAll p => some (.got (forAll s p), s)
  | .moveToFront i => (moveToFront c s i).map (.unit, ·)
  | .rebuild => (rebuild c s).map (.unit, ·)
  | .size => some (.num s.list.length, s)

/-- A history of calls. -/
def run (c : Conf T) (s : State T) : List (Op T) → Option (List (Ret T) × State T)
  | [] => some ([], s)
  | op :: ops =>
    match step c s op with
    | none => none
    | some (r, s') =>
      match run c s' ops with
      | none => none
      | some (rs, s'') => some (r :: rs, s'')

end Verif.DivList
