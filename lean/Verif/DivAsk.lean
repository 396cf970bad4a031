import Verif.DivList
import Verif.KDTree

/-!
# What the queries of the divisor finders ask of the configuration

The calls of `divides` of the configuration during a query, in order: the extended entry asked about and where it
is. `divides` of extended entries asks the configuration only if the masks do not answer already
(src/mathic/DivMask.h:405-423). The functions follow the loops of the queries in `DivList.lean` and `KDTree.lean`.

Simplifications: as in those files. Calls of `isLessThan` and `getExponent` are not listed.
-/

namespace Verif.Ask

open Verif.DivMask (Ext canDivide)

variable {T : Type}

/-- The loop of a search for the first entry with `p` (src/mathic/DivList.h:330-335, 471-475, 487-491,
src/mathic/KDEntryArray.h:364-377); `q` says whether an entry is asked about, `i` is the position of the first. -/
def scan (q p : Ext T → Bool) : List (Ext T) → ℕ → List (Ext T × ℕ)
  | [], _ => []
  | e :: l, i => (if q e then [(e, i)] else []) ++ if p e then [] else scan q p l (i + 1)

/-- The loop of an enumeration (src/mathic/DivList.h:363-368, 511-514, 525-528,
src/mathic/KDEntryArray.h:398-401, 406-409, 427-430). `go` tells whether the output wants more, `got` is what it has
received. -/
def visit (q p : Ext T → Bool) (go : List T → Bool) (got : List T) : List (Ext T) → ℕ → List (Ext T × ℕ)
  | [], _ => []
  | e :: l, i =>
    (if q e then [(e, i)] else []) ++
      if p e then
        if go (got ++ [e.t]) then visit q p go (got ++ [e.t]) l (i + 1) else []
      else visit q p go got l (i + 1)

end Verif.Ask

namespace Verif.DivList

open Verif.DivMask (Ext canDivide)

variable {T : Type}

/-- Whether `a.divides(b, conf)` asks the configuration (src/mathic/DivMask.h:405-423, 447-449). -/
def asks (c : Conf T) (a b : Ext T) : Bool := !c.useDivMask || canDivide a.mask b.mask

/-- `findDivisorSorted` on a linked list (src/mathic/DivList.h:338-356). -/
def findSortedListA (c : Conf T) (m : Ext T) (count : ℕ) : List (Ext T) → ℕ → List (Ext T × ℕ)
  | [], _ => []
  | e :: l, i =>
    if count + 1 = 35 then
      if comparer c m e then []
      else (if asks c e m then [(e, i)] else []) ++ if divides c e m then [] else findSortedListA c m 0 l (i + 1)
    else (if asks c e m then [(e, i)] else []) ++
      if divides c e m then [] else findSortedListA c m (count + 1) l (i + 1)

/-- `findDivisor` (src/mathic/DivList.h:482-498), which asks what `findDivisorIterator` does
(src/mathic/DivList.h:466-480). -/
def findDivisorA (c : Conf T) (s : State T) (m : T) : List (Ext T × ℕ) :=
  let x := ext c s m
  if !c.sortOnInsert then Ask.scan (fun e => asks c e x) (fun e => divides c e x) s.list 0
  else if c.useLinkedList then findSortedListA c x 0 s.list 0
  else
    match upperBound (comparer c) s.list x with
    | none => []
    | some k => Ask.scan (fun e => asks c e x) (fun e => divides c e x) (s.list.take k) 0

/-- `findAllDivisorsSorted` on a linked list (src/mathic/DivList.h:371-389). -/
def visitSortedListA (c : Conf T) (m : Ext T) (proceed : List T → Bool) (count : ℕ) (got : List T) :
    List (Ext T) → ℕ → List (Ext T × ℕ)
  | [], _ => []
  | e :: l, i =>
    if count + 1 = 35 && comparer c m e then []
    else
      let count' := if count + 1 = 35 then 0 else count + 1
      (if asks c e m then [(e, i)] else []) ++
        if divides c e m then
          if proceed (got ++ [e.t]) then visitSortedListA c m proceed count' (got ++ [e.t]) l (i + 1) else []
        else visitSortedListA c m proceed count' got l (i + 1)

/-- `findAllDivisors` (src/mathic/DivList.h:506-518 and 358-369). -/
def findAllDivisorsA (c : Conf T) (s : State T) (m : T) (proceed : List T → Bool) : List (Ext T × ℕ) :=
  let x := ext c s m
  if !c.sortOnInsert then Ask.visit (fun e => asks c e x) (fun e => divides c e x) proceed [] s.list 0
  else if c.useLinkedList then visitSortedListA c x proceed 0 [] s.list 0
  else
    match upperBound (comparer c) s.list x with
    | none => []
    | some k => Ask.visit (fun e => asks c e x) (fun e => divides c e x) proceed [] (s.list.take k) 0

/-- `findAllMultiples` (src/mathic/DivList.h:520-530). -/
def findAllMultiplesA (c : Conf T) (s : State T) (m : T) (proceed : List T → Bool) : List (Ext T × ℕ) :=
  Ask.visit (fun e => asks c (ext c s m) e) (fun e => divides c (ext c s m) e) proceed [] s.list 0

end Verif.DivList

namespace Verif.KDTree

open Verif.DivMask (Ext canDivide)

variable {T : Type}

/-- Whether `a.divides(b, conf)` asks the configuration (src/mathic/DivMask.h:405-423, 447-449). -/
def asks (c : Conf T) (a b : Ext T) : Bool := !c.useDivMask || canDivide a.mask b.mask

/-- `KDEntryArray::findDivisor` (src/mathic/KDEntryArray.h:348-380). -/
def Arr.findDivisorA (c : Conf T) (m : Ext T) (a : Arr T) : List (Ext T × ℕ) :=
  if a.maskRejects c m then []
  else if c.leafSize = 1 then
    match a.es with
    | [] => []
    | e :: _ => if asks c e m then [(e, 0)] else []
  else if !c.sortOnInsert then Ask.scan (fun e => asks c e m) (fun e => divides c e m) a.es 0
  else
    match DivList.upperBound (comparer c) a.es m with
    | none => []
    | some k => Ask.scan (fun e => asks c e m) (fun e => divides c e m) (a.es.take k) 0

/-- The special case for leaf size one (src/mathic/KDEntryArray.h:393-395, 420-422). -/
def Arr.visitOneA (q : Ext T → Bool) (a : Arr T) : List (Ext T × ℕ) :=
  match a.es with
  | [] => []
  | e :: _ => if q e then [(e, 0)] else []

/-- `KDEntryArray::findAllDivisors` (src/mathic/KDEntryArray.h:382-412). -/
def Arr.findAllDivisorsA (c : Conf T) (m : Ext T) (proceed : List T → Flow) (got : List T) (a : Arr T) :
    List (Ext T × ℕ) :=
  if a.maskRejects c m then []
  else if c.leafSize = 1 then a.visitOneA (fun e => asks c e m)
  else if !c.sortOnInsert then
    Ask.visit (fun e => asks c e m) (fun e => divides c e m) (fun l => proceed l == .go) got a.es 0
  else
    match DivList.upperBound (comparer c) a.es m with
    | none => []
    | some k => Ask.visit (fun e => asks c e m) (fun e => divides c e m) (fun l => proceed l == .go) got (a.es.take k) 0

/-- `KDEntryArray::findAllMultiples` (src/mathic/KDEntryArray.h:414-432). -/
def Arr.findAllMultiplesA (c : Conf T) (m : Ext T) (proceed : List T → Flow) (got : List T) (a : Arr T) :
    List (Ext T × ℕ) :=
  if c.leafSize = 1 then a.visitOneA (fun e => asks c m e)
  else Ask.visit (fun e => asks c m e) (fun e => divides c m e) (fun l => proceed l == .go) got a.es 0

/-- What is asked in an array, with pointers for positions. -/
def asked (p : Path) (l : List (Ext T × ℕ)) : List (Ext T × Ptr) := l.map (fun x => (x.1, p, x.2))

/-- What `findDivisor` does with the entries of a node (src/mathic/BinaryKDTree.h:447-455,
src/mathic/PackedKDTree.h:414-422), with a list of what has been asked. -/
def actDivisorA (c : Conf T) (m : Ext T) (root : Node T) (p : Path) (s : Option Ptr × List (Ext T × Ptr)) :
    Option ((Option Ptr × List (Ext T × Ptr)) × Flow) :=
  match root.arrAt p with
  | none => none
  | some a =>
    match a.findDivisor c m with
    | none => none
    | some none => some ((none, s.2 ++ asked p (a.findDivisorA c m)), .go)
    | some (some i) => some ((some (p, i), s.2 ++ asked p (a.findDivisorA c m)), .stop)

/-- `findDivisor` of the trees (src/mathic/BinaryKDTree.h:423-463, src/mathic/PackedKDTree.h:396-434). -/
def Tree.findDivisorA (c : Conf T) (t : Tree T) (m : Ext T) : List (Ext T × Ptr) :=
  match t.root with
  | none => []
  | some n =>
    match search c (.divisors m) (actDivisorA c m n) (none, []) n t.tmp with
    | none => []
    | some (s, _) => s.2

/-- What the enumerations do with the entries of a node, with a list of what has been asked. -/
def actVisitA (f : List T → Arr T → Option (List T × Flow)) (g : List T → Arr T → List (Ext T × ℕ)) (root : Node T)
    (p : Path) (s : List T × List (Ext T × Ptr)) : Option ((List T × List (Ext T × Ptr)) × Flow) :=
  match root.arrAt p with
  | none => none
  | some a =>
    match f s.1 a with
    | none => none
    | some (got, flow) => some ((got, s.2 ++ asked p (g s.1 a)), flow)

/-- An enumeration. -/
def Tree.enumerateA (c : Conf T) (t : Tree T) (k : Kind T) (f : List T → Arr T → Option (List T × Flow))
    (g : List T → Arr T → List (Ext T × ℕ)) : List (Ext T × Ptr) :=
  match t.root with
  | none => []
  | some n =>
    match search c k (actVisitA f g n) ([], []) n t.tmp with
    | none => []
    | some (s, _) => s.2

/-- `findAllDivisors` of the trees (src/mathic/BinaryKDTree.h:465-498, src/mathic/PackedKDTree.h:436-466). -/
def Tree.findAllDivisorsA (c : Conf T) (t : Tree T) (m : Ext T) (proceed : List T → Flow) : List (Ext T × Ptr) :=
  t.enumerateA c (.divisors m) (fun got a => a.findAllDivisors c m proceed got)
    (fun got a => a.findAllDivisorsA c m proceed got)

/-- `findAllMultiples` of the trees (src/mathic/BinaryKDTree.h:500-530, src/mathic/PackedKDTree.h:468-496). -/
def Tree.findAllMultiplesA (c : Conf T) (t : Tree T) (m : Ext T) (proceed : List T → Flow) : List (Ext T × Ptr) :=
  t.enumerateA c (.multiples m) (fun got a => a.findAllMultiples c m proceed got)
    (fun got a => a.findAllMultiplesA c m proceed got)

/-- The entry of the cache that `KDTree::findDivisor` asks about first, without masks (src/mathic/KDTree.h:182-187). -/
def cacheA (c : Conf T) (s : State T) : List T :=
  match c.useDivisorCache, s.cache with
  | true, some p => (s.tree.deref p).toList
  | _, _ => []

/-- What `KDTree::findDivisor` asks after that (src/mathic/KDTree.h:188-192). -/
def findDivisorA (c : Conf T) (s : State T) (m : T) : List (Ext T × Ptr) :=
  if (cacheA c s).any (fun e => c.dm.divides e m) then [] else s.tree.findDivisorA c (ext c s m)

end Verif.KDTree
