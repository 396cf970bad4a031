import Verif.Basic
import Mathlib.Tactic.Ring

/-!
# Model of `mathic::ComTree` (src/mathic/ComTree.h)

First the node arithmetic on 64-bit words, in both index representations, then the allocated array
with its capacity.
-/

namespace Verif.ComTree

/-! ## Nodes -/

/-- The representation of nodes: `fi` is `FastIndex`, `S` is `sizeof(Entry)`
(src/mathic/ComTree.h:91-92). -/
structure NodeConf where
  fi : Bool
  S : BitVec 64

/-- A node is a `size_t` (src/mathic/ComTree.h:95). -/
abbrev Node := BitVec 64

namespace NodeConf
variable (c : NodeConf)

/-- `Node()` (src/mathic/ComTree.h:60). -/
def root : Node := if c.fi then c.S else 1
/-- src/mathic/ComTree.h:236-239 -/
def parent (x : Node) : Node := if c.fi then (x / (2 * c.S)) * c.S else x / 2
/-- src/mathic/ComTree.h:241-244 -/
def left (_c : NodeConf) (x : Node) : Node := 2 * x
/-- src/mathic/ComTree.h:246-249 -/
def right (x : Node) : Node := if c.fi then 2 * x + c.S else 2 * x + 1
/-- src/mathic/ComTree.h:251-254 -/
def sibling (x : Node) : Node := if c.fi then x ^^^ c.S else x ^^^ 1
/-- src/mathic/ComTree.h:256-259 -/
def leftSibling (x : Node) : Node := if c.fi then x &&& ~~~c.S else x &&& ~~~1
/-- src/mathic/ComTree.h:261-264 -/
def next (x : Node) : Node := if c.fi then x + c.S else x + 1
/-- src/mathic/ComTree.h:266-269 -/
def nextBy (x : Node) (count : BitVec 64) : Node := if c.fi then x + c.S * count else x + count
/-- src/mathic/ComTree.h:271-274 -/
def prev (x : Node) : Node := if c.fi then x - c.S else x - 1
/-- src/mathic/ComTree.h:72 -/
def isRoot (x : Node) : Bool := x == c.root
/-- src/mathic/ComTree.h:76 -/
def isLeft (x : Node) : Bool := if c.fi then x &&& c.S == 0 else x &&& 1 == 0
/-- src/mathic/ComTree.h:80 -/
def isRight (x : Node) : Bool := if c.fi then x &&& c.S != 0 else x &&& 1 != 0
/-- src/mathic/ComTree.h:94 -/
def getNormalIndex (x : Node) : BitVec 64 := if c.fi then x / c.S else x

end NodeConf

/-! ## The array -/

/-- The state of a `ComTree` (src/mathic/ComTree.h:110-120) with plain node indices.
`arr` is the allocation that `_arrayKeepAlive` points to (empty: null pointer), a cell that
has not been written is `none`. Node `i` is cell `i - 1` of the allocation, as
`_array = _arrayKeepAlive - 1`. -/
structure Tree (E : Type*) where
  arr : List (Option E)
  last : ℕ
  capEnd : ℕ

variable {E : Type*}

/-- `operator[]` as an rvalue (src/mathic/ComTree.h:185-199); out of the allocation or not yet
written: undefined. -/
def Tree.get (t : Tree E) (i : ℕ) : Option E :=
  if i = 0 then none else (t.arr[i - 1]?).join

/-- Assignment through `operator[]` (src/mathic/ComTree.h:185-194). -/
def Tree.put (t : Tree E) (i : ℕ) (a : E) : Option (Tree E) :=
  if 1 ≤ i ∧ i ≤ t.arr.length then some { t with arr := t.arr.set (i - 1) (some a) } else none

/-- The constructor (src/mathic/ComTree.h:139-151); `new E[n]` gives `n` cells. -/
def mk (initialCapacity : ℕ) : Tree E :=
  { arr := List.replicate initialCapacity none, last := 0, capEnd := initialCapacity }

/-- `pushBackWithCapacity` (src/mathic/ComTree.h:209-214), and the end of `pushBack`. -/
def pushBackWithCapacity (t : Tree E) (a : E) : Option (Tree E) :=
  { t with last := t.last + 1 }.put (t.last + 1) a

/-- The copy loop of `increaseCapacity` (src/mathic/ComTree.h:319-320) for nodes `i .. last`,
`n` of them. `newTree.pushBack` does not grow as the capacity suffices, the
model checks that, and `copyLoop_holds` shows that the check never fails. -/
def copyLoop (src : Tree E) (dst : Tree E) (i : ℕ) : ℕ → Option (Tree E)
  | 0 => some dst
  | n + 1 =>
    match src.get i with
    | none => none
    | some a =>
      if dst.last = dst.capEnd then none -- would call increaseCapacity again
      else
        match pushBackWithCapacity dst a with
        | none => none
        | some dst' => copyLoop src dst' (i + 1) n

/-- `increaseCapacity` (src/mathic/ComTree.h:315-326). The swaps leave `_lastLeaf` as it is. -/
def increaseCapacity (t : Tree E) : Option (Tree E) :=
  match copyLoop t (mk (if t.capEnd = 0 then 16 else t.capEnd * 2)) 1 t.last with
  | none => none
  | some n => some { t with arr := n.arr, capEnd := n.capEnd }

/-- `pushBack` (src/mathic/ComTree.h:201-207). -/
def pushBack (t : Tree E) (a : E) : Option (Tree E) :=
  if t.last = t.capEnd then
    match increaseCapacity t with
    | none => none
    | some t' => pushBackWithCapacity t' a
  else pushBackWithCapacity t a

/-- `popBack` (src/mathic/ComTree.h:216-220). On an empty tree the index wraps around: undefined. -/
def popBack (t : Tree E) : Option (Tree E) :=
  if t.last = 0 then none else some { t with last := t.last - 1 }

/-- `clear` (src/mathic/ComTree.h:123-126). -/
def clear (t : Tree E) : Tree E := { t with last := 0 }

/-- `size` (src/mathic/ComTree.h:46). -/
def size (t : Tree E) : ℕ := t.last

/-- `empty` (src/mathic/ComTree.h:45). -/
def empty (t : Tree E) : Bool := t.last == 0

/-- `hasFreeCapacity` (src/mathic/ComTree.h:309-313). -/
def hasFreeCapacity (t : Tree E) (extra : ℕ) : Bool := decide (t.capEnd - t.last ≥ extra)

/-- The copy loop of the copy constructor (src/mathic/ComTree.h:165-166). -/
def assignLoop (src : Tree E) (dst : Tree E) (i : ℕ) : ℕ → Option (Tree E)
  | 0 => some dst
  | n + 1 =>
    match src.get i with
    | none => none
    | some a =>
      match dst.put i a with
      | none => none
      | some dst' => assignLoop src dst' (i + 1) n

/-- The copy constructor (src/mathic/ComTree.h:153-170). -/
def copy (t : Tree E) (minCapacity : ℕ) : Option (Tree E) :=
  let cap := if t.last > minCapacity then t.last else minCapacity
  if cap ≠ 0 then
    assignLoop t { arr := List.replicate cap none, last := t.last, capEnd := cap } 1 t.last
  else some { arr := [], last := t.last, capEnd := cap }

/-- The move constructor (src/mathic/ComTree.h:172-183): the new tree and what is left of the
source. The last two assignments are to the new tree's own members. -/
def move (t : Tree E) : Tree E × Tree E :=
  ({ arr := t.arr, last := 0, capEnd := 0 }, { t with arr := [] })

/-- `n` times `pushBackWithCapacity`, as `TourTree` and its `reallocate` use it. -/
def pushAllWithCapacity (t : Tree E) : List E → Option (Tree E)
  | [] => some t
  | a :: l =>
    match pushBackWithCapacity t a with
    | none => none
    | some t' => pushAllWithCapacity t' l

/-- The calls that change a tree. -/
inductive Op (E : Type*) where
  | pushBack (a : E)
  | popBack
  | write (i : ℕ) (a : E)
  | increaseCapacity
  | clear

/-- One call. -/
def step (t : Tree E) : Op E → Option (Tree E)
  | .pushBack a => pushBack t a
  | .popBack => popBack t
  | .write i a => t.put i a
  | .increaseCapacity => increaseCapacity t
  | .clear => some (clear t)

/-- A history of calls. -/
def run (t : Tree E) : List (Op E) → Option (Tree E)
  | [] => some t
  | op :: ops =>
    match step t op with
    | none => none
    | some t' => run t' ops

end Verif.ComTree
