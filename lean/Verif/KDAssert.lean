import Verif.KDTree
import Verif.Assert

/-!
# Debug builds of `mathic::BinaryKDTree`, `mathic::PackedKDTree` and `mathic::KDTree`

The functions of `KDEntryArray.lean` and `KDTree.lean` with their assertions. The outcome is `failed` when
an assertion fails; what is undefined in a release build and is not caught is `ub`. `pos` tells whether
`getRebuildRatio() > 0`.

Left out are assertions that hold by the types of the model: `isLeaf` after a walk down to a leaf
(src/mathic/BinaryKDTree.h:275, 446, 483, 515, 543, 571), `leaf == _root` (line 319), `_root == 0` and
`_root != 0` in `reset` (lines 372, 396 and src/mathic/PackedKDTree.h:355), the parent's pointer to the
leaf that is split (src/mathic/BinaryKDTree.h:767), the order of the two pointers in
src/mathic/PackedKDTree.h:744, and `datas.size() == varCount` in the calculator (src/mathic/DivMask.h:243). So
are those of `pop_back` in the loops that pop just while there is something to pop
(src/mathic/BinaryKDTree.h:751, src/mathic/PackedKDTree.h:717 and `KDEntryArray::clear`). `getDivMask` and
`resetDivMask` of `HasDivMask<false>`, which assert false, are called nowhere.
-/

namespace Verif.KDTree

open Verif.DivMask (Ext Bits Mask canDivide maxMask)
open Verif.Dbg

variable {T : Type}

/-- Do something on a condition. -/
def whenD (b : Bool) (x : Dbg Unit) : Dbg Unit := if b then x else .ok ()

/-! ## Arrays -/

/-- `KDEntryArray::debugIsValid` (src/mathic/KDEntryArray.h:482-491). -/
def Arr.valid (c : Conf T) (a : Arr T) : Bool :=
  (c.allowRemovals || !a.es.isEmpty) && decide (a.es.length ≤ c.leafSize) &&
    (!(c.useTreeDivMask && decide (1 < c.leafSize)) || a.es.all (fun e => canDivide a.mask e.mask))

/-- `push_back` (src/mathic/KDEntryArray.h:237-243). -/
def Arr.pushBackD (c : Conf T) (a : Arr T) (e : Ext T) : Dbg (Arr T) := do
  assert (decide (a.es.length < c.leafSize))
  lift (a.pushBack c e)

/-- `pop_back` (src/mathic/KDEntryArray.h:245-250). -/
def Arr.popBackD (a : Arr T) : Dbg (Arr T) := do
  assert (!a.es.isEmpty)
  lift a.popBack

/-- `back` (src/mathic/KDEntryArray.h:53-54). -/
def Arr.backD (a : Arr T) : Dbg (Ext T) := do
  assert (!a.es.isEmpty)
  lift a.es.getLast?

/-- The loop of the constructors (src/mathic/KDEntryArray.h:210-211, 231-232). -/
def Arr.pushAllD (c : Conf T) (a : Arr T) : List (Ext T) → Dbg (Arr T)
  | [] => .ok a
  | e :: es => do
    let a' ← a.pushBackD c e
    pushAllD c a' es

/-- The constructors from a range (src/mathic/KDEntryArray.h:194-214, 216-235). -/
def Arr.ofRangeD (c : Conf T) (l : List (Ext T)) : Dbg (Arr T) := do
  assert (decide (l.length ≤ c.leafSize))
  let a ← (Arr.empty : Arr T).pushAllD c l
  return { a with es := sortEntries c a.es }

/-- The end of `insert` at a position, `*it = entry` (src/mathic/KDEntryArray.h:263-264). -/
def setAt (c : Conf T) (es : List (Ext T)) (mask : Mask) (it : ℕ) (e : Ext T) : Option (Arr T) :=
  if it < es.length then some ⟨es.set it e, lower c mask e.mask⟩ else none

/-- `insert(iterator, entry)` (src/mathic/KDEntryArray.h:252-265). -/
def Arr.insertAtD (c : Conf T) (a : Arr T) (it : ℕ) (e : Ext T) : Dbg (Arr T) := do
  assert (decide (a.es.length < c.leafSize))
  if it = a.es.length then a.pushBackD c e
  else do
    let b ← a.backD
    let a' ← a.pushBackD c b
    let es ← lift (shiftUp a'.es (a'.es.length - 1) (a'.es.length - 1 - it))
    lift (setAt c es a'.mask it e)

/-- `insert(entry, conf)` (src/mathic/KDEntryArray.h:267-276). -/
def Arr.insertD (c : Conf T) (a : Arr T) (e : Ext T) : Dbg (Arr T) := do
  assert (decide (a.es.length < c.leafSize))
  if !c.sortOnInsert then a.pushBackD c e
  else do
    let it ← lift (DivList.upperBound (comparer c) a.es e)
    a.insertAtD c it e

/-- `removeMultiples` for leaf size one (src/mathic/KDEntryArray.h:289-295). -/
def Arr.removeOneD (c : Conf T) (m : Ext T) (a : Arr T) : List (Ext T) → Dbg (Arr T × List T × ℕ)
  | [] => .ok (a, [], 0)
  | e :: _ =>
    if !divides c m e then .ok (a, [], 0)
    else do
      let a' ← a.popBackD
      return (a', [e.t], 1)

/-- `removeMultiples` from the first multiple on (src/mathic/KDEntryArray.h:301-324). The loop of `pop_back` is
undefined just where its assertion fails. -/
def Arr.removeFromD (c : Conf T) (m : Ext T) (a : Arr T) : Option ℕ → Dbg (Arr T × List T × ℕ)
  | none => .ok (a, [], 0)
  | some it => do
    let e ← lift a.es[it]?
    let r ← lift (compact (fun e => divides c m e) a.es (it + 1) it [e.t] (a.es.length - (it + 1)))
    assert (decide (r.2.1 < r.1.length))
    let a' ← caught (Arr.popLoop { a with es := r.1 } r.2.1)
    assert (decide (a'.es.length = r.2.1))
    return (a', r.2.2, r.1.length - r.2.1)

/-- `removeMultiples` (src/mathic/KDEntryArray.h:284-325). -/
def Arr.removeMultiplesD (c : Conf T) (m : Ext T) (a : Arr T) : Dbg (Arr T × List T × ℕ) := do
  assert c.allowRemovals
  if c.leafSize = 1 then a.removeOneD c m a.es
  else a.removeFromD c m (a.es.findIdx? (fun e => divides c m e))

/-- `removeElement` from the element found on (src/mathic/KDEntryArray.h:336-343). -/
def Arr.removeAtD (a : Arr T) : Option ℕ → Dbg (Bool × Arr T)
  | none => .ok (false, a)
  | some it => do
    let l ← lift (shiftDown a.es it (a.es.length - 1 - it))
    let a' ← Arr.popBackD { a with es := l }
    return (true, a')

/-- `removeElement` (src/mathic/KDEntryArray.h:327-346). -/
def Arr.removeElementD (c : Conf T) (m : T) (a : Arr T) : Dbg (Bool × Arr T) :=
  a.removeAtD (a.es.findIdx? (fun e => sameExponents c m e.t))

/-- The assertion for leaf size one (src/mathic/KDEntryArray.h:357-358, 391-392, 418-419, 437-438). -/
def Arr.oneD (c : Conf T) (a : Arr T) : Dbg Unit :=
  whenD (decide (c.leafSize = 1)) (assert (c.allowRemovals || !a.es.isEmpty))

/-- `findDivisor` (src/mathic/KDEntryArray.h:348-380). -/
def Arr.findDivisorD (c : Conf T) (m : Ext T) (a : Arr T) : Dbg (Option ℕ) :=
  if a.maskRejects c m then .ok none
  else do
    a.oneD c
    lift (a.findDivisor c m)

/-- `findAllDivisors` (src/mathic/KDEntryArray.h:382-412). -/
def Arr.findAllDivisorsD (c : Conf T) (m : Ext T) (proceed : List T → Flow) (got : List T) (a : Arr T) :
    Dbg (List T × Flow) :=
  if a.maskRejects c m then .ok (got, .go)
  else do
    a.oneD c
    lift (a.findAllDivisors c m proceed got)

/-- `findAllMultiples` (src/mathic/KDEntryArray.h:414-432). -/
def Arr.findAllMultiplesD (c : Conf T) (m : Ext T) (proceed : List T → Flow) (got : List T) (a : Arr T) :
    Dbg (List T × Flow) := do
  a.oneD c
  lift (a.findAllMultiples c m proceed got)

/-- `forAll` (src/mathic/KDEntryArray.h:434-446). -/
def Arr.forAllD (c : Conf T) (proceed : List T → Flow) (got : List T) (a : Arr T) : Dbg (List T × Flow) := do
  a.oneD c
  lift (a.forAll c proceed got)

/-- `split` (src/mathic/KDEntryArray.h:146-183): where it throws in a release build `MATHIC_ASSERT(false)` comes
first. -/
def splitD {α : Type} (c : Conf T) (f : α → T) (l : List α) (extra : Option α) (hint : Option ℕ) :
    Dbg (Split α) := do
  assert (!l.isEmpty)
  let r ← lift (split c f l extra hint)
  caught r

/-! ## `debugIsValid` of the trees -/

/-- `allLessThanOrEqualTo` (src/mathic/KDEntryArray.h:460-470). -/
def Arr.allLE (c : Conf T) (var : ℕ) (exp : ℤ) (a : Arr T) : Bool := a.es.all (fun e => !inChild c var exp e.t)

/-- `allStrictlyGreaterThan` (src/mathic/KDEntryArray.h:448-458). -/
def Arr.allGT (c : Conf T) (var : ℕ) (exp : ℤ) (a : Arr T) : Bool := a.es.all (fun e => inChild c var exp e.t)

/-- The loops through a subtree in `debugIsValid` (src/mathic/BinaryKDTree.h:658-676, 679-694,
src/mathic/PackedKDTree.h:612-626, 628-647): `mask` must be able to divide the mask of each node, or child, and
of each array, and `p` must hold of each array. The order of these checks, none of which changes
anything, is not that of the code. -/
def checkBelow (c : Conf T) (mask : Mask) (p : Arr T → Bool) : Node T → Bool
  | .entries a => (!c.useTreeDivMask || canDivide mask a.mask) && p a
  | .split m _ _ le gt =>
    (!c.useTreeDivMask || canDivide mask m) && checkBelow c mask p le && checkBelow c mask p gt

/-- The part of `debugIsValid` about nodes (src/mathic/BinaryKDTree.h:631-695, src/mathic/PackedKDTree.h:587-652).
For a packed tree `le` has the rest of the children and the entries of the node, so that the checks on
these are the same. -/
def Node.valid (c : Conf T) : Node T → Bool
  | .entries a => a.valid c
  | .split mask var exp le gt => decide (var < c.dm.varCount) && checkBelow c mask (Arr.allLE c var exp) le &&
      checkBelow c mask (Arr.allGT c var exp) gt && le.valid c && gt.valid c

/-- The nodes of a tree, if it has a root, are valid. -/
def rootValid (c : Conf T) : Option (Node T) → Bool
  | none => true
  | some n => n.valid c

/-- `debugIsValid` (src/mathic/BinaryKDTree.h:621-697, src/mathic/PackedKDTree.h:575-655). -/
def Tree.validD (c : Conf T) (pos : Bool) (t : Tree T) : Dbg Unit := do
  assert t.tmp.isEmpty
  assert (!c.doAutomaticRebuilds || pos)
  assert (rootValid c t.root)

/-- The check of one child in `PackedKDTree::Node::debugIsValid` (src/mathic/PackedKDTree.h:745-755): against the
next child or the entries, and against the first child or the entries of its node. -/
def childValid (c : Conf T) (mask : Mask) (next node : Node T) : Bool :=
  !c.useTreeDivMask || (canDivide mask next.mask && canDivide mask node.mask)

/-! ## Insertion -/

/-- `BinaryKDTree::Leaf::splitInsert` from the split on (src/mathic/BinaryKDTree.h:749-777). -/
def splitInsertBD (c : Conf T) (x : Ext T) (r : Split (Ext T)) : Dbg (Node T) := do
  let other ← Arr.ofRangeD c r.gt
  let this := Arr.recalculate c ⟨sortEntries c r.le, maxMask⟩
  let mask := lower c (lower c (lower c maxMask this.mask) other.mask) x.mask
  if inChild c r.var r.exp x.t then do
    assert (decide (other.es.length < c.leafSize))
    let o ← other.insertD c x
    return .split mask r.var r.exp (.entries this) (.entries o)
  else do
    assert (decide (this.es.length < c.leafSize))
    let t ← this.insertD c x
    return .split mask r.var r.exp (.entries t) (.entries other)

/-- The assertions at the end of `PackedKDTree::Node::splitInsert` (src/mathic/PackedKDTree.h:731-732) as far as
they are about the new child, its node and the entries of `copied`; the rest comes in `insertNodeD`. -/
def splitValid (c : Conf T) (mask : Mask) (copied this : Arr T) : Bool :=
  this.valid c && copied.valid c && childValid c mask (.entries copied) (.entries this)

/-- `PackedKDTree::Node::splitInsert` from the split on (src/mathic/PackedKDTree.h:696-734). -/
def splitInsertPD (c : Conf T) (x : Ext T) (a : Arr T) (r : Split (Ext T)) : Dbg (Node T) := do
  let copied ← Arr.ofRangeD c r.le
  let mask := lower c (lower c maxMask a.mask) x.mask
  if c.selfCopyUndefined && r.le.isEmpty then .ub
  else do
    let this := Arr.recalculate c ⟨sortEntries c r.gt, maxMask⟩
    if inChild c r.var r.exp x.t then do
      let t ← this.insertD c x
      assert (splitValid c mask copied t)
      return .split mask r.var r.exp (.entries copied) (.entries t)
    else do
      let o ← copied.insertD c x
      assert (splitValid c mask o this)
      return .split mask r.var r.exp (.entries o) (.entries this)

/-- `splitInsert` of either kind of tree with the split (src/mathic/BinaryKDTree.h:742-748,
src/mathic/PackedKDTree.h:678-695). -/
def splitInsertD (c : Conf T) (x : Ext T) (hint : Option ℕ) (a : Arr T) : Dbg (Node T) := do
  assert (decide (0 < c.dm.varCount))
  assert (decide (0 < a.es.length))
  let r ← splitD c Ext.t a.es (some x) hint
  if c.packed then splitInsertPD c x a r else splitInsertBD c x r

/-- The walk of `insert` down the tree and the insertion (src/mathic/BinaryKDTree.h:306-326 and
src/mathic/PackedKDTree.h:271-294). The flag tells for a binary tree whether a leaf was split, and for a packed
tree whether the node at hand was: then `copied->debugIsValid()` (src/mathic/PackedKDTree.h:732) has checked its
other children. -/
def insertNodeD (c : Conf T) (x : Ext T) (hint : Option ℕ) : Node T → Dbg (Bool × Node T)
  | .entries a => do
    assert (decide (a.es.length ≤ c.leafSize))
    if a.es.length = c.leafSize then do
      let n ← splitInsertD c x hint a
      return (true, n)
    else do
      assert (c.packed || decide (a.es.length < c.leafSize))
      let a' ← a.insertD c x
      return (false, .entries a')
  | .split mask var exp le gt =>
    if inChild c var exp x.t then do
      let r ← insertNodeD c x (some var) gt
      return (!c.packed && r.1, .split (lower c mask x.mask) var exp le r.2)
    else do
      let r ← insertNodeD c x (some var) le
      assert (!(c.packed && r.1) || childValid c (lower c mask x.mask) r.2 gt)
      return (r.1, .split (lower c mask x.mask) var exp r.2 gt)

/-- `insert` (src/mathic/BinaryKDTree.h:301-327, src/mathic/PackedKDTree.h:265-296): a binary tree is not checked
after a split. -/
def Tree.insertD (c : Conf T) (pos : Bool) (t : Tree T) (x : Ext T) : Dbg (Tree T) := do
  whenD c.packed (t.validD c pos)
  let r ← insertNodeD c x none (t.root.getD (.entries Arr.empty))
  whenD (c.packed || !r.1) (Tree.validD c pos { t with root := some r.2 })
  return { t with root := some r.2 }

/-! ## Searches -/

/-- An action on entries that may fail an assertion, as an action for `loop`: the search goes no further
then. -/
def catchAct {σ : Type} (act : Path → σ → Dbg (σ × Flow)) (p : Path) : Dbg σ → Option (Dbg σ × Flow)
  | .ok s =>
    match act p s with
    | .ok (s', f) => some (.ok s', f)
    | .failed => some (.failed, .stop)
    | .ub => none
  | r => some (r, .stop)

/-- The outcome of a search with `catchAct`. -/
def caughtRes {σ : Type} : Option (Dbg σ × Flow × List Path) → Dbg (σ × Flow × List Path)
  | none => .ub
  | some (.ok s, f, tmp) => .ok (s, f, tmp)
  | some (.failed, _, _) => .failed
  | some (.ub, _, _) => .ub

/-- A search that starts at the root (`search` in KDTree.lean). -/
def searchD {σ : Type} (c : Conf T) (k : Kind T) (act : Path → σ → Dbg (σ × Flow)) (s : σ)
    (root : Node T) (tmp : List Path) : Dbg (σ × Flow × List Path) :=
  caughtRes (search c k (catchAct act) (.ok s) root tmp)

/-- What `findDivisor` does with what it has found in an array (src/mathic/BinaryKDTree.h:449-453,
src/mathic/PackedKDTree.h:418-422). -/
def foundD (c : Conf T) (m : Ext T) (p : Path) (a : Arr T) : Option ℕ → Dbg (Option Ptr × Flow)
  | none => .ok (none, .go)
  | some i => do
    let e ← lift a.es[i]?
    assert (c.dm.divides e.t m.t)
    return (some (p, i), .stop)

/-- What `findDivisor` does with the entries of a node (src/mathic/BinaryKDTree.h:447-455,
src/mathic/PackedKDTree.h:414-422). -/
def actDivisorD (c : Conf T) (m : Ext T) (root : Node T) (p : Path) (_ : Option Ptr) : Dbg (Option Ptr × Flow) := do
  let a ← lift (root.arrAt p)
  let r ← a.findDivisorD c m
  foundD c m p a r

/-- The search of `findDivisor` in a tree that has a root. -/
def findDivisorNodeD (c : Conf T) (t : Tree T) (m : Ext T) : Option (Node T) → Dbg (Option Ptr × Tree T)
  | none => .ok (none, t)
  | some n => do
    let r ← searchD c (.divisors m) (actDivisorD c m n) none n t.tmp
    assert r.2.2.isEmpty
    return (r.1, { t with tmp := r.2.2 })

/-- `findDivisor` (src/mathic/BinaryKDTree.h:423-463, src/mathic/PackedKDTree.h:396-434). -/
def Tree.findDivisorD (c : Conf T) (pos : Bool) (t : Tree T) (m : Ext T) : Dbg (Option Ptr × Tree T) := do
  whenD (!c.packed) (t.validD c pos)
  assert t.tmp.isEmpty
  findDivisorNodeD c t m t.root

/-- What the enumerations do with the entries of a node. -/
def actVisitD (f : List T → Arr T → Dbg (List T × Flow)) (root : Node T) (p : Path) (got : List T) :
    Dbg (List T × Flow) := do
  let a ← lift (root.arrAt p)
  f got a

/-- An enumeration of a tree that has a root. An exception of the output passes by the assertion at the
end. -/
def enumerateNodeD (c : Conf T) (t : Tree T) (k : Kind T) (f : List T → Arr T → Dbg (List T × Flow)) :
    Option (Node T) → Dbg (List T × Flow × Tree T)
  | none => .ok ([], .go, t)
  | some n => do
    let r ← searchD c k (actVisitD f n) [] n t.tmp
    whenD (decide (r.2.1 ≠ .threw)) (assert r.2.2.isEmpty)
    return (r.1, r.2.1, { t with tmp := r.2.2 })

/-- An enumeration, with the assertions at its start and end (src/mathic/BinaryKDTree.h:468, 497, 503, 529, 535,
556, src/mathic/PackedKDTree.h:439, 465, 471, 495, 501, 518). -/
def Tree.enumerateD (c : Conf T) (t : Tree T) (k : Kind T) (f : List T → Arr T → Dbg (List T × Flow)) :
    Dbg (List T × Flow × Tree T) := do
  assert t.tmp.isEmpty
  enumerateNodeD c t k f t.root

/-- `findAllDivisors` (src/mathic/BinaryKDTree.h:465-498, src/mathic/PackedKDTree.h:436-466). -/
def Tree.findAllDivisorsD (c : Conf T) (t : Tree T) (m : Ext T) (proceed : List T → Flow) :
    Dbg (List T × Flow × Tree T) := t.enumerateD c (.divisors m) (fun got a => a.findAllDivisorsD c m proceed got)

/-- `findAllMultiples` (src/mathic/BinaryKDTree.h:500-530, src/mathic/PackedKDTree.h:468-496). -/
def Tree.findAllMultiplesD (c : Conf T) (t : Tree T) (m : Ext T) (proceed : List T → Flow) :
    Dbg (List T × Flow × Tree T) := t.enumerateD c (.multiples m) (fun got a => a.findAllMultiplesD c m proceed got)

/-- `forAll` (src/mathic/BinaryKDTree.h:532-557, src/mathic/PackedKDTree.h:498-519). -/
def Tree.forAllD (c : Conf T) (t : Tree T) (proceed : List T → Flow) : Dbg (List T × Flow × Tree T) :=
  t.enumerateD c .all (fun got a => a.forAllD c proceed got)

/-- What `removeMultiples` does with the entries of a node (src/mathic/BinaryKDTree.h:276,
src/mathic/PackedKDTree.h:232). -/
def actRemoveD (c : Conf T) (m : Ext T) (p : Path) (s : Node T × List T × ℕ) :
    Dbg ((Node T × List T × ℕ) × Flow) := do
  let a ← lift (s.1.arrAt p)
  let r ← a.removeMultiplesD c m
  return ((s.1.setArr p r.1, s.2.1 ++ r.2.1, s.2.2 + r.2.2), .go)

/-- `removeMultiples` in a tree that has a root. -/
def removeMultiplesNodeD (c : Conf T) (pos : Bool) (t : Tree T) (m : Ext T) :
    Option (Node T) → Dbg (List T × ℕ × Tree T)
  | none => .ok ([], 0, t)
  | some n => do
    let r ← searchD c (.multiples m) (actRemoveD c m) (n, [], 0) n t.tmp
    assert r.2.2.isEmpty
    Tree.validD c pos ⟨some r.1.1, r.2.2⟩
    return (r.1.2.1, r.1.2.2, ⟨some r.1.1, r.2.2⟩)

/-- `removeMultiples` (src/mathic/BinaryKDTree.h:257-285, src/mathic/PackedKDTree.h:213-243). -/
def Tree.removeMultiplesD (c : Conf T) (pos : Bool) (t : Tree T) (m : Ext T) : Dbg (List T × ℕ × Tree T) := do
  assert t.tmp.isEmpty
  removeMultiplesNodeD c pos t m t.root

/-- The walk of `PackedKDTree::removeElement` (src/mathic/PackedKDTree.h:252-260). -/
def removeElementNodeD (c : Conf T) (m : T) : Node T → Dbg (Bool × Node T)
  | .entries a => do
    let r ← a.removeElementD c m
    return (r.1, .entries r.2)
  | .split mask var exp le gt =>
    if inChild c var exp m then do
      let r ← removeElementNodeD c m gt
      return (r.1, .split mask var exp le r.2)
    else do
      let r ← removeElementNodeD c m le
      return (r.1, .split mask var exp r.2 gt)

/-- `removeElement` in a tree that has a root. -/
def removeElementRootD (c : Conf T) (pos : Bool) (t : Tree T) (m : T) : Option (Node T) → Dbg (Bool × Tree T)
  | none => .ok (false, t)
  | some n => do
    let r ← removeElementNodeD c m n
    Tree.validD c pos { t with root := some r.2 }
    return (r.1, { t with root := some r.2 })

/-- `PackedKDTree::removeElement` (src/mathic/PackedKDTree.h:245-263). -/
def Tree.removeElementD (c : Conf T) (pos : Bool) (t : Tree T) (m : T) : Dbg (Bool × Tree T) := do
  assert t.tmp.isEmpty
  removeElementRootD c pos t m t.root

/-! ## Construction -/

/-- The leaf that `reset` makes. `Node::debugIsValid` (src/mathic/PackedKDTree.h:390) is called with tree masks. -/
def buildLeafD (c : Conf T) (l : List (Ext T)) : Dbg (Node T) := do
  let a ← Arr.ofRangeD c l
  assert (!(c.packed && c.useTreeDivMask) || a.valid c)
  return .entries a

/-- The node that `reset` makes of two parts with its mask; `Node::debugIsValid`
(src/mathic/PackedKDTree.h:390) is called with tree masks, when the masks below have been computed. -/
def buildSplitD (c : Conf T) (var : ℕ) (exp : ℤ) (le gt : Node T) : Dbg (Node T) := do
  let mask := lower c (lower c maxMask le.mask) gt.mask
  assert (!(c.packed && c.useTreeDivMask) || childValid c mask le gt)
  return .split mask var exp le gt

/-- The construction in `reset` (src/mathic/BinaryKDTree.h:342-419, src/mathic/PackedKDTree.h:317-392). Both parts
of a split must have entries (src/mathic/BinaryKDTree.h:359, src/mathic/PackedKDTree.h:334), and in a packed tree
the variable is checked (line 335). -/
def buildD (c : Conf T) (bits : Bits) (l : List T) (hint : Option ℕ) : Dbg (Node T) :=
  if l.length ≤ c.leafSize then buildLeafD c (l.map (Ext.make c.dm bits))
  else
    match splitD c id l none hint with
    | .failed => .failed
    | .ub => .ub
    | .ok r =>
      if _h : r.le.length < l.length ∧ r.gt.length < l.length then
        if c.packed && !decide (r.var < c.dm.varCount) then .failed
        else
          match buildD c bits r.le (some r.var), buildD c bits r.gt (some r.var) with
          | .ok le, .ok gt => buildSplitD c r.var r.exp le gt
          | .ub, _ => .ub
          | .failed, _ => .failed
          | _, .ub => .ub
          | _, .failed => .failed
      else .failed
termination_by l.length

/-- `reset` after `clear`. -/
def resetRangeD (c : Conf T) (pos : Bool) (bits : Bits) (l : List T) : Dbg (Tree T) :=
  if l = [] then .ok ⟨none, []⟩
  else do
    let n ← buildD c bits l none
    Tree.validD c pos ⟨some n, []⟩
    return ⟨some n, []⟩

/-- `clear`, which the destructor calls (src/mathic/BinaryKDTree.h:254-256, 559-577,
src/mathic/PackedKDTree.h:179-182, 521-537). -/
def Tree.clearD (t : Tree T) : Dbg Unit := assert t.tmp.isEmpty

/-- `reset` (src/mathic/BinaryKDTree.h:329-421, src/mathic/PackedKDTree.h:298-394). -/
def Tree.resetD (c : Conf T) (pos : Bool) (bits : Bits) (t : Tree T) (l : List T) : Dbg (Tree T) := do
  t.clearD
  resetRangeD c pos bits l

/-! ## `KDTree` -/

/-- `resetNumberOfChangesTillRebuild` (src/mathic/KDTree.h:328-339). -/
def resetChangesD (c : Conf T) (pos : Bool) (s : State T) : Dbg (State T) := do
  whenD c.doAutomaticRebuilds (assert pos)
  return resetChanges c s

/-- The constructors (src/mathic/KDTree.h:62-69, src/mathic/BinaryKDTree.h:248-252,
src/mathic/PackedKDTree.h:173-177). -/
def initD (c : Conf T) (pos : Bool) : Dbg (State T) := do
  let bits ← lift (calcInit c)
  assert (decide (0 < c.leafSize))
  Tree.validD c pos ⟨none, []⟩
  resetChangesD c pos ⟨⟨none, []⟩, bits, 0, none, 0⟩

/-- `rebuild` (src/mathic/KDTree.h:244-251). -/
def rebuildD (c : Conf T) (pos : Bool) (s : State T) : Dbg (State T) := do
  let r ← s.tree.forAllD c (fun _ => .go)
  let bits ← lift (calcRebuild c r.1)
  let t ← Tree.resetD c pos bits r.2.2 r.1
  resetChangesD c pos { s with tree := t, bits := bits }

/-- `reportChangesRebuild` and the rebuild in `reportChanges`, with the cache reset
(src/mathic/KDTree.h:344-363). -/
def countChangesD (c : Conf T) (pos : Bool) (s : State T) (additions removals : ℕ) : Dbg (State T) := do
  assert (decide (removals ≤ s.size + additions))
  if !c.doAutomaticRebuilds then .ok { s with size := s.size + additions - removals }
  else if s.changes > additions + removals then
    .ok { s with size := s.size + additions - removals, changes := s.changes - (additions + removals) }
  else rebuildD c pos { s with size := s.size + additions - removals }

/-- `reportChanges` (src/mathic/KDTree.h:341-363). -/
def reportChangesD (c : Conf T) (pos : Bool) (s : State T) (additions removals : ℕ) : Dbg (State T) :=
  countChangesD c pos (if c.useDivisorCache && (additions + removals != 0) then { s with cache := none } else s)
    additions removals

/-- `insert` (src/mathic/KDTree.h:140-144). -/
def insertD (c : Conf T) (pos : Bool) (s : State T) (e : T) : Dbg (Ret T × State T) := do
  let t ← s.tree.insertD c pos (ext c s e)
  let s' ← reportChangesD c pos { s with tree := t } 1 0
  return (.unit, s')

/-- `removeMultiples` (src/mathic/KDTree.h:97-117): the assertion comes before the exception. -/
def removeMultiplesD (c : Conf T) (pos : Bool) (s : State T) (m : T) : Dbg (Ret T × State T) := do
  assert c.allowRemovals
  let r ← s.tree.removeMultiplesD c pos (ext c s m)
  let s' ← reportChangesD c pos { s with tree := r.2.2 } 0 r.2.1
  return (.removed r.1 (decide (r.2.1 > 0)), s')

/-- `removeElement` (src/mathic/KDTree.h:171-176); for binary trees it does not compile, `ub` here. -/
def removeElementD (c : Conf T) (pos : Bool) (s : State T) (m : T) : Dbg (Ret T × State T) :=
  if !c.packed then .ub
  else do
    assert c.allowRemovals
    let r ← s.tree.removeElementD c pos m
    return (.flag r.1, { s with tree := r.2 })

/-- What `findDivisor` returns and puts in the cache (src/mathic/KDTree.h:189-192). -/
def cachedD (c : Conf T) (s : State T) (t : Tree T) : Option Ptr → Dbg (Ret T × State T)
  | none => .ok (.entry none, { s with tree := t })
  | some p => do
    let e ← lift (t.deref p)
    return (.entry (some e), { s with tree := t, cache := if c.useDivisorCache then some p else s.cache })

/-- The part of `findDivisor` after the cache (src/mathic/KDTree.h:188-192). -/
def findDivisorTreeD (c : Conf T) (pos : Bool) (s : State T) (m : T) : Dbg (Ret T × State T) := do
  let r ← s.tree.findDivisorD c pos (ext c s m)
  cachedD c s r.2 r.1

/-- `findDivisor` (src/mathic/KDTree.h:180-193). -/
def findDivisorD (c : Conf T) (pos : Bool) (s : State T) (m : T) : Dbg (Ret T × State T) :=
  match c.useDivisorCache, s.cache with
  | true, some p =>
    match s.tree.deref p with
    | none => .ub
    | some e => if c.dm.divides e m then .ok (.entry (some e), s) else findDivisorTreeD c pos s m
  | _, _ => findDivisorTreeD c pos s m

/-- The result of an enumeration as the result of a call. -/
def gotResD (s : State T) (r : Dbg (List T × Flow × Tree T)) : Dbg (Ret T × State T) := do
  let x ← r
  return (.got x.1 (decide (x.2.1 = .threw)), { s with tree := x.2.2 })

/-- One call. -/
def stepD (c : Conf T) (pos : Bool) (s : State T) : Op T → Dbg (Ret T × State T)
  | .insert e => insertD c pos s e
  | .removeMultiples m => removeMultiplesD c pos s m
  | .removeElement m => removeElementD c pos s m
  | .findDivisor m => findDivisorD c pos s m
  | .findAllDivisors m p => gotResD s (s.tree.findAllDivisorsD c (ext c s m) p)
  | .findAllMultiples m p => gotResD s (s.tree.findAllMultiplesD c (ext c s m) p)
  | .forAll p => gotResD s (s.tree.forAllD c p)
  | .rebuild => do
    let s' ← rebuildD c pos s
    return (.unit, s')
  | .size => .ok (.num s.size, s)

/-- A history of calls. -/
def runFromD (c : Conf T) (pos : Bool) (s : State T) : List (Op T) → Dbg (List (Ret T) × State T)
  | [] => .ok ([], s)
  | op :: ops => do
    let r ← stepD c pos s op
    let rs ← runFromD c pos r.2 ops
    return (r.1 :: rs.1, rs.2)

/-- A history of calls from construction to destruction. -/
def runD (c : Conf T) (pos : Bool) (ops : List (Op T)) : Dbg (List (Ret T) × State T) := do
  let s ← initD c pos
  let r ← runFromD c pos s ops
  r.2.tree.clearD
  return r

end Verif.KDTree
