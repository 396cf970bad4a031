import Verif.KDTree

/-!
# The KD trees in memory

All of `KDEntryArray`, `BinaryKDTree`, `PackedKDTree` and `KDTree` once more, now with nodes at addresses, pointers
between them that may be null or not set, and raw memory for entries. An entry is constructed in raw memory and
destructed to raw memory; reading or assigning needs an entry. Everything else has no value (`none`): reading through
a null pointer or one to memory that has been given back, using what is not set, constructing over an entry (which
then nobody destructs), destructing raw memory, giving memory back with an entry in it, and a loop that does not end.

Functions that only read entries are those of `KDEntryArray.lean` on the entries read. A range of entries that is given
to `reset` is the list of its values: the ranges of the tasks do not overlap, and each is only permuted in itself.
Addresses are never used again, so that each use of memory that was given back is noticed.
-/

namespace Verif.KDMem

open Verif.DivMask (Ext Bits Mask combineAnd canDivide maxMask)
open Verif.KDTree (Conf Flow Arr Split Kind Op Ret lower inChild comparer sortEntries divides sameExponents split)

variable {T : Type}

/-! ## `KDEntryArray` -/

/-- Memory for entries (src/mathic/KDEntryArray.h:118-121), `none` is raw memory. -/
abbrev Slots (T : Type) := List (Option (Ext T))

/-- `new (p) EE(entry)`. -/
def construct (s : Slots T) (i : ℕ) (e : Ext T) : Option (Slots T) :=
  match s[i]? with
  | some none => some (s.set i (some e))
  | _ => none

/-- `p->~EE()`. -/
def destruct (s : Slots T) (i : ℕ) : Option (Slots T) :=
  match s[i]? with
  | some (some _) => some (s.set i none)
  | _ => none

/-- `*p` as a value. -/
def read (s : Slots T) (i : ℕ) : Option (Ext T) :=
  match s[i]? with
  | some (some e) => some e
  | _ => none

/-- `*p = entry`. -/
def assign (s : Slots T) (i : ℕ) (e : Ext T) : Option (Slots T) :=
  match s[i]? with
  | some (some _) => some (s.set i (some e))
  | _ => none

/-- The values of a range from position `i` on. -/
def readRange (s : Slots T) (i : ℕ) : ℕ → Option (List (Ext T))
  | 0 => some []
  | n + 1 => do
    let e ← read s i
    let l ← readRange s (i + 1) n
    some (e :: l)

/-- Assign to a range from position `i` on. -/
def assignRange (s : Slots T) (i : ℕ) : List (Ext T) → Option (Slots T)
  | [] => some s
  | e :: l => do
    let s ← assign s i e
    assignRange s (i + 1) l

/-- A `KDEntryArray` (src/mathic/KDEntryArray.h:118-121): its memory, `_end - begin()`, and the mask of the base class. -/
structure RArr (T : Type) where
  slots : Slots T
  len : ℕ
  mask : Mask

/-- The empty array (src/mathic/KDEntryArray.h:185-192). -/
def RArr.new (c : Conf T) : RArr T := ⟨List.replicate c.leafSize none, 0, maxMask⟩

/-- The entries from `begin()` to `end()`. -/
def RArr.view (r : RArr T) : Option (List (Ext T)) := readRange r.slots 0 r.len

/-- The array as the functions that only read it see it. -/
def RArr.arr (r : RArr T) : Option (Arr T) := r.view.map (⟨·, r.mask⟩)

/-- What an algorithm of the library that permutes the range does: all entries are assigned. -/
def RArr.permute (r : RArr T) (l : List (Ext T)) : Option (RArr T) :=
  if l.length = r.len then (assignRange r.slots 0 l).map (⟨·, r.len, r.mask⟩) else none

/-- `push_back` (src/mathic/KDEntryArray.h:237-243). -/
def RArr.pushBack (c : Conf T) (r : RArr T) (e : Ext T) : Option (RArr T) :=
  (construct r.slots r.len e).map (⟨·, r.len + 1, lower c r.mask e.mask⟩)

/-- `pop_back` (src/mathic/KDEntryArray.h:245-250). -/
def RArr.popBack (r : RArr T) : Option (RArr T) :=
  if r.len = 0 then none else (destruct r.slots (r.len - 1)).map (⟨·, r.len - 1, r.mask⟩)

/-- `while (size() > n) pop_back();` and the like (src/mathic/KDEntryArray.h:279-282,
src/mathic/BinaryKDTree.h:751-752, src/mathic/PackedKDTree.h:718-719). -/
def RArr.popWhile (r : RArr T) (n : ℕ) : Option (RArr T) :=
  if r.len = n then some r else do
    let r ← r.popBack
    r.popWhile n
partial_fixpoint

/-- The loop of the constructors (src/mathic/KDEntryArray.h:210-211, 231-232). -/
def RArr.pushAll (c : Conf T) (r : RArr T) : List (Ext T) → Option (RArr T)
  | [] => some r
  | e :: es => do
    let r ← r.pushBack c e
    pushAll c r es

/-- `if (conf.getSortOnInsert()) std::sort(begin(), end(), ...)`. -/
def RArr.sort (c : Conf T) (r : RArr T) : Option (RArr T) :=
  if c.sortOnInsert then do
    let l ← r.view
    r.permute (c.sort (comparer c) l)
  else some r

/-- The constructors from a range (src/mathic/KDEntryArray.h:194-214, 216-235). -/
def RArr.ofRange (c : Conf T) (l : List (Ext T)) : Option (RArr T) := do
  let r ← (RArr.new c).pushAll c l
  r.sort c

/-- `*moveTo = *(moveTo - 1)` for `n` positions down from `moveTo` (src/mathic/KDEntryArray.h:260-262). -/
def shiftUp (s : Slots T) (moveTo : ℕ) : ℕ → Option (Slots T)
  | 0 => some s
  | n + 1 => do
    let x ← read s (moveTo - 1)
    let s ← assign s moveTo x
    shiftUp s (moveTo - 1) n

/-- `insert(iterator, entry)` (src/mathic/KDEntryArray.h:252-265). -/
def RArr.insertAt (c : Conf T) (r : RArr T) (it : ℕ) (e : Ext T) : Option (RArr T) :=
  if it = r.len then r.pushBack c e else do
    let b ← read r.slots (r.len - 1)
    let r ← r.pushBack c b
    let s ← shiftUp r.slots (r.len - 1) (r.len - 1 - it)
    let s ← assign s it e
    some ⟨s, r.len, lower c r.mask e.mask⟩

/-- `insert(entry, conf)` (src/mathic/KDEntryArray.h:267-276). -/
def RArr.insert (c : Conf T) (r : RArr T) (e : Ext T) : Option (RArr T) :=
  if !c.sortOnInsert then r.pushBack c e else do
    let l ← r.view
    let it ← DivList.upperBound (comparer c) l e
    r.insertAt c it e

/-- The second loop of `removeMultiples` (src/mathic/KDEntryArray.h:308-314). -/
def compact (p : Ext T → Bool) (s : Slots T) (it newEnd : ℕ) (out : List T) : ℕ → Option (Slots T × ℕ × List T)
  | 0 => some (s, newEnd, out)
  | n + 1 => do
    let e ← read s it
    if !p e then do
      let s ← assign s newEnd e
      compact p s (it + 1) (newEnd + 1) out n
    else compact p s (it + 1) newEnd (out ++ [e.t]) n

/-- The loop `do pop_back(); while (newSize < size())` (src/mathic/KDEntryArray.h:320-322). -/
def RArr.popLoop (r : RArr T) (newSize : ℕ) : Option (RArr T) := do
  let r ← r.popBack
  if newSize < r.len then r.popLoop newSize else some r
partial_fixpoint

/-- `removeMultiples` (src/mathic/KDEntryArray.h:284-325). -/
def RArr.removeMultiples (c : Conf T) (m : Ext T) (r : RArr T) : Option (RArr T × List T × ℕ) :=
  if c.leafSize = 1 then
    if r.len = 0 then some (r, [], 0) else do
      let e ← read r.slots 0
      if !divides c m e then some (r, [], 0) else do
        let r ← r.popBack
        some (r, [e.t], 1)
  else do
    let l ← r.view
    match l.findIdx? (fun e => divides c m e) with
    | none => some (r, [], 0)
    | some it => do
      let e ← read r.slots it
      let (s, newEnd, out) ← compact (fun e => divides c m e) r.slots (it + 1) it [e.t] (r.len - (it + 1))
      let r' ← RArr.popLoop { r with slots := s } newEnd
      some (r', out, r.len - newEnd)

/-- The loop of `removeElement` that moves the later elements down (src/mathic/KDEntryArray.h:336-340), and
`std::copy` to a position `d` further down (src/mathic/PackedKDTree.h:715-716): `n` times `*it = *(it + d)`. -/
def shiftDown (s : Slots T) (it d : ℕ) : ℕ → Option (Slots T)
  | 0 => some s
  | n + 1 => do
    let x ← read s (it + d)
    let s ← assign s it x
    shiftDown s (it + 1) d n

/-- `removeElement` (src/mathic/KDEntryArray.h:327-346). -/
def RArr.removeElement (c : Conf T) (m : T) (r : RArr T) : Option (Bool × RArr T) := do
  let l ← r.view
  match l.findIdx? (fun e => sameExponents c m e.t) with
  | none => some (false, r)
  | some it => do
    let s ← shiftDown r.slots it 1 (r.len - 1 - it)
    let r ← RArr.popBack { r with slots := s }
    some (true, r)

/-- `recalculateTreeDivMask` (src/mathic/KDEntryArray.h:472-479). -/
def RArr.recalculate (c : Conf T) (r : RArr T) : Option (RArr T) :=
  if !c.useTreeDivMask then some r else do
    let l ← r.view
    some { r with mask := DivMask.lowerBound (l.map Ext.mask) }

/-! ## The arena -/

/-- An address. -/
abbrev Addr := ℕ

/-- The memory blocks of an arena, `none` is one that has been given back. -/
abbrev Heap (N : Type) := List (Option N)

/-- What an address points to. -/
def get {N : Type} (h : Heap N) (a : Addr) : Option N :=
  match h[a]? with
  | some (some n) => some n
  | _ => none

/-- Write to an address. -/
def put {N : Type} (h : Heap N) (a : Addr) (n : N) : Option (Heap N) :=
  match h[a]? with
  | some (some _) => some (h.set a (some n))
  | _ => none

/-- `Arena::alloc` with the construction of what is put there. -/
def alloc {N : Type} (h : Heap N) (n : N) : Heap N × Addr := (h ++ [some n], h.length)

/-- The entries constructed in all of the memory of an arena. -/
def liveEntries {N : Type} (slots : N → Slots T) (h : Heap N) : List T :=
  h.flatMap (fun n => (n.elim [] slots).flatMap (fun s => (s.map Ext.t).toList))

/-- `Arena::freeAllAllocs`, which runs no destructors: there must be no entry left. -/
def freeAll {N : Type} (slots : N → Slots T) (h : Heap N) : Option (Heap N) :=
  if (liveEntries slots h).isEmpty then some (h.map (fun _ => none)) else none

/-- The members of `BinaryKDTree` (src/mathic/BinaryKDTree.h:241-244) and `PackedKDTree` (src/mathic/PackedKDTree.h:166-169).
The top of `_tmp` comes first. A null pointer is `none`. -/
structure MTree (N : Type) where
  heap : Heap N
  root : Option Addr
  tmp : List Addr

/-- The functions of one of the two kinds of trees. -/
structure Impl (T N : Type) where
  /-- the memory for entries of a node -/
  slots : N → Slots T
  /-- `asLeaf().entries()` and `entries()` -/
  getArr : Heap N → Addr → Option (RArr T)
  putArr : Heap N → Addr → RArr T → Option (Heap N)
  /-- one round of a search up to the entries: the node with the entries to look at, if any, and `_tmp` -/
  expand : Conf T → Kind T → Heap N → Addr → List Addr → Option (Option Addr × List Addr)
  /-- what a search pushes on `_tmp` after the entries have been looked at -/
  post : Conf T → Kind T → Heap N → Addr → List Addr → Option (List Addr)
  /-- the flag tells that `split` has thrown -/
  insert : Conf T → MTree N → Ext T → Option (Bool × MTree N)
  clear : Conf T → MTree N → Option (MTree N)
  /-- the flag tells that `split` has thrown -/
  reset : Conf T → Bits → MTree N → List T → Option (Bool × MTree N)
  /-- `none` also for binary trees, where the function does not compile -/
  removeElement : Conf T → MTree N → T → Option (Bool × MTree N)

/-! ## `BinaryKDTree` -/

/-- A node (src/mathic/BinaryKDTree.h:51-82): `KDTreeLeaf` (:152-187) or `KDTreeInterior` (:84-149) with its mask, `_var`,
`_exponent`, `_equalOrLess`, `_strictlyGreater`. -/
inductive BNode (T : Type) where
  | leaf (r : RArr T)
  | interior (mask : Mask) (var : ℕ) (exp : ℤ) (le gt : Option Addr)

namespace Binary

/-- The memory for entries of a node. -/
def slots : BNode T → Slots T
  | .leaf r => r.slots
  | .interior .. => []

/-- `node->asLeaf().entries()`; `asLeaf` casts without a check (src/mathic/BinaryKDTree.h:54-61). -/
def getArr (h : Heap (BNode T)) (a : Addr) : Option (RArr T) :=
  match get h a with
  | some (.leaf r) => some r
  | _ => none

/-- Write the entries of a leaf. -/
def putArr (h : Heap (BNode T)) (a : Addr) (r : RArr T) : Option (Heap (BNode T)) :=
  match get h a with
  | some (.leaf _) => put h a (.leaf r)
  | _ => none

/-- The inner loop of `findDivisor` and `findAllDivisors` (src/mathic/BinaryKDTree.h:433-443, 473-482). -/
def expandDivisors (c : Conf T) (m : Ext T) (h : Heap (BNode T)) (node : Addr) (tmp : List Addr) :
    Option (Option Addr × List Addr) := do
  let n ← get h node
  match n with
  | .leaf _ => some (some node, tmp)
  | .interior mask var exp le gt =>
    if c.useTreeDivMask && !canDivide mask m.mask then some (none, tmp)
    else if inChild c var exp m.t then do
      let g ← gt
      let l ← le
      expandDivisors c m h l (g :: tmp)
    else do
      let l ← le
      expandDivisors c m h l tmp
partial_fixpoint

/-- The inner loop of `removeMultiples` and `findAllMultiples` (src/mathic/BinaryKDTree.h:268-274, 508-514). -/
def expandMultiples (c : Conf T) (m : Ext T) (h : Heap (BNode T)) (node : Addr) (tmp : List Addr) :
    Option (Option Addr × List Addr) := do
  let n ← get h node
  match n with
  | .leaf _ => some (some node, tmp)
  | .interior _ var exp le gt =>
    if !inChild c var exp m.t then do
      let l ← le
      let g ← gt
      expandMultiples c m h g (l :: tmp)
    else do
      let g ← gt
      expandMultiples c m h g tmp
partial_fixpoint

/-- The inner loop of `forAll` and `clear` (src/mathic/BinaryKDTree.h:540-544, 568-571). -/
def expandAll (h : Heap (BNode T)) (node : Addr) (tmp : List Addr) : Option (Addr × List Addr) := do
  let n ← get h node
  match n with
  | .leaf _ => some (node, tmp)
  | .interior _ _ _ le gt => do
    let g ← gt
    let l ← le
    expandAll h l (g :: tmp)
partial_fixpoint

/-- One round of a search. -/
def expand (c : Conf T) (k : Kind T) (h : Heap (BNode T)) (node : Addr) (tmp : List Addr) :
    Option (Option Addr × List Addr) :=
  match k with
  | .divisors m => expandDivisors c m h node tmp
  | .multiples m => expandMultiples c m h node tmp
  | .all => (expandAll h node tmp).map (fun r => (some r.1, r.2))

/-- The walk of `insert` (src/mathic/BinaryKDTree.h:306-313): the leaf and its parent. -/
def insertWalk (c : Conf T) (x : Ext T) (h : Heap (BNode T)) (node : Addr) (parent : Option Addr) :
    Option (Heap (BNode T) × Addr × Option Addr) := do
  let n ← get h node
  match n with
  | .leaf _ => some (h, node, parent)
  | .interior mask var exp le gt => do
    let h ← put h node (.interior (lower c mask x.mask) var exp le gt)
    let next ← if inChild c var exp x.t then gt else le
    insertWalk c x h next (some node)
partial_fixpoint

/-- `parent == 0 ? static_cast<size_t>(-1) : parent->getVar()` (src/mathic/BinaryKDTree.h:350-351, 745). -/
def hint (h : Heap (BNode T)) : Option Addr → Option (Option ℕ)
  | none => some none
  | some p =>
    match get h p with
    | some (.interior _ var _ _ _) => some (some var)
    | _ => none

/-- The parent of a leaf gets another child in its place (src/mathic/BinaryKDTree.h:763-770). -/
def relink (h : Heap (BNode T)) (parent : Option Addr) (old new : Addr) : Option (Heap (BNode T)) :=
  match parent with
  | none => some h
  | some p =>
    match get h p with
    | some (.interior mask var exp le gt) =>
      match le with
      | none => none
      | some l =>
        if l = old then put h p (.interior mask var exp (some new) gt) else put h p (.interior mask var exp le (some new))
    | _ => none

/-- `Leaf::splitInsert` (src/mathic/BinaryKDTree.h:740-778): the new interior node; the inner `none` is the exception of
`split`. -/
def splitInsert (c : Conf T) (x : Ext T) (h : Heap (BNode T)) (leaf : Addr) (parent : Option Addr) :
    Option (Option (Heap (BNode T) × Addr)) := do
  let var ← hint h parent
  let r ← getArr h leaf
  let l ← r.view
  match split c Ext.t l (some x) var with
  | none => none
  | some none => some none
  | some (some sp) => do
    let r ← r.permute (sp.le ++ sp.gt)
    let other ← RArr.ofRange c sp.gt
    let (h, o) := alloc h (.leaf other)
    let r ← r.popWhile sp.le.length
    let r ← r.sort c
    let r ← r.recalculate c
    let h ← put h leaf (.leaf r)
    let (h, i) := alloc h (.interior (lower c (lower c maxMask r.mask) other.mask) sp.var sp.exp (some leaf) (some o))
    let h ← relink h parent leaf i
    let h ← put h i (.interior (lower c (lower c (lower c maxMask r.mask) other.mask) x.mask) sp.var sp.exp (some leaf) (some o))
    let into := if inChild c sp.var sp.exp x.t then o else leaf
    let r ← getArr h into
    let r ← r.insert c x
    let h ← putArr h into r
    some (some (h, i))

/-- `insert` (src/mathic/BinaryKDTree.h:301-327). -/
def insert (c : Conf T) (t : MTree (BNode T)) (x : Ext T) : Option (Bool × MTree (BNode T)) := do
  let (h, root) := match t.root with
    | some a => (t.heap, a)
    | none => alloc t.heap (.leaf (RArr.new c))
  let (h, leaf, parent) ← insertWalk c x h root none
  let r ← getArr h leaf
  if r.len = c.leafSize then do
    let res ← splitInsert c x h leaf parent
    match res with
    | none => some (true, ⟨h, some root, t.tmp⟩)
    | some (h, i) => some (false, ⟨h, if parent = none then some i else some root, t.tmp⟩)
  else do
    let r ← r.insert c x
    let h ← putArr h leaf r
    some (false, ⟨h, some root, t.tmp⟩)

/-- The loop of `clear` (src/mathic/BinaryKDTree.h:565-574). -/
def clearLoop (h : Heap (BNode T)) (tmp : List Addr) : Option (Heap (BNode T)) :=
  match tmp with
  | [] => some h
  | a :: tmp => do
    let (leaf, tmp) ← expandAll h a tmp
    let r ← getArr h leaf
    let r ← r.popWhile 0
    let h ← putArr h leaf r
    clearLoop h tmp
partial_fixpoint

/-- `clear` (src/mathic/BinaryKDTree.h:559-577), which is all that the destructor does (:254-257). -/
def clear (_ : Conf T) (t : MTree (BNode T)) : Option (MTree (BNode T)) := do
  let h ← clearLoop t.heap (t.root.toList ++ t.tmp)
  let h ← freeAll slots h
  some ⟨h, none, []⟩

/-- A new node becomes the root or a child of its parent (src/mathic/BinaryKDTree.h:371-377). -/
def link (h : Heap (BNode T)) (root parent : Option Addr) (isEqualOrLess : Bool) (node : Addr) :
    Option (Heap (BNode T) × Option Addr) :=
  match parent with
  | none => some (h, some node)
  | some p =>
    match get h p with
    | some (.interior mask var exp le gt) =>
      (put h p (if isEqualOrLess then .interior mask var exp (some node) gt else .interior mask var exp le (some node))).map
        (·, root)
    | _ => none

/-- The loop of `reset` that makes the nodes (src/mathic/BinaryKDTree.h:342-395): memory and root. The flag tells that
`split` has thrown. The top of `todo` comes first. -/
def resetLoop (c : Conf T) (bits : Bits) (h : Heap (BNode T)) (root : Option Addr) (l : List T) (parent : Option Addr)
    (isEqualOrLess : Bool) (todo : List (List T × Addr)) : Option (Bool × Heap (BNode T) × Option Addr) :=
  if l.length ≤ c.leafSize then do
    let r ← RArr.ofRange c (l.map (Ext.make c.dm bits))
    let (h, node) := alloc h (.leaf r)
    let (h, root) ← link h root parent isEqualOrLess node
    match todo with
    | [] => some (false, h, root)
    | (l, p) :: todo => resetLoop c bits h root l (some p) false todo
  else do
    let var ← hint h parent
    match split c id l none var with
    | none => none
    | some none => some (true, h, root)
    | some (some sp) => do
      let (h, node) := alloc h (.interior maxMask sp.var sp.exp none none)
      let (h, root) ← link h root parent isEqualOrLess node
      resetLoop c bits h root sp.le (some node) true ((sp.gt, node) :: todo)
partial_fixpoint

/-- `isInterior` (src/mathic/BinaryKDTree.h:63). -/
def isInterior : BNode T → Bool
  | .leaf _ => false
  | .interior .. => true

/-- The loop that records the interior nodes (src/mathic/BinaryKDTree.h:404-410). -/
def record (h : Heap (BNode T)) (nodes : List Addr) (i : ℕ) : Option (List Addr) :=
  match nodes[i]? with
  | none => some nodes
  | some a => do
    let n ← get h a
    match n with
    | .leaf _ => none
    | .interior _ _ _ le gt => do
      let l ← le
      let nl ← get h l
      let g ← gt
      let ng ← get h g
      record h (nodes ++ (if isInterior nl then [l] else []) ++ (if isInterior ng then [g] else [])) (i + 1)
partial_fixpoint

/-- `updateToLowerBound(Node&)` (src/mathic/BinaryKDTree.h:133-142), only called with tree masks. -/
def update (h : Heap (BNode T)) (a : Addr) (child : Bool) : Option (Heap (BNode T)) := do
  let n ← get h a
  match n with
  | .leaf _ => none
  | .interior mask var exp le gt => do
    let b ← if child then gt else le
    let nb ← get h b
    put h a (.interior (combineAnd mask (match nb with | .leaf r => r.mask | .interior m _ _ _ _ => m)) var exp le gt)

/-- The loop that computes the masks (src/mathic/BinaryKDTree.h:414-418), the nodes in the order of the loop. -/
def masks (h : Heap (BNode T)) : List Addr → Option (Heap (BNode T))
  | [] => some h
  | a :: l => do
    let h ← update h a false
    let h ← update h a true
    masks h l

/-- `reset` (src/mathic/BinaryKDTree.h:329-421). -/
def reset (c : Conf T) (bits : Bits) (t : MTree (BNode T)) (l : List T) : Option (Bool × MTree (BNode T)) := do
  let t ← clear c t
  if l = [] then some (false, t) else do
    let (threw, h, root) ← resetLoop c bits t.heap none l none false []
    if threw then some (true, ⟨h, root, []⟩)
    else if c.useTreeDivMask then do
      let a ← root
      let n ← get h a
      let nodes ← record h (if isInterior n then [a] else []) 0
      let h ← masks h nodes.reverse
      some (false, ⟨h, root, []⟩)
    else some (false, ⟨h, root, []⟩)

/-- The functions of `BinaryKDTree`. -/
def impl : Impl T (BNode T) where
  slots := slots
  getArr := getArr
  putArr := putArr
  expand := expand
  post _ _ _ _ tmp := some tmp
  insert := insert
  clear := clear
  reset := reset
  removeElement _ _ _ := none

end Binary

/-! ## `PackedKDTree` -/

/-- A `Child` (src/mathic/PackedKDTree.h:62-66). Its members are set one after the other, `none` is not set. Without tree
masks there is no mask. -/
structure Child where
  mask : Option Mask
  var : Option ℕ
  exp : Option ℤ
  node : Option Addr

/-- A `Node` (src/mathic/PackedKDTree.h:35-114): the entries, the memory for children (`sizeOf`, :56-60: at least one) and
`_childrenEnd - childBegin()`. -/
structure PNode (T : Type) where
  arr : RArr T
  children : List Child
  count : ℕ

namespace Packed

/-- `makeNode` (src/mathic/PackedKDTree.h:37-54, 184-213). -/
def make (r : RArr T) (childCount : ℕ) : PNode T := ⟨r, List.replicate (max 1 childCount) ⟨none, none, none, none⟩, childCount⟩

/-- `entries()`. -/
def getArr (h : Heap (PNode T)) (a : Addr) : Option (RArr T) := (get h a).map PNode.arr

/-- Write the entries of a node. -/
def putArr (h : Heap (PNode T)) (a : Addr) (r : RArr T) : Option (Heap (PNode T)) := do
  let n ← get h a
  put h a { n with arr := r }

/-- The children from `childBegin()` to `childEnd()`. -/
def kids (n : PNode T) : Option (List Child) :=
  if n.count ≤ n.children.length then some (n.children.take n.count) else none

/-- `*(node->childBegin() + i)`. -/
def getChild (h : Heap (PNode T)) (p : Addr × ℕ) : Option Child := do
  let n ← get h p.1
  n.children[p.2]?

/-- Write a child. -/
def putChild (h : Heap (PNode T)) (p : Addr × ℕ) (k : Child) : Option (Heap (PNode T)) := do
  let n ← get h p.1
  if p.2 < n.children.length then put h p.1 { n with children := n.children.set p.2 k } else none

/-- `child->updateToLowerBound(...)` (src/mathic/DivMask.h:370-372, 391). -/
def lowerChild (c : Conf T) (k : Child) (x : Mask) : Option Child :=
  if c.useTreeDivMask then do
    let m ← k.mask
    some { k with mask := some (combineAnd m x) }
  else some k

/-- `inChild` (src/mathic/PackedKDTree.h:75-78). -/
def inKid (c : Conf T) (k : Child) (m : T) : Option Bool := do
  let e ← k.exp
  let v ← k.var
  some (inChild c v e m)

/-- The loop over children in `findDivisor` and `findAllDivisors` (src/mathic/PackedKDTree.h:405-412, 447-454): whether it
reaches the end. -/
def scanDivisors (c : Conf T) (m : Ext T) : List Child → List Addr → Option (Bool × List Addr)
  | [], tmp => some (true, tmp)
  | k :: ks, tmp => do
    let rejected ← if c.useTreeDivMask then k.mask.map (fun x => !canDivide x m.mask) else some false
    if rejected then some (false, tmp) else do
      let b ← inKid c k m.t
      if b then do
        let n ← k.node
        scanDivisors c m ks (n :: tmp)
      else scanDivisors c m ks tmp

/-- The loop over children in `removeMultiples` and `findAllMultiples` (src/mathic/PackedKDTree.h:227-232, 479-484). -/
def scanMultiples (c : Conf T) (m : Ext T) : List Child → List Addr → Option (Bool × List Addr)
  | [], tmp => some (true, tmp)
  | k :: ks, tmp => do
    let n ← k.node
    let b ← inKid c k m.t
    if b then some (false, n :: tmp) else scanMultiples c m ks (n :: tmp)

/-- The loop over children in `forAll` and `clear` (src/mathic/PackedKDTree.h:510-512, 531-533). -/
def scanAll : List Child → List Addr → Option (List Addr)
  | [], tmp => some tmp
  | k :: ks, tmp => do
    let n ← k.node
    scanAll ks (n :: tmp)

/-- One round of a search up to the entries. -/
def expand (c : Conf T) (k : Kind T) (h : Heap (PNode T)) (node : Addr) (tmp : List Addr) :
    Option (Option Addr × List Addr) := do
  let n ← get h node
  let ks ← kids n
  match k with
  | .divisors m => (scanDivisors c m ks tmp).map (fun r => (if r.1 then some node else none, r.2))
  | .multiples m => (scanMultiples c m ks tmp).map (fun r => (if r.1 then some node else none, r.2))
  | .all => some (some node, tmp)

/-- What a round of a search does after the entries (src/mathic/PackedKDTree.h:510-512). -/
def post (_ : Conf T) (k : Kind T) (h : Heap (PNode T)) (node : Addr) (tmp : List Addr) : Option (List Addr) :=
  match k with
  | .all => do
    let n ← get h node
    let ks ← kids n
    scanAll ks tmp
  | _ => some tmp

/-- The walk of `removeElement` (src/mathic/PackedKDTree.h:250-259): `i` is the position of `child`. -/
def elementWalk (c : Conf T) (m : T) (h : Heap (PNode T)) (node : Addr) (i : ℕ) : Option Addr := do
  let n ← get h node
  if i = n.count then some node else do
    let k ← n.children[i]?
    let b ← inKid c k m
    if b then do
      let a ← k.node
      elementWalk c m h a 0
    else elementWalk c m h node (i + 1)
partial_fixpoint

/-- `removeElement` (src/mathic/PackedKDTree.h:245-263). -/
def removeElement (c : Conf T) (t : MTree (PNode T)) (m : T) : Option (Bool × MTree (PNode T)) :=
  match t.root with
  | none => some (false, t)
  | some a => do
    let a ← elementWalk c m t.heap a 0
    let r ← getArr t.heap a
    let (b, r) ← r.removeElement c m
    let h ← putArr t.heap a r
    some (b, { t with heap := h })

/-- The walk of `insert` (src/mathic/PackedKDTree.h:272-294): the node, and the child that leads to it. -/
def insertWalk (c : Conf T) (x : Ext T) (h : Heap (PNode T)) (node : Addr) (i : ℕ) (parent : Option (Addr × ℕ)) :
    Option (Heap (PNode T) × Addr × Option (Addr × ℕ)) := do
  let n ← get h node
  if i = n.count then some (h, node, parent) else do
    let k ← getChild h (node, i)
    let k ← lowerChild c k x.mask
    let h ← putChild h (node, i) k
    let b ← inKid c k x.t
    if b then do
      let a ← k.node
      insertWalk c x h a 0 (some (node, i))
    else insertWalk c x h node (i + 1) parent
partial_fixpoint

/-- The variable that `splitInsert` starts from (src/mathic/PackedKDTree.h:680-686). -/
def hint (h : Heap (PNode T)) (n : PNode T) (parent : Option (Addr × ℕ)) : Option (Option ℕ) :=
  if n.count ≠ 0 then do
    let k ← n.children[n.count - 1]?
    let v ← k.var
    some (some v)
  else
    match parent with
    | none => some none
    | some p => do
      let k ← getChild h p
      let v ← k.var
      some (some v)

/-- `childFromParent->node = node` if there is one (src/mathic/PackedKDTree.h:347-348, 706-707). -/
def relink (h : Heap (PNode T)) (parent : Option (Addr × ℕ)) (node : Addr) : Option (Heap (PNode T)) :=
  match parent with
  | none => some h
  | some p => do
    let k ← getChild h p
    putChild h p { k with node := some node }

/-- `splitInsert` (src/mathic/PackedKDTree.h:671-735): the new node `copied`; the inner `none` is the exception of `split`. -/
def splitInsert (c : Conf T) (x : Ext T) (h : Heap (PNode T)) (this : Addr) (parent : Option (Addr × ℕ)) :
    Option (Option (Heap (PNode T) × Addr)) := do
  let n ← get h this
  let var ← hint h n parent
  let l ← n.arr.view
  match split c Ext.t l (some x) var with
  | none => none
  | some none => some none
  | some (some sp) => do
    let r ← n.arr.permute (sp.le ++ sp.gt)
    let copied ← RArr.ofRange c sp.le
    let ks ← kids n
    let mask := if c.useTreeDivMask then some (combineAnd (combineAnd maxMask r.mask) x.mask) else none
    let (h, cp) := alloc h ⟨copied, ks ++ [⟨mask, some sp.var, some sp.exp, some this⟩], n.count + 1⟩
    let h ← relink h parent cp
    -- `std::copy(middle, end, begin)` copies onto itself if `middle` is `begin`
    if c.selfCopyUndefined && sp.le.isEmpty then none else do
      let s ← shiftDown r.slots 0 sp.le.length sp.gt.length
      let r ← RArr.popWhile { r with slots := s } sp.gt.length
      let r ← r.sort c
      let r ← r.recalculate c
      let h ← put h this ⟨r, n.children, 0⟩
      let into := if inChild c sp.var sp.exp x.t then this else cp
      let r ← getArr h into
      let r ← r.insert c x
      let h ← putArr h into r
      some (some (h, cp))

/-- `insert` (src/mathic/PackedKDTree.h:265-296). -/
def insert (c : Conf T) (t : MTree (PNode T)) (x : Ext T) : Option (Bool × MTree (PNode T)) := do
  let (h, root) := match t.root with
    | some a => (t.heap, a)
    | none => alloc t.heap (make (RArr.new c) 0)
  let (h, node, parent) ← insertWalk c x h root 0 none
  let r ← getArr h node
  if r.len < c.leafSize then do
    let r ← r.insert c x
    let h ← putArr h node r
    some (false, ⟨h, some root, t.tmp⟩)
  else do
    let res ← splitInsert c x h node parent
    match res with
    | none => some (true, ⟨h, some root, t.tmp⟩)
    | some (h, a) => some (false, ⟨h, if parent = none then some a else some root, t.tmp⟩)

/-- The loop of `clear` (src/mathic/PackedKDTree.h:527-534). -/
def clearLoop (h : Heap (PNode T)) (tmp : List Addr) : Option (Heap (PNode T)) :=
  match tmp with
  | [] => some h
  | a :: tmp => do
    let n ← get h a
    let r ← n.arr.popWhile 0
    let h ← putArr h a r
    let ks ← kids n
    let tmp ← scanAll ks tmp
    clearLoop h tmp
partial_fixpoint

/-- The memory for entries of a node. -/
def slots (n : PNode T) : Slots T := n.arr.slots

/-- `clear` (src/mathic/PackedKDTree.h:521-537), which is all that the destructor does (:179-182). -/
def clear (_ : Conf T) (t : MTree (PNode T)) : Option (MTree (PNode T)) := do
  let h ← clearLoop t.heap (t.root.toList ++ t.tmp)
  let h ← freeAll slots h
  some ⟨h, none, []⟩

/-- The loop of `reset` that splits off children (src/mathic/PackedKDTree.h:330-342): what is left of the range, and range,
variable and exponent of the children. The inner `none` is the exception of `split`. -/
def splitOff (c : Conf T) (l : List T) (var : Option ℕ) (children : List (List T × ℕ × ℤ)) :
    Option (Option (List T × List (List T × ℕ × ℤ))) :=
  if l.length ≤ c.leafSize then some (some (l, children))
  else
    match split c id l none var with
    | none => none
    | some none => some none
    | some (some sp) => splitOff c sp.le (some sp.var) (children ++ [(sp.gt, sp.var, sp.exp)])
partial_fixpoint

/-- An `InsertTodo` (src/mathic/PackedKDTree.h:157-164); `child` is `var`, `exp` and `fromParent` of a task that is not the
first. -/
structure Task (T : Type) where
  l : List T
  child : Option (ℕ × ℤ × (Addr × ℕ))

/-- `fromParent->var = var; fromParent->exponent = exp` (src/mathic/PackedKDTree.h:323-326). -/
def setSplit (h : Heap (PNode T)) : Option (ℕ × ℤ × (Addr × ℕ)) → Option (Heap (PNode T))
  | none => some h
  | some (var, exp, p) => do
    let k ← getChild h p
    putChild h p { k with var := some var, exp := some exp }

/-- The tasks for the children of a node (src/mathic/PackedKDTree.h:349-352), from position `i` on. -/
def tasks (node : Addr) (i : ℕ) : List (List T × ℕ × ℤ) → List (Task T)
  | [] => []
  | (l, var, exp) :: rest => ⟨l, some (var, exp, (node, i))⟩ :: tasks node (i + 1) rest

/-- The loop of `reset` that makes the nodes (src/mathic/PackedKDTree.h:318-354). The top of `todo` comes first. -/
def resetLoop (c : Conf T) (bits : Bits) (h : Heap (PNode T)) (root : Option Addr) (todo : List (Task T)) :
    Option (Bool × Heap (PNode T) × Option Addr) :=
  match todo with
  | [] => some (false, h, root)
  | task :: todo => do
    let h ← setSplit h task.child
    let res ← splitOff c task.l (task.child.map (·.1)) []
    match res with
    | none => some (true, h, root)
    | some (l, children) => do
      let r ← RArr.ofRange c (l.map (Ext.make c.dm bits))
      let (h, node) := alloc h (make r children.length)
      let h ← relink h (task.child.map (·.2.2)) node
      resetLoop c bits h (root <|> some node) ((tasks node 0 children).reverse ++ todo)
partial_fixpoint

/-- The pointers `child->node` of the children of a node. -/
def nodesOf : List Child → Option (List Addr)
  | [] => some []
  | k :: ks => do
    let a ← k.node
    let l ← nodesOf ks
    some (a :: l)

/-- The loop that records the nodes (src/mathic/PackedKDTree.h:361-367). -/
def record (h : Heap (PNode T)) (nodes : List Addr) (i : ℕ) : Option (List Addr) :=
  match nodes[i]? with
  | none => some nodes
  | some a => do
    let n ← get h a
    let ks ← kids n
    let l ← nodesOf ks
    record h (nodes ++ l) (i + 1)
partial_fixpoint

/-- The mask that a child takes over from the node it leads to (src/mathic/PackedKDTree.h:385-388). -/
def nodeMask (h : Heap (PNode T)) (a : Addr) : Option Mask := do
  let n ← get h a
  let ks ← kids n
  match ks with
  | [] => some n.arr.mask
  | k :: _ => k.mask

/-- The loop over the children of a node in reverse order (src/mathic/PackedKDTree.h:373-389), `n` more of them; `prev` is
the mask of the entries or of the child after. Only called with tree masks. -/
def kidMasks (h : Heap (PNode T)) (a : Addr) (prev : Mask) : ℕ → Option (Heap (PNode T))
  | 0 => some h
  | i + 1 => do
    let k ← getChild h (a, i)
    let n ← k.node
    let x ← nodeMask h n
    let mask := combineAnd (combineAnd maxMask prev) x
    let h ← putChild h (a, i) { k with mask := some mask }
    kidMasks h a mask i

/-- The loop that computes the masks (src/mathic/PackedKDTree.h:369-391), the nodes in the order of the loop. -/
def masks (h : Heap (PNode T)) : List Addr → Option (Heap (PNode T))
  | [] => some h
  | a :: l => do
    let n ← get h a
    let h ← kidMasks h a n.arr.mask n.count
    masks h l

/-- `reset` (src/mathic/PackedKDTree.h:298-394). -/
def reset (c : Conf T) (bits : Bits) (t : MTree (PNode T)) (l : List T) : Option (Bool × MTree (PNode T)) := do
  let t ← clear c t
  if l = [] then some (false, t) else do
    let (threw, h, root) ← resetLoop c bits t.heap none [⟨l, none⟩]
    if threw then some (true, ⟨h, root, []⟩)
    else if c.useTreeDivMask then do
      let a ← root
      let nodes ← record h [a] 0
      let h ← masks h nodes.reverse
      some (false, ⟨h, root, []⟩)
    else some (false, ⟨h, root, []⟩)

/-- The functions of `PackedKDTree`. -/
def impl : Impl T (PNode T) where
  slots := slots
  getArr := getArr
  putArr := putArr
  expand := expand
  post := post
  insert := insert
  clear := clear
  reset := reset
  removeElement := removeElement

end Packed

/-! ## Searches -/

variable {N : Type}

/-- The loop of all searches (src/mathic/BinaryKDTree.h:267-281, 432-460, 472-496, 507-528, 539-555,
src/mathic/PackedKDTree.h:225-239, 402-431, 445-464, 477-494, 503-517). `act` looks at the entries of a node; on `stop` the
code clears `_tmp`, an exception leaves it as it is. -/
def loop {σ : Type} (I : Impl T N) (c : Conf T) (k : Kind T) (act : Addr → Heap N × σ → Option ((Heap N × σ) × Flow))
    (s : Heap N × σ) (node : Addr) (tmp : List Addr) : Option ((Heap N × σ) × Flow × List Addr) := do
  let (look, tmp) ← I.expand c k s.1 node tmp
  match look with
  | none =>
    match tmp with
    | [] => some (s, .go, [])
    | a :: tmp => loop I c k act s a tmp
  | some a => do
    let (s, flow) ← act a s
    match flow with
    | .stop => some (s, .stop, [])
    | .threw => some (s, .threw, tmp)
    | .go => do
      let tmp ← I.post c k s.1 node tmp
      match tmp with
      | [] => some (s, .go, [])
      | a :: tmp => loop I c k act s a tmp
partial_fixpoint

/-- A pointer to an entry: the node and its position there. -/
abbrev Ptr := Addr × ℕ

/-- Read through a pointer to an entry. -/
def deref (I : Impl T N) (t : MTree N) (p : Ptr) : Option T := do
  let r ← I.getArr t.heap p.1
  let e ← read r.slots p.2
  some e.t

/-- What `findDivisor` does with the entries of a node (src/mathic/BinaryKDTree.h:447-453, src/mathic/PackedKDTree.h:414-422). -/
def actDivisor (I : Impl T N) (c : Conf T) (m : Ext T) (a : Addr) (s : Heap N × Option Ptr) :
    Option ((Heap N × Option Ptr) × Flow) := do
  let r ← I.getArr s.1 a
  let x ← r.arr
  let i ← x.findDivisor c m
  match i with
  | none => some ((s.1, none), .go)
  | some i => some ((s.1, some (a, i)), .stop)

/-- `findDivisor` (src/mathic/BinaryKDTree.h:423-463, src/mathic/PackedKDTree.h:396-434). -/
def findDivisor (I : Impl T N) (c : Conf T) (t : MTree N) (m : Ext T) : Option (Option Ptr × MTree N) :=
  match t.root with
  | none => some (none, t)
  | some a => do
    let (s, _, tmp) ← loop I c (.divisors m) (actDivisor I c m) (t.heap, none) a t.tmp
    some (s.2, ⟨s.1, t.root, tmp⟩)

/-- What the enumerations do with the entries of a node. -/
def actVisit (I : Impl T N) (f : List T → Arr T → Option (List T × Flow)) (a : Addr) (s : Heap N × List T) :
    Option ((Heap N × List T) × Flow) := do
  let r ← I.getArr s.1 a
  let x ← r.arr
  let (got, flow) ← f s.2 x
  some ((s.1, got), flow)

/-- An enumeration. -/
def enumerate (I : Impl T N) (c : Conf T) (t : MTree N) (k : Kind T) (f : List T → Arr T → Option (List T × Flow)) :
    Option (List T × Flow × MTree N) :=
  match t.root with
  | none => some ([], .go, t)
  | some a => do
    let (s, flow, tmp) ← loop I c k (actVisit I f) (t.heap, []) a t.tmp
    some (s.2, flow, ⟨s.1, t.root, tmp⟩)

/-- What `removeMultiples` does with the entries of a node (src/mathic/BinaryKDTree.h:276, src/mathic/PackedKDTree.h:232). -/
def actRemove (I : Impl T N) (c : Conf T) (m : Ext T) (a : Addr) (s : Heap N × List T × ℕ) :
    Option ((Heap N × List T × ℕ) × Flow) := do
  let r ← I.getArr s.1 a
  let (r, out, n) ← r.removeMultiples c m
  let h ← I.putArr s.1 a r
  some ((h, s.2.1 ++ out, s.2.2 + n), .go)

/-- `removeMultiples` (src/mathic/BinaryKDTree.h:259-285, src/mathic/PackedKDTree.h:213-243). -/
def removeMultiples (I : Impl T N) (c : Conf T) (t : MTree N) (m : Ext T) : Option (List T × ℕ × MTree N) :=
  match t.root with
  | none => some ([], 0, t)
  | some a => do
    let (s, _, tmp) ← loop I c (.multiples m) (actRemove I c m) (t.heap, [], 0) a t.tmp
    some (s.2.1, s.2.2, ⟨s.1, t.root, tmp⟩)

/-! ## `KDTree` -/

/-- The members of `KDTree` (src/mathic/KDTree.h:296-303). -/
structure State (N : Type) where
  tree : MTree N
  bits : Bits
  changes : ℕ
  cache : Option Ptr
  size : ℕ

/-- The result of a call: the value and the new state; an exception of `split` in `reset`, which leaves a half built tree;
undefined. -/
inductive Res (N α : Type) where
  | ok (a : α)
  | broken (t : MTree N)
  | ub

/-- `resetNumberOfChangesTillRebuild` (src/mathic/KDTree.h:328-339). -/
def resetChanges (c : Conf T) (s : State N) : State N :=
  let s := if c.useDivisorCache then { s with cache := none } else s
  if !c.doAutomaticRebuilds then s
  else { s with changes := max (c.rebuildSize s.size) c.rebuildMin }

/-- The constructor (src/mathic/KDTree.h:62-69). -/
def init (c : Conf T) : Option (State N) :=
  (KDTree.calcInit c).map (fun bits => resetChanges c ⟨⟨[], none, []⟩, bits, 0, none, 0⟩)

/-- `rebuild` (src/mathic/KDTree.h:244-251). The recorder (:266-279) is an `ArenaVector`, which has the capacity that it is
given and no more; that class is not part of the repository. -/
def rebuild (I : Impl T N) (c : Conf T) (s : State N) : Res N (State N) :=
  match enumerate I c s.tree .all (fun got a => a.forAll c (fun _ => .go) got) with
  | none => .ub
  | some (l, _, t) =>
    if s.size < l.length then .ub
    else
      match KDTree.calcRebuild c l with
      | none => .ub
      | some bits =>
        match I.reset c bits t l with
        | none => .ub
        | some (true, t) => .broken t
        | some (false, t) => .ok (resetChanges c { s with tree := t, bits := bits })

/-- `reportChanges` with `reportChangesRebuild` (src/mathic/KDTree.h:341-363). -/
def reportChanges (I : Impl T N) (c : Conf T) (s : State N) (additions removals : ℕ) : Res N (State N) :=
  let s := if c.useDivisorCache && (additions + removals != 0) then { s with cache := none } else s
  let s := { s with size := s.size + additions - removals }
  if !c.doAutomaticRebuilds then .ok s
  else if s.changes > additions + removals then .ok { s with changes := s.changes - (additions + removals) }
  else rebuild I c s

/-- Attach a value to a state. -/
def Res.with {α β : Type} (r : Res N α) (b : β) : Res N (β × α) :=
  match r with
  | .ok a => .ok (b, a)
  | .broken t => .broken t
  | .ub => .ub

/-- `insert` (src/mathic/KDTree.h:140-144). -/
def insert (I : Impl T N) (c : Conf T) (s : State N) (e : T) : Res N (Ret T × State N) :=
  match I.insert c s.tree (Ext.make c.dm s.bits e) with
  | none => .ub
  | some (true, t) => .ok (.threw, { s with tree := t })
  | some (false, t) => (reportChanges I c { s with tree := t } 1 0).with .unit

/-- `removeMultiples` (src/mathic/KDTree.h:97-117). -/
def remove (I : Impl T N) (c : Conf T) (s : State N) (m : T) : Res N (Ret T × State N) :=
  if !c.allowRemovals then .ok (.threw, s)
  else
    match removeMultiples I c s.tree (Ext.make c.dm s.bits m) with
    | none => .ub
    | some (out, n, t) => (reportChanges I c { s with tree := t } 0 n).with (.removed out (decide (n > 0)))

/-- `removeElement` (src/mathic/KDTree.h:171-176). -/
def removeElement (I : Impl T N) (c : Conf T) (s : State N) (m : T) : Res N (Ret T × State N) :=
  if !c.allowRemovals then .ok (.threw, s)
  else
    match I.removeElement c s.tree m with
    | none => .ub
    | some (b, t) => .ok (.flag b, { s with tree := t })

/-- The part of `findDivisor` after the cache (src/mathic/KDTree.h:188-192), and the entry that the caller finds at the
pointer returned. -/
def findDivisorTree (I : Impl T N) (c : Conf T) (s : State N) (m : T) : Res N (Ret T × State N) :=
  match findDivisor I c s.tree (Ext.make c.dm s.bits m) with
  | none => .ub
  | some (none, t) => .ok (.entry none, { s with tree := t })
  | some (some p, t) =>
    match deref I t p with
    | none => .ub
    | some e => .ok (.entry (some e), { s with tree := t, cache := if c.useDivisorCache then some p else s.cache })

/-- `findDivisor` (src/mathic/KDTree.h:180-193). -/
def find (I : Impl T N) (c : Conf T) (s : State N) (m : T) : Res N (Ret T × State N) :=
  match c.useDivisorCache, s.cache with
  | true, some p =>
    match deref I s.tree p with
    | none => .ub
    | some e => if c.dm.divides e m then .ok (.entry (some e), s) else findDivisorTree I c s m
  | _, _ => findDivisorTree I c s m

/-- The result of an enumeration as the result of a call. -/
def gotRes (s : State N) : Option (List T × Flow × MTree N) → Res N (Ret T × State N)
  | none => .ub
  | some (l, flow, t) => .ok (.got l (decide (flow = .threw)), { s with tree := t })

/-- One call. -/
def step (I : Impl T N) (c : Conf T) (s : State N) : Op T → Res N (Ret T × State N)
  | .insert e => insert I c s e
  | .removeMultiples m => remove I c s m
  | .removeElement m => removeElement I c s m
  | .findDivisor m => find I c s m
  | .findAllDivisors m p =>
    gotRes s (enumerate I c s.tree (.divisors (Ext.make c.dm s.bits m))
      (fun got a => a.findAllDivisors c (Ext.make c.dm s.bits m) p got))
  | .findAllMultiples m p =>
    gotRes s (enumerate I c s.tree (.multiples (Ext.make c.dm s.bits m))
      (fun got a => a.findAllMultiples c (Ext.make c.dm s.bits m) p got))
  | .forAll p => gotRes s (enumerate I c s.tree .all (fun got a => a.forAll c p got))
  | .rebuild => (rebuild I c s).with .unit
  | .size => .ok (.num s.size, s)

/-- A history of calls. -/
def run (I : Impl T N) (c : Conf T) (s : State N) : List (Op T) → Res N (List (Ret T) × State N)
  | [] => .ok ([], s)
  | op :: ops =>
    match step I c s op with
    | .ub => .ub
    | .broken t => .broken t
    | .ok (r, s') =>
      match run I c s' ops with
      | .ub => .ub
      | .broken t => .broken t
      | .ok (rs, s'') => .ok (r :: rs, s'')

end Verif.KDMem
