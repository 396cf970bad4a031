import Verif.Assert
import Verif.ComTree
import Verif.Heap
import Verif.TourTree

/-!
# Debug builds of `ComTree`, `Heap` and `TourTree`

The same functions as in the models of release builds, with `MATHIC_ASSERT` and `MATHIC_SLOW_ASSERT` in
their places. The parts of a function between two assertions are those of the release models.
-/

namespace Verif

open Dbg

/-! ## `ComTree` -/

namespace ComTree

variable {E : Type}

/-- `isValid` (src/mathic/ComTree.h:287-307). That `_array` is `_arrayKeepAlive - 1` (line 292) is
built into the representation, as the model has only the allocation. -/
def isValid (c : NodeConf) (t : Tree E) : Dbg Unit := do
  assert (!c.fi || c.S &&& (c.S - 1) == 0)
  if t.capEnd = 0 then do
    assert t.arr.isEmpty
    assert (t.capEnd == 0)
    assert (t.last == 0)
  else do
    assert (!t.arr.isEmpty)
    assert (decide (t.capEnd > 0))
    assert (decide (t.last ≤ t.capEnd))

/-- The assertion of `operator[]` (src/mathic/ComTree.h:192): with `FastIndex` the byte offset is that
of the cell with the number `_index / sizeof(E)`. -/
def elementValid (c : NodeConf) (x : Node) : Bool := !c.fi || x == x / c.S * c.S

/-- The constructor (src/mathic/ComTree.h:139-151). -/
def mkD (c : NodeConf) (n : ℕ) : Dbg (Tree E) := do
  isValid c (mk n : Tree E)
  ok (mk n)

/-- The destructor (src/mathic/ComTree.h:37-40). -/
def destroyD (c : NodeConf) (t : Tree E) : Dbg Unit := isValid c t

/-- `pushBackWithCapacity` (src/mathic/ComTree.h:209-214). -/
def pushBackWithCapacityD (t : Tree E) (a : E) : Dbg (Tree E) := do
  assert (t.last != t.capEnd)
  lift (pushBackWithCapacity t a)

/-- `popBack` (src/mathic/ComTree.h:216-220); the assertion is `_lastLeaf >= Node()`. -/
def popBackD (t : Tree E) : Dbg (Tree E) := do
  assert (decide (t.last ≥ 1))
  lift (popBack t)

/-- `increaseCapacity` (src/mathic/ComTree.h:315-326). In the end the local tree is destroyed, with the
old array and the old capacity but its own `_lastLeaf`. -/
def increaseCapacityD (c : NodeConf) (t : Tree E) : Dbg (Tree E) := do
  isValid c t
  let n ← mkD c (if t.capEnd = 0 then 16 else t.capEnd * 2)
  let n ← lift (copyLoop t n 1 t.last)
  isValid c n
  isValid c { t with arr := n.arr, capEnd := n.capEnd }
  destroyD c { n with arr := t.arr, capEnd := t.capEnd }
  ok { t with arr := n.arr, capEnd := n.capEnd }

/-- `pushBack` (src/mathic/ComTree.h:201-207). -/
def pushBackD (c : NodeConf) (t : Tree E) (a : E) : Dbg (Tree E) :=
  if t.last = t.capEnd then do
    let t ← increaseCapacityD c t
    lift (pushBackWithCapacity t a)
  else lift (pushBackWithCapacity t a)

/-- The copy constructor (src/mathic/ComTree.h:153-170). -/
def copyD (c : NodeConf) (t : Tree E) (minCapacity : ℕ) : Dbg (Tree E) := do
  let t' ← lift (copy t minCapacity)
  isValid c t'
  ok t'

/-- `swap` (src/mathic/ComTree.h:222-234). -/
def swapD (c : NodeConf) (t u : Tree E) : Dbg (Tree E × Tree E) := do
  isValid c t
  isValid c u
  isValid c u
  isValid c t
  ok (u, t)

/-- One call. -/
def stepD (c : NodeConf) (t : Tree E) : Op E → Dbg (Tree E)
  | .pushBack a => pushBackD c t a
  | .popBack => popBackD t
  | .write i a => lift (t.put i a)
  | .increaseCapacity => increaseCapacityD c t
  | .clear => ok (clear t)

/-- A history of calls. -/
def runD (c : NodeConf) (t : Tree E) : List (Op E) → Dbg (Tree E)
  | [] => ok t
  | op :: ops => do
    let t ← stepD c t op
    runD c t ops

end ComTree

/-! ## `Heap` -/

namespace Heap

variable {E : Type}

/-- The loop of `isValid` (src/mathic/Heap.h:200-202) for the nodes from `i` on, `n` of them. -/
def isValidLoop (c : PQConf E) (t : List E) (i : ℕ) : ℕ → Dbg Unit
  | 0 => ok ()
  | n + 1 =>
    match rd t (i / 2), rd t i with
    | some a, some b => do
      assert (!c.lt a b)
      isValidLoop c t (i + 1) n
    | _, _ => ub

/-- `isValid` (src/mathic/Heap.h:194-205). Simplified: `_tree.isValid()` is left out as the tree is
modelled as a list, see `ComTree.isValid`. -/
def isValid (c : PQConf E) (t : List E) : Dbg Unit := isValidLoop c t 2 (t.length - 1)

/-- `moveValueUp` (src/mathic/Heap.h:161-192): each of its two ends asserts `isValid()`. That
`popBack` asserts a tree that is not empty is in `mergeUp`, which reads the last leaf before. -/
def moveValueUpD (c : PQConf E) (t : List E) (pos : ℕ) (value : E) : Dbg (List E) :=
  match moveValueUp c t pos value with
  | none => ub
  | some t' =>
    match isValid c t' with
    | ok _ => ok t'
    | failed => failed
    | ub => ub

/-- `if x is ok, assert isValid()`. -/
def thenValid (c : PQConf E) : Dbg (List E) → Dbg (List E)
  | ok t =>
    match isValid c t with
    | ok _ => ok t
    | failed => failed
    | ub => ub
  | failed => failed
  | ub => ub

/-- `push` (src/mathic/Heap.h:97-102). -/
def pushD (c : PQConf E) (t : List E) (e : E) : Dbg (List E) :=
  thenValid c (moveValueUpD c (t ++ [e]) (t.length + 1) e)

/-- `push` of a range (src/mathic/Heap.h:104-109). -/
def pushRangeD (c : PQConf E) (t : List E) : List E → Dbg (List E)
  | [] => ok t
  | e :: es => do
    let t ← pushD c t e
    pushRangeD c t es

/-- `decreaseTop` (src/mathic/Heap.h:111-115). -/
def decreaseTopD (c : PQConf E) (t : List E) (e : E) : Dbg (List E) :=
  match moveHoleDown c t 1 with
  | none => ub
  | some (t', hole) => thenValid c (moveValueUpD c t' hole e)

/-- `clear` (src/mathic/Heap.h:117-122). -/
def clearD (c : PQConf E) (t : List E) : Dbg (List E) := do
  let t ← thenValid c (ok t)
  thenValid c (ok (clear t))

/-- `pop` (src/mathic/Heap.h:124-133). The assertion in line 132 comes after the `return`. The one of
`popBack` is that of a tree that is not empty, which the reads before need as well. -/
def popD (c : PQConf E) (t : List E) : Dbg (E × List E) :=
  match rd t 1, rd t t.length with
  | some top, some moved =>
    if t.dropLast.isEmpty then ok (top, t.dropLast)
    else
      match moveHoleDown c t.dropLast 1 with
      | none => ub
      | some (t₂, hole) => do
        let t₃ ← moveValueUpD c t₂ hole moved
        ok (top, t₃)
  | _, _ => ub

/-- One call. -/
def stepD (c : PQConf E) (t : List E) : PQOp E → Dbg (Option E × List E)
  | .push e => do let t ← pushD c t e; ok (none, t)
  | .pushRange l => do let t ← pushRangeD c t l; ok (none, t)
  | .top => do let x ← lift (top t); ok (some x, t)
  | .pop => do let (x, t) ← popD c t; ok (some x, t)
  | .decreaseTop e => do let t ← decreaseTopD c t e; ok (none, t)
  | .clear => do let t ← clearD c t; ok (none, t)

/-- A history of calls: what they return and the tree in the end. -/
def runD (c : PQConf E) (t : List E) : List (PQOp E) → Dbg (List (Option E) × List E)
  | [] => ok ([], t)
  | op :: ops => do
    let (o, t) ← stepD c t op
    let (os, t) ← runD c t ops
    ok (o :: os, t)

end Heap

/-! ## `TourTree` -/

namespace TourTree

variable {E : Type}

/-- The first loop of `isValid` (src/mathic/TourTree.h:249-252). -/
def pointersValid (n : ℕ) : List ℕ → Dbg Unit
  | [] => ok ()
  | p :: l => do
    assert (decide (p < n))
    pointersValid n l

/-- The body of the second loop of `isValid` (src/mathic/TourTree.h:255-268). -/
def nodeValid (c : PQConf E) (s : State E) (pos : ℕ) : Dbg Unit := do
  let p ← lift (rd s.tree pos)
  if 2 * pos ≥ s.tree.length then do
    assert (decide (2 * pos + 1 > s.tree.length))
    let q ← lift (s.players[p]?.map Prod.snd)
    assert (q == pos)
  else do
    assert (decide (2 * pos + 1 ≤ s.tree.length))
    let l ← lift (rd s.tree (2 * pos))
    let r ← lift (rd s.tree (2 * pos + 1))
    assert (l != r)
    assert (p == l || p == r)
    let pe ← lift (s.players[p]?.map Prod.fst)
    let le ← lift (s.players[l]?.map Prod.fst)
    assert (!c.lt pe le)
    let re ← lift (s.players[r]?.map Prod.fst)
    assert (!c.lt pe re)

/-- The second loop of `isValid` (src/mathic/TourTree.h:254-269) for the nodes from `pos` on, `n` of
them. -/
def nodesValid (c : PQConf E) (s : State E) (pos : ℕ) : ℕ → Dbg Unit
  | 0 => ok ()
  | n + 1 => do
    nodeValid c s pos
    nodesValid c s (pos + 1) n

/-- `isValid` (src/mathic/TourTree.h:238-272). -/
def isValid (c : PQConf E) (s : State E) : Dbg Unit := do
  assert ((s.tree.isEmpty && s.players.isEmpty) || decide (s.cap + 1 ≤ 2 * s.pcap))
  assert ((s.tree.isEmpty && s.players.isEmpty) || s.tree.length + 1 == 2 * s.players.length)
  pointersValid s.players.length s.tree
  nodesValid c s 1 s.tree.length

/-- `reallocate` (src/mathic/TourTree.h:221-236); for the assertions of `increaseCapacity` see
`ComTree.increaseCapacityD`. -/
def reallocateD (c : PQConf E) (s : State E) : Dbg (State E) := do
  isValid c s
  isValid c (reallocate s)
  ok (reallocate s)

/-- The constructor (src/mathic/TourTree.h:95-98). -/
def initD (c : PQConf E) : Dbg (State E) := reallocateD c ⟨[], [], 0, 0⟩

/-- `_tree.pushBackWithCapacity(p)` (src/mathic/ComTree.h:209-214). -/
def treePushD (s : State E) (p : ℕ) : Dbg (State E) := do
  assert (s.tree.length != s.cap)
  lift (treePush s p)

/-- The loop of `push` (src/mathic/TourTree.h:131-141). -/
def pushLoopD (c : PQConf E) (players : List (E × ℕ)) (tree : List ℕ) (pos posParent : ℕ) :
    Dbg (List ℕ) :=
  if pos = 1 then failed
  else if posParent ≠ pos / 2 then failed
  else
    match hp : rd tree posParent with
    | none => ub
    | some q =>
      match rd tree pos with
      | none => ub
      | some p =>
        match players[q]?, players[p]? with
        | some qe, some pe =>
          if c.lt qe.1 pe.1 = false then ok tree
          else
            match wr tree posParent p with
            | none => ub
            | some tree' =>
              if posParent = 1 then ok tree'
              else pushLoopD c players tree' posParent (posParent / 2)
        | _, _ => ub
termination_by posParent
decreasing_by
  have := (rd_bounds hp).1
  omega

/-- `if (!_tree.hasFreeCapacity(2)) reallocate();` (src/mathic/TourTree.h:110-111). -/
def roomD (c : PQConf E) (s : State E) : Dbg (State E) :=
  if s.cap - s.tree.length ≥ 2 then ok s else reallocateD c s

/-- `push` of one entry (src/mathic/TourTree.h:107-143). -/
def pushD (c : PQConf E) (s : State E) (e : E) : Dbg (State E) := do
  isValid c s
  let s ← roomD c s
  if s.tree = [] then
    let s ← lift (playersPush s e 1)
    let s ← treePushD s (s.players.length - 1)
    isValid c s
    ok s
  else
    let moveDown ← lift (rd s.tree ((s.tree.length + 1) / 2))
    let s' ← treePushD s moveDown
    let ps ← lift (setLeaf s'.players moveDown s'.tree.length)
    assert (s'.tree.length % 2 == 0)
    let s' ← lift (playersPush { s' with players := ps } e (s'.tree.length + 1))
    let s' ← treePushD s' (s'.players.length - 1)
    assert (s'.tree.length % 2 == 1)
    let t ← pushLoopD c s'.players s'.tree s'.tree.length ((s.tree.length + 1) / 2)
    isValid c { s' with tree := t }
    ok { s' with tree := t }

/-- `push` of a range (src/mathic/TourTree.h:145-150). -/
def pushRangeD (c : PQConf E) (s : State E) : List E → Dbg (State E)
  | [] => ok s
  | e :: l => do
    let s ← pushD c s e
    pushRangeD c s l

/-- `decreaseTop` (src/mathic/TourTree.h:152-164). -/
def decreaseTopD (c : PQConf E) (s : State E) (e : E) : Dbg (State E) := do
  assert (!s.tree.isEmpty)
  let s ← lift (decreaseTop c s e)
  isValid c s
  ok s

/-- The part of `pop` that makes the last entry take the winner's place, up to the assertion
(src/mathic/TourTree.h:176-192): the players, the tree, the winner and `left`. -/
def popPrepareD (s : State E) : Dbg (List (E × ℕ) × List ℕ × ℕ × ℕ) := do
  let left ← lift (rd s.tree (s.tree.length - 1))
  let right ← lift (rd s.tree s.tree.length)
  let par ← lift (rd s.tree (s.tree.length / 2))
  let pt ← lift (promoteLeft s left right (s.tree.length / 2) par)
  let player ← lift (rd pt.2 1)
  let r ← lift (pt.1[right]?)
  let ps ← lift (setEntry pt.1 player r.1)
  assert (right + 1 == ps.length)
  ok (ps, pt.2, player, left)

/-- `pop` (src/mathic/TourTree.h:166-208). -/
def popD (c : PQConf E) (s : State E) : Dbg (E × State E) := do
  assert (!s.tree.isEmpty)
  let winner ← lift (rd s.tree 1)
  let top ← lift (s.players[winner]?)
  if s.tree.length = 1 then
    isValid c { s with tree := s.tree.dropLast, players := s.players.dropLast }
    ok (top.1, { s with tree := s.tree.dropLast, players := s.players.dropLast })
  else
    let r ← popPrepareD s
    let ps ← lift (setLeaf r.1.dropLast r.2.2.2 (s.tree.length / 2))
    assert (decide (r.2.1.length ≥ 1)) -- popBack
    assert (decide (r.2.1.dropLast.length ≥ 1)) -- popBack
    let q ← lift (ps[r.2.2.1]?)
    let t ← lift (replayLoop c ps r.2.1.dropLast.dropLast q.2 r.2.2.1)
    isValid c { s with tree := t, players := ps }
    ok (top.1, { s with tree := t, players := ps })

/-- `top` (src/mathic/TourTree.h:210-214). -/
def topD (s : State E) : Dbg E := do
  assert (!s.tree.isEmpty)
  lift (top s)

/-- `clear` (src/mathic/TourTree.h:81-87). -/
def clearD (c : PQConf E) (s : State E) : Dbg (State E) := do
  isValid c s
  isValid c (clear s)
  ok (clear s)

/-- One call. -/
def stepD (c : PQConf E) (s : State E) : PQOp E → Dbg (Option E × State E)
  | .push e => do let s ← pushD c s e; ok (none, s)
  | .pushRange l => do let s ← pushRangeD c s l; ok (none, s)
  | .top => do let x ← topD s; ok (some x, s)
  | .pop => do let r ← popD c s; ok (some r.1, r.2)
  | .decreaseTop e => do let s ← decreaseTopD c s e; ok (none, s)
  | .clear => do let s ← clearD c s; ok (none, s)

/-- A history of calls: what they return and the tree in the end. -/
def runFromD (c : PQConf E) (s : State E) : List (PQOp E) → Dbg (List (Option E) × State E)
  | [] => ok ([], s)
  | op :: ops => do
    let r ← stepD c s op
    let rs ← runFromD c r.2 ops
    ok (r.1 :: rs.1, rs.2)

/-- A history from the constructor on. -/
def runD (c : PQConf E) (ops : List (PQOp E)) : Dbg (List (Option E) × State E) := do
  let s ← initD c
  runFromD c s ops

end TourTree

end Verif
