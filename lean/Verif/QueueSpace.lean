import Verif.ComTree
import Verif.Heap
import Verif.TourTree
import Verif.GeoMem

/-!
# Model of the memory that the priority queues hold

`Heap.lean` has the entries of a heap as a list. Here the capacity of the `ComTree` that holds them is added, and
the number of entries that have been copied to larger arrays. `TourTree.State` has its capacities already, and
`GeoMem.State` has its memory.

Simplifications: sizes are unbounded. `std::vector::reserve(n)` gives a capacity of `n`, and a vector of size `n`
made by its constructor has capacity `n`, where the standard says at least `n`. Allocations do not fail.
-/

namespace Verif.Space

variable {E : Type}

/-- The capacity after `increaseCapacity` (src/mathic/ComTree.h:318). -/
def increased (cap : ℕ) : ℕ := if cap = 0 then 16 else cap * 2

/-- A heap with the capacity of its tree (src/mathic/Heap.h:71-78, src/mathic/ComTree.h:117-118) and the number of
entries copied by `increaseCapacity` so far. -/
structure HeapMem (E : Type) where
  t : List E
  cap : ℕ
  copied : ℕ

/-- `if (_lastLeaf == _capacityEnd) increaseCapacity();` (src/mathic/ComTree.h:203-204). -/
def makeRoom (s : HeapMem E) : HeapMem E :=
  if s.t.length = s.cap then { s with cap := increased s.cap, copied := s.copied + s.t.length } else s

/-- `Heap::push` (src/mathic/Heap.h:97-102). -/
def push (c : PQConf E) (s : HeapMem E) (e : E) : Option (HeapMem E) :=
  (Heap.push c (makeRoom s).t e).map (fun t => { makeRoom s with t := t })

/-- `Heap::push(It, It)` (src/mathic/Heap.h:104-109). -/
def pushRange (c : PQConf E) (s : HeapMem E) : List E → Option (HeapMem E)
  | [] => some s
  | e :: es =>
    match push c s e with
    | none => none
    | some s' => pushRange c s' es

/-- One call. Only `pushBack` asks for a larger array; `popBack` and `clear` keep the array
(src/mathic/ComTree.h:123-126, 216-220). -/
def step (c : PQConf E) (s : HeapMem E) : PQOp E → Option (Option E × HeapMem E)
  | .push e => (push c s e).map (none, ·)
  | .pushRange l => (pushRange c s l).map (none, ·)
  | .top => (Heap.top s.t).map (fun x => (some x, s))
  | .pop => (Heap.pop c s.t).map (fun r => (some r.1, { s with t := r.2 }))
  | .decreaseTop e => (Heap.decreaseTop c s.t e).map (fun t => (none, { s with t := t }))
  | .clear => some (none, { s with t := Heap.clear s.t })

/-- The heap with its memory; the constructor of the tree allocates nothing (src/mathic/Heap.h:36,
src/mathic/ComTree.h:139-151). -/
def impl (c : PQConf E) : PQImpl E where
  State := HeapMem E
  init := ⟨[], 0, 0⟩
  step := step c
  entries s := s.t
  top s := Heap.top s.t
  empty s := s.t.length == 0
  size s := s.t.length

/-- `Heap::getMemoryUse` (src/mathic/Heap.h:84-87, src/mathic/ComTree.h:128-131) with entries of `sz` bytes. -/
def heapMemoryUse (sz : ℕ) (s : HeapMem E) : ℕ := s.cap * sz

/-- `TourTree::getMemoryUse` (src/mathic/TourTree.h:89-93) with pointers of `ptr` and players of `sz` bytes. -/
def tourMemoryUse (ptr sz : ℕ) (s : TourTree.State E) : ℕ := s.cap * ptr + s.pcap * sz

end Verif.Space
