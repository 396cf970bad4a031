import Verif.HashTable

/-!
# Model of exceptions in `mathic::HashTable` (src/mathic/HashTable.h)

The calls of `HashTable.lean` again, each with at most one place where an exception is thrown. What the
exception leaves behind is the state with all assignments that were made before it.

Simplified: the memory that `makeNode` got from the pool before a constructor throws is lost to the pool, but no
handle to it exists, and handles are numbered by the nodes that were constructed.
-/

namespace Verif.HashTable

/-- Where a call can throw: in `hash` of the key of the call (src/mathic/HashTable.h:178, 226), in a call of
`keysEqual`, the first one being number 0 (src/mathic/HashTable.h:192, 231), in `BufferPool::alloc`
(src/mathic/HashTable.h:170), in the copies of key and value (src/mathic/HashTable.h:171), in the vector for the
new table (src/mathic/HashTable.h:271), and in a call of `hash` while the table grows, the first one being
number 0 (src/mathic/HashTable.h:284). -/
inductive Fault where
  | hash
  | equal (i : ℕ)
  | alloc
  | copy
  | table
  | rehash (i : ℕ)
deriving DecidableEq

/-- The call of `keysEqual` that throws (src/mathic/HashTable.h:192, 231). -/
def Fault.inEqual : Option Fault → Option ℕ
  | some (.equal i) => some i
  | _ => none

/-- The call of `hash` in `grow` that throws (src/mathic/HashTable.h:284). -/
def Fault.inRehash : Option Fault → Option ℕ
  | some (.rehash i) => some i
  | _ => none

/-- A call of a function of the configuration (src/mathic/HashTable.h:192, 231, 284), where the call with the
number given throws: `none` if this is the one, else the number that is left for the calls that follow. -/
def tick : Option ℕ → Option (Option ℕ)
  | none => some none
  | some 0 => none
  | some (i + 1) => some (some i)

/-- How a part of a call (src/mathic/HashTable.h:166-235, 263-305) ends: it goes on, or it has thrown. -/
inductive Flow (A S : Type*) where
  | on (a : A) (s : S)
  | threw (s : S)

/-- The state that is left (of src/mathic/HashTable.h:126-142). -/
def Flow.state {A S : Type*} : Flow A S → S
  | .on _ s => s
  | .threw s => s

variable {K V : Type*} (c : Conf K)

/-- `makeNode` (src/mathic/HashTable.h:166-173): the count goes up first. -/
def makeNodeT (s : State K V) (k : K) (v : V) (ft : Option Fault) : Flow ℕ (State K V) :=
  if ft = some .alloc ∨ ft = some .copy then .threw { s with nodeCount := s.nodeCount + 1 }
  else .on (makeNode s k v).1 (makeNode s k v).2

/-- The search loop of `insert` (src/mathic/HashTable.h:190-213), which changes nothing; `some none` if it throws. -/
def walkT (ns : List (Option (Node K V))) (k : K) : ℕ → Option ℕ → ℕ → Option (Option Walk)
  | 0, _, _ => none
  | f + 1, b, i =>
    match nodeAt ns i with
    | none => none
    | some n =>
      match tick b with
      | none => some none
      | some b =>
        if c.eq n.key k then some (some (.found i))
        else
          match n.next with
          | none => some (some (.last i))
          | some j => walkT ns k f b j

/-- The loop over one old chain (src/mathic/HashTable.h:277-298). The node is already unlinked when `hash` is
called. -/
def growChainT : ℕ → Option ℕ → Option ℕ → State K V → Option (Flow (Option ℕ) (State K V))
  | _, none, b, s => some (.on b s)
  | 0, some _, _, _ => none
  | f + 1, some q, b, s =>
    match nodeAt s.nodes q with
    | none => none
    | some n =>
      match setNext s.nodes q none with
      | none => none
      | some ns =>
        match tick b with
        | none => some (.threw { s with nodes := ns })
        | some b =>
          match relink c { s with nodes := ns } q n.key with
          | none => none
          | some s' => growChainT f n.next b s'

/-- The loop over the old table (src/mathic/HashTable.h:275-299). -/
def growTableT : List (Option ℕ) → Option ℕ → State K V → Option (Flow (Option ℕ) (State K V))
  | [], b, s => some (.on b s)
  | p :: old, b, s =>
    match growChainT c s.nodes.length p b s with
    | none => none
    | some (.threw s') => some (.threw s')
    | some (.on b s') => growTableT old b s'

/-- `grow` (src/mathic/HashTable.h:263-305). The sizes are set before the vector is made. The loop runs to the old
`mTableSize`, which is undefined behaviour if the old table has less entries. -/
def growT (s : State K V) (nbits : ℕ) (ft : Option Fault) : Option (Flow Unit (State K V)) :=
  if ft = some .table then
    some (.threw { s with tableSize := 2 ^ nbits, logSize := nbits, mask := 2 ^ nbits - 1 })
  else if s.table.length < s.tableSize then none
  else
    match growTableT c (s.table.take s.tableSize) (Fault.inRehash ft) { s with
        tableSize := 2 ^ nbits
        logSize := nbits
        mask := 2 ^ nbits - 1
        table := List.replicate (2 ^ nbits) none
        binCount := 0 } with
    | none => none
    | some (.threw s') => some (.threw s')
    | some (.on _ s') => some (.on () { s' with maxCount := threshold s'.tableSize })

/-- The end of `insert` (src/mathic/HashTable.h:216-220). -/
def insertEndT (r : ℕ) (s : State K V) (ft : Option Fault) : Option (Flow (Bool × ℕ) (State K V)) :=
  if s.nodeCount > s.maxCount then
    match growT c s (s.logSize + 2) ft with
    | none => none
    | some (.threw s') => some (.threw s')
    | some (.on _ s') => some (.on (true, r) s')
  else some (.on (true, r) s)

/-- `insert` (src/mathic/HashTable.h:175-221). -/
def insertT (s : State K V) (k : K) (v : V) (ft : Option Fault) : Option (Flow (Bool × ℕ) (State K V)) :=
  if ft = some .hash then some (.threw s)
  else
    let hv := c.hash k &&& s.mask
    match s.table[hv]? with
    | none => none
    | some none =>
      match makeNodeT s k v ft with
      | .threw s => some (.threw s)
      | .on r s => insertEndT c r { s with table := s.table.set hv (some r) } ft
    | some (some t) =>
      match walkT c s.nodes k s.nodes.length (Fault.inEqual ft) t with
      | none => none
      | some none => some (.threw s)
      | some (some (.found h)) => some (.on (false, h) s)
      | some (some (.last e)) =>
        match makeNodeT s k v ft with
        | .threw s => some (.threw s)
        | .on r s =>
          if c.atEnd then
            match setNext s.nodes e (some r) with
            | none => none
            | some ns => insertEndT c r { s with nodes := ns } ft
          else
            match setNext s.nodes r (some t) with
            | none => none
            | some ns => insertEndT c r { s with nodes := ns, table := s.table.set hv (some r) } ft

/-- The loop of `lookup` (src/mathic/HashTable.h:229-233); `some none` if it throws. -/
def lookupLoopT (ns : List (Option (Node K V))) (k : K) : ℕ → Option ℕ → Option ℕ → Option (Option (Option ℕ))
  | _, _, none => some (some none)
  | 0, _, some _ => none
  | f + 1, b, some i =>
    match nodeAt ns i with
    | none => none
    | some n =>
      match tick b with
      | none => some none
      | some b => if c.eq n.key k then some (some (some i)) else lookupLoopT ns k f b n.next

/-- `lookup` (src/mathic/HashTable.h:223-235); `some none` if it throws. -/
def lookupT (s : State K V) (k : K) (ft : Option Fault) : Option (Option (Option ℕ)) :=
  if ft = some .hash then some none
  else
    match s.table[c.hash k &&& s.mask]? with
    | none => none
    | some p => lookupLoopT c s.nodes k s.nodes.length (Fault.inEqual ft) p

/-- What the caller of `insert` gets (src/mathic/HashTable.h:175-221); `none` is an exception. -/
def insertOut : Flow (Bool × ℕ) (State K V) → Option (Out K V) × State K V
  | .on r s => (some (.inserted r.1 r.2), s)
  | .threw s => (none, s)

/-- One call (src/mathic/HashTable.h:68-70, 175-235); the answer `none` is an exception. Reading and writing through
handles runs no code of the table that can throw. -/
def stepT (s : State K V) : Op K V → Option Fault → Option (Option (Out K V) × State K V)
  | .insert k v, ft => (insertT c s k v ft).map insertOut
  | .lookup k, ft => (lookupT c s k ft).map (fun r => (r.map .found, s))
  | .getEntry h, _ => (getEntry s h).map (fun r => (some (.entry r.1 r.2), s))
  | .setValue h v, _ => (setValue s h v).map (fun s' => (some .done, s'))

/-- A history of calls (src/mathic/HashTable.h:68-70, 175-235), where the exceptions are caught. -/
def runT (s : State K V) : List (Op K V × Option Fault) → Option (List (Option (Out K V)) × State K V)
  | [] => some ([], s)
  | op :: ops =>
    match stepT c s op.1 op.2 with
    | none => none
    | some (o, s') =>
      match runT s' ops with
      | none => none
      | some (os, s'') => some (o :: os, s'')

end Verif.HashTable
