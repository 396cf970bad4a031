import Mathlib.Data.Nat.Notation
import Mathlib.Data.List.Basic

/-!
# Model of `mathic::HashTable` (src/mathic/HashTable.h)

Nodes live in a pool and are addressed by handles, the index of their allocation. A freed node
stays in the list as `none`, so that a dangling handle is told apart from a new node at the same
address. A chain is linked by the `next` fields as in the code; a loop over a chain gets as many
steps as there are nodes, and `none` (an endless loop) if these do not suffice.

Simplified: sizes are unbounded (the code shifts a 64-bit 1), and hash values are naturals.
`remove` does not compile when it is used (it calls a default constructor and a `hashvalue`
that do not exist) and is not modelled.
-/

namespace Verif.HashTable

/-- The configuration: `hash` and `keysEqual` (src/mathic/HashTable.h:29-35), and the constant
member `mAlwaysInsertAtEnd` (src/mathic/HashTable.h:138, 153; true in the code). -/
structure Conf (K : Type*) where
  hash : K → ℕ
  eq : K → K → Bool
  atEnd : Bool

/-- `Handle` (src/mathic/HashTable.h:59-75). -/
structure Node (K V : Type*) where
  key : K
  value : V
  next : Option ℕ

/-- The members (src/mathic/HashTable.h:126-142). -/
structure State (K V : Type*) where
  mask : ℕ
  tableSize : ℕ
  logSize : ℕ
  nodeCount : ℕ
  binCount : ℕ
  maxCount : ℕ
  nodes : List (Option (Node K V))
  table : List (Option ℕ)

variable {K V : Type*} (c : Conf K)

/-- `static_cast<size_t>(0.1 * size)` (src/mathic/HashTable.h:158, 301-302): the double 0.1 is
3602879701896397 / 2^55 and the product with a power of two is exact. -/
def threshold (size : ℕ) : ℕ := size * 3602879701896397 / 2 ^ 55

/-- The constructor (src/mathic/HashTable.h:145-159). -/
def mk (nbits : ℕ) : State K V where
  mask := 2 ^ nbits - 1
  tableSize := 2 ^ nbits
  logSize := nbits
  nodeCount := 0
  binCount := 0
  maxCount := threshold (2 ^ nbits)
  nodes := []
  table := List.replicate (2 ^ nbits) none

/-- `reset` (src/mathic/HashTable.h:161-164): frees all nodes and does nothing else. -/
def reset (s : State K V) : State K V := { s with nodes := s.nodes.map (fun _ => none) }

/-- Dereference of a handle; `none` if it is dangling. -/
def nodeAt (ns : List (Option (Node K V))) (i : ℕ) : Option (Node K V) := (ns[i]?).join

/-- Assignment to the `next` field of a handle. -/
def setNext (ns : List (Option (Node K V))) (i : ℕ) (nx : Option ℕ) :
    Option (List (Option (Node K V))) :=
  match nodeAt ns i with
  | none => none
  | some n => some (ns.set i (some { n with next := nx }))

/-- `makeNode` (src/mathic/HashTable.h:166-173). -/
def makeNode (s : State K V) (k : K) (v : V) : ℕ × State K V :=
  (s.nodes.length, { s with
    nodeCount := s.nodeCount + 1
    nodes := s.nodes ++ [some ⟨k, v, none⟩] })

/-- The two ways out of the loop in `insert`. -/
inductive Walk where
  | found (h : ℕ)
  | last (h : ℕ)

/-- The search loop of `insert` (src/mathic/HashTable.h:190-213). -/
def walk (ns : List (Option (Node K V))) (k : K) : ℕ → ℕ → Option Walk
  | 0, _ => none
  | f + 1, i =>
    match nodeAt ns i with
    | none => none
    | some n =>
      if c.eq n.key k then some (.found i)
      else
        match n.next with
        | none => some (.last i)
        | some j => walk ns k f j

/-- The loop that finds the end of a chain (src/mathic/HashTable.h:295). -/
def findLast (ns : List (Option (Node K V))) : ℕ → ℕ → Option ℕ
  | 0, _ => none
  | f + 1, i =>
    match nodeAt ns i with
    | none => none
    | some n =>
      match n.next with
      | none => some i
      | some j => findLast ns f j

/-- Reinsertion of a node `q` whose `next` is null (src/mathic/HashTable.h:284-297). -/
def relink (s : State K V) (q : ℕ) (key : K) : Option (State K V) :=
  let hv := c.hash key &&& s.mask
  match s.table[hv]? with
  | none => none
  | some none =>
    match setNext s.nodes q none with
    | none => none
    | some ns => some { s with binCount := s.binCount + 1, nodes := ns, table := s.table.set hv (some q) }
  | some (some r) =>
    if c.atEnd then
      match findLast s.nodes s.nodes.length r with
      | none => none
      | some e =>
        match setNext s.nodes e (some q) with
        | none => none
        | some ns => some { s with nodes := ns }
    else
      match setNext s.nodes q (some r) with
      | none => none
      | some ns => some { s with nodes := ns, table := s.table.set hv (some q) }

/-- The loop over one old chain (src/mathic/HashTable.h:277-298). -/
def growChain : ℕ → Option ℕ → State K V → Option (State K V)
  | _, none, s => some s
  | 0, some _, _ => none
  | f + 1, some q, s =>
    match nodeAt s.nodes q with
    | none => none
    | some n =>
      match setNext s.nodes q none with
      | none => none
      | some ns =>
        match relink c { s with nodes := ns } q n.key with
        | none => none
        | some s' => growChain f n.next s'

/-- The loop over the old table (src/mathic/HashTable.h:275-299). -/
def growTable : List (Option ℕ) → State K V → Option (State K V)
  | [], s => some s
  | p :: old, s =>
    match growChain c s.nodes.length p s with
    | none => none
    | some s' => growTable old s'

/-- `grow` (src/mathic/HashTable.h:263-305). The loop runs to the old `mTableSize`, which is the
length of the old table. -/
def grow (s : State K V) (nbits : ℕ) : Option (State K V) :=
  match growTable c (s.table.take s.tableSize) { s with
      tableSize := 2 ^ nbits
      logSize := nbits
      mask := 2 ^ nbits - 1
      table := List.replicate (2 ^ nbits) none
      binCount := 0 } with
  | none => none
  | some s' => some { s' with maxCount := threshold s'.tableSize }

/-- The end of `insert` (src/mathic/HashTable.h:216-220). -/
def insertEnd (r : ℕ) (s : State K V) : Option ((Bool × ℕ) × State K V) :=
  if s.nodeCount > s.maxCount then
    match grow c s (s.logSize + 2) with
    | none => none
    | some s' => some ((true, r), s')
  else some ((true, r), s)

/-- `insert` (src/mathic/HashTable.h:175-221). -/
def insert (s : State K V) (k : K) (v : V) : Option ((Bool × ℕ) × State K V) :=
  let hv := c.hash k &&& s.mask
  match s.table[hv]? with
  | none => none
  | some none =>
    let (r, s) := makeNode s k v
    insertEnd c r { s with table := s.table.set hv (some r) }
  | some (some t) =>
    match walk c s.nodes k s.nodes.length t with
    | none => none
    | some (.found h) => some ((false, h), s)
    | some (.last e) =>
      let (r, s) := makeNode s k v
      if c.atEnd then
        match setNext s.nodes e (some r) with
        | none => none
        | some ns => insertEnd c r { s with nodes := ns }
      else
        match setNext s.nodes r (some t) with
        | none => none
        | some ns => insertEnd c r { s with nodes := ns, table := s.table.set hv (some r) }

/-- The loop of `lookup` (src/mathic/HashTable.h:229-233). -/
def lookupLoop (ns : List (Option (Node K V))) (k : K) : ℕ → Option ℕ → Option (Option ℕ)
  | _, none => some none
  | 0, some _ => none
  | f + 1, some i =>
    match nodeAt ns i with
    | none => none
    | some n => if c.eq n.key k then some (some i) else lookupLoop ns k f n.next

/-- `lookup` (src/mathic/HashTable.h:223-235). -/
def lookup (s : State K V) (k : K) : Option (Option ℕ) :=
  match s.table[c.hash k &&& s.mask]? with
  | none => none
  | some p => lookupLoop c s.nodes k s.nodes.length p

/-- The length of a chain as counted in `computeNodeCount` (src/mathic/HashTable.h:321). -/
def chainLength (ns : List (Option (Node K V))) : ℕ → Option ℕ → Option ℕ
  | _, none => some 0
  | 0, some _ => none
  | f + 1, some i =>
    match nodeAt ns i with
    | none => none
    | some n => (chainLength ns f n.next).map (· + 1)

/-- `computeNodeCount` (src/mathic/HashTable.h:315-324). -/
def computeNodeCount (s : State K V) : Option ℕ :=
  (s.table.take s.tableSize).foldlM (fun r p => (chainLength s.nodes s.nodes.length p).map (r + ·)) 0

/-- `computeBinCount` (src/mathic/HashTable.h:326-335). -/
def computeBinCount (s : State K V) : ℕ := (s.table.take s.tableSize).countP Option.isSome

/-- `Handle::key`, `Handle::value` (src/mathic/HashTable.h:68-69). -/
def getEntry (s : State K V) (h : ℕ) : Option (K × V) :=
  (nodeAt s.nodes h).map (fun n => (n.key, n.value))

/-- Assignment through `Handle::value` (src/mathic/HashTable.h:70). -/
def setValue (s : State K V) (h : ℕ) (v : V) : Option (State K V) :=
  match nodeAt s.nodes h with
  | none => none
  | some n => some { s with nodes := s.nodes.set h (some { n with value := v }) }

/-- What a client can call. -/
inductive Op (K V : Type*) where
  | insert (k : K) (v : V)
  | lookup (k : K)
  | getEntry (h : ℕ)
  | setValue (h : ℕ) (v : V)

/-- What a client gets back. -/
inductive Out (K V : Type*) where
  | inserted (isNew : Bool) (h : ℕ)
  | found (h : Option ℕ)
  | entry (k : K) (v : V)
  | done
deriving DecidableEq

/-- One call. -/
def step (s : State K V) : Op K V → Option (Out K V × State K V)
  | .insert k v => (insert c s k v).map (fun r => (.inserted r.1.1 r.1.2, r.2))
  | .lookup k => (lookup c s k).map (fun r => (.found r, s))
  | .getEntry h => (getEntry s h).map (fun r => (.entry r.1 r.2, s))
  | .setValue h v => (setValue s h v).map (fun s' => (.done, s'))

/-- A history of calls. -/
def run (s : State K V) : List (Op K V) → Option (List (Out K V) × State K V)
  | [] => some ([], s)
  | op :: ops =>
    match step c s op with
    | none => none
    | some (o, s') =>
      match run s' ops with
      | none => none
      | some (os, s'') => some (o :: os, s'')

end Verif.HashTable
