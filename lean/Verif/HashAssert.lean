import Verif.Assert
import Verif.HashThrow

/-!
# Debug builds of `mathic::HashTable` (src/mathic/HashTable.h)

The calls of `HashThrow.lean` with `MATHIC_ASSERT` in its places (src/mathic/HashTable.h:180, 219, 228, 266, 304). The assertion
of `remove` (line 260) is left out, as `remove` does not compile.
-/

namespace Verif.HashTable

open Verif.Dbg

variable {K V : Type} (c : Conf K)

/-- `MATHIC_ASSERT(computeNodeCount() == mNodeCount)` (src/mathic/HashTable.h:219, 266, 304, with 315-324). The loop reads the
entries of the table below `mTableSize`, which is undefined if there are less. -/
def countD (s : State K V) : Dbg Unit :=
  if s.table.length < s.tableSize then ub
  else do
    let n ← lift (computeNodeCount s)
    assert (n == s.nodeCount)

/-- `grow` (src/mathic/HashTable.h:263-305). -/
def growD (s : State K V) (nbits : ℕ) (ft : Option Fault) : Dbg (Flow Unit (State K V)) := do
  countD s
  match ← lift (growT c s nbits ft) with
  | .threw s' => ok (.threw s')
  | .on _ s' => do
    countD s'
    ok (.on () s')

/-- The end of `insert` (src/mathic/HashTable.h:216-220). -/
def insertEndD (r : ℕ) (s : State K V) (ft : Option Fault) : Dbg (Flow (Bool × ℕ) (State K V)) :=
  if s.nodeCount > s.maxCount then do
    match ← growD c s (s.logSize + 2) ft with
    | .threw s' => ok (.threw s')
    | .on _ s' => do
      countD s'
      ok (.on (true, r) s')
  else do
    countD s
    ok (.on (true, r) s)

/-- How `insert` goes up to line 214 (src/mathic/HashTable.h:178-214). -/
inductive Mid (K V : Type) where
  | undef
  | threw (s : State K V)
  | found (h : ℕ)
  | linked (r : ℕ) (s : State K V)

/-- `insert` up to the comparison of the counts (src/mathic/HashTable.h:181-214), for the bin `hv`. -/
def insertMid (s : State K V) (hv : ℕ) (k : K) (v : V) (ft : Option Fault) : Mid K V :=
  match s.table[hv]? with
  | none => .undef
  | some none =>
    match makeNodeT s k v ft with
    | .threw s => .threw s
    | .on r s => .linked r { s with table := s.table.set hv (some r) }
  | some (some t) =>
    match walkT c s.nodes k s.nodes.length (Fault.inEqual ft) t with
    | none => .undef
    | some none => .threw s
    | some (some (.found h)) => .found h
    | some (some (.last e)) =>
      match makeNodeT s k v ft with
      | .threw s => .threw s
      | .on r s =>
        if c.atEnd then
          match setNext s.nodes e (some r) with
          | none => .undef
          | some ns => .linked r { s with nodes := ns }
        else
          match setNext s.nodes r (some t) with
          | none => .undef
          | some ns => .linked r { s with nodes := ns, table := s.table.set hv (some r) }

/-- `insert` (src/mathic/HashTable.h:175-221). -/
def insertD (s : State K V) (k : K) (v : V) (ft : Option Fault) : Dbg (Flow (Bool × ℕ) (State K V)) :=
  if ft = some .hash then ok (.threw s)
  else do
    assert (decide (c.hash k &&& s.mask < s.table.length))
    match insertMid c s (c.hash k &&& s.mask) k v ft with
    | .undef => ub
    | .threw s' => ok (.threw s')
    | .found h => ok (.on (false, h) s)
    | .linked r s' => insertEndD c r s' ft

/-- `lookup` (src/mathic/HashTable.h:223-235); `none` if it throws. -/
def lookupD (s : State K V) (k : K) (ft : Option Fault) : Dbg (Option (Option ℕ)) :=
  if ft = some .hash then ok none
  else do
    assert (decide (c.hash k &&& s.mask < s.table.length))
    lift (lookupT c s k ft)

/-- One call (src/mathic/HashTable.h:68-70, 175-235); the answer `none` is an exception. -/
def stepD (s : State K V) : Op K V → Option Fault → Dbg (Option (Out K V) × State K V)
  | .insert k v, ft => do
    let r ← insertD c s k v ft
    ok (insertOut r)
  | .lookup k, ft => do
    let r ← lookupD c s k ft
    ok (r.map .found, s)
  | .getEntry h, ft => lift (stepT c s (.getEntry h) ft)
  | .setValue h v, ft => lift (stepT c s (.setValue h v) ft)

/-- A history of calls (src/mathic/HashTable.h:68-70, 175-235), where the exceptions are caught. -/
def runD (s : State K V) : List (Op K V × Option Fault) → Dbg (List (Option (Out K V)) × State K V)
  | [] => ok ([], s)
  | op :: ops => do
    let r ← stepD c s op.1 op.2
    let q ← runD r.2 ops
    ok (r.1 :: q.1, q.2)

end Verif.HashTable
