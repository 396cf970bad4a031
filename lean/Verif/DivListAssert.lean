import Verif.Assert
import Verif.DivList

/-!
# Debug builds of `mathic::DivList` (src/mathic/DivList.h)

The calls of `DivList.lean` with `MATHIC_ASSERT` in its places (src/mathic/DivList.h:248, 273, 438, 592). Of the ratio of the
configuration only its sign is looked at, beside what `rebuildSize` makes of it.
-/

namespace Verif.DivList

open Verif.Dbg
open Verif.DivMask (Ext)

variable {T : Type}

/-- A configuration with the value of `getRebuildRatio() > 0` (src/mathic/DivList.h:592). -/
structure DConf (T : Type) where
  conf : Conf T
  ratioPos : Bool

variable (d : DConf T)

/-- `resetNumberOfChangesTillRebuild` (src/mathic/DivList.h:588-596). -/
def resetChangesD (s : State T) : Dbg (State T) :=
  if d.conf.doAutomaticRebuilds then do
    assert d.ratioPos
    ok { s with changes := max (d.conf.rebuildSize s.list.length) d.conf.rebuildMin }
  else ok s

/-- The constructor (src/mathic/DivList.h:391-397). -/
def initD : Dbg (State T) := do
  let bits ← lift (calcInit d.conf)
  resetChangesD d ⟨[], bits, 0⟩

/-- `rebuild` (src/mathic/DivList.h:574-586). -/
def rebuildD (s : State T) : Dbg (State T) := do
  let bits ← lift (calcRebuild d.conf s.contents)
  resetChangesD d { s with bits := bits, list := s.list.map (fun x => Ext.make d.conf.dm bits x.t) }

/-- `reportChanges` (src/mathic/DivList.h:598-608). -/
def reportChangesD (s : State T) (n : ℕ) : Dbg (State T) :=
  if !d.conf.doAutomaticRebuilds then ok s
  else if s.changes > n then ok { s with changes := s.changes - n }
  else rebuildD d s

/-- `insert` of one entry (src/mathic/DivList.h:399-408). -/
def insertD (s : State T) (e : T) : Dbg (State T) :=
  if !d.conf.sortOnInsert then reportChangesD d { s with list := s.list ++ [ext d.conf s e] } 1
  else do
    let l ← lift (insertSort d.conf (ext d.conf s e) s.list)
    reportChangesD d { s with list := l } 1

/-- The loop of single insertions (src/mathic/DivList.h:414-415). -/
def insertEachD (s : State T) : List T → Dbg (State T)
  | [] => ok s
  | e :: es => do
    let s' ← insertD d s e
    insertEachD s' es

/-- `insert` of a range (src/mathic/DivList.h:410-427). -/
def insertRangeD (s : State T) (es : List T) : Dbg (State T) :=
  if !s.list.isEmpty then insertEachD d s es
  else if es.isEmpty then ok s
  else do
    let bits ← lift (calcRebuild d.conf es)
    let l := s.list ++ es.map (Ext.make d.conf.dm bits)
    resetChangesD d ⟨if d.conf.sortOnInsert then d.conf.sort (comparer d.conf) l else l, bits, s.changes⟩

/-- `removeMultiples` on a vector (src/mathic/DivList.h:224-251), with the assertion of line 248. -/
def removeMultiplesVectorD (c : Conf T) (m : Ext T) (l : List (Ext T)) : Dbg (List (Ext T) × List T × ℕ) :=
  match l.findIdx? (fun e => divides c m e) with
  | none => ok (l, [], 0)
  | some it =>
    match l[it]? with
    | none => ub
    | some e =>
      match compactLoop c m l (it + 1) it [e.t] (l.length - (it + 1)) with
      | none => ub
      | some (l', newEnd, out) => do
        assert (decide (newEnd < l'.length))
        ok (l'.take newEnd, out, l'.length - newEnd)

/-- `removeMultiples` on a linked list (src/mathic/DivList.h:253-275), with the assertion of line 273. -/
def removeMultiplesListD (c : Conf T) (m : Ext T) (l : List (Ext T)) : Dbg (List (Ext T) × List T × ℕ) := do
  let r := removeMultiplesList c m l
  assert (r.1.length + r.2.2 == l.length)
  ok r

/-- The choice between the two `removeMultiples` (src/mathic/DivList.h:436-437). -/
def removeMultiplesHelperD (c : Conf T) (m : Ext T) (l : List (Ext T)) : Dbg (List (Ext T) × List T × ℕ) :=
  if c.useLinkedList then removeMultiplesListD c m l else removeMultiplesVectorD c m l

/-- `removeMultiples` (src/mathic/DivList.h:429-442), with the assertion of line 438. -/
def removeMultiplesD (s : State T) (m : T) : Dbg (List T × Bool × State T) := do
  let r ← removeMultiplesHelperD d.conf (ext d.conf s m) s.list
  assert (r.1.length + r.2.2 == s.list.length)
  let s' ← reportChangesD d { s with list := r.1 } r.2.2
  ok (r.2.1, decide (r.2.2 > 0), s')

/-- One call (src/mathic/DivList.h:399-572); those that are not named have no assertions. -/
def stepD (s : State T) : Op T → Dbg (Ret T × State T)
  | .insert e => do
    let s' ← insertD d s e
    ok (.unit, s')
  | .insertRange es => do
    let s' ← insertRangeD d s es
    ok (.unit, s')
  | .removeMultiples m => do
    let r ← removeMultiplesD d s m
    ok (.removed r.1 r.2.1, r.2.2)
  | .rebuild => do
    let s' ← rebuildD d s
    ok (.unit, s')
  | op => lift (step d.conf s op)

/-- A history of calls (src/mathic/DivList.h:399-572). -/
def runD (s : State T) : List (Op T) → Dbg (List (Ret T) × State T)
  | [] => ok ([], s)
  | op :: ops => do
    let r ← stepD d s op
    let q ← runD r.2 ops
    ok (r.1 :: q.1, q.2)

end Verif.DivList
