import Verif.Assert
import Verif.PairQueue
import Verif.QueueAssert

/-!
# Debug builds of `mathic::PairQueue` (src/mathic/PairQueue.h)

The functions of `PairQueue.lean` with `MATHIC_ASSERT` and `MATHIC_SLOW_ASSERT` in their places, and with the code within
`#ifdef MATHIC_DEBUG`. The code within `#ifdef DEBUG` (src/mathic/PairQueue.h:546-551) is not part of a debug build, as
nothing in the library defines `DEBUG`.

Simplifications: of the assertions of the column queue, `isValid()` and those of an empty queue are here. The others are about
the shape of its tree and do not depend on the entries, see `QueueAssert.lean`. That a pointer is not 0 (lines 80, 115, 586,
644, 653) is built into the representation. A comparison with a column that is empty is undefined here as in the release
model, although `rowIndex()` and `pairData()` would fail an assertion. The rows that the check of `Column::create` hands to
`compare` are taken as `Index`, as in `QueueConfiguration::compare`. What that check does to pair data is the log of
`checkOrder`; the log of a queue has only what a release build does as well.
-/

namespace Verif

/-- How a call ends that is not stopped by an assertion: normally, or by an exception. -/
inductive End (σ : Type) where
  | done (s : σ)
  | threw (s : σ)

/-- The endings of a call of the release model. -/
def End.ofRes {σ : Type} : Res σ → Dbg (End σ)
  | .ok s => .ok (.done s)
  | .exn s => .ok (.threw s)
  | .ub => .ub

/-- `k` after the check `v`; an exception out of the check leaves `s`. -/
def End.check {σ : Type} (v : Dbg (End Unit)) (s : σ) (k : Dbg (End σ)) : Dbg (End σ) :=
  match v with
  | .ok (.done _) => k
  | .ok (.threw _) => .ok (.threw s)
  | .failed => .failed
  | .ub => .ub

end Verif

namespace Verif.TourTree

open Verif.Dbg

variable {E : Type}

/-- `MATHIC_ASSERT(!_conf.cmpLessThan(_conf.compare(a, b)))` (src/mathic/TourTree.h:264-267). -/
def assertNotLess (cmp : E → E → Cmp) (a b : E) : Dbg (End Unit) :=
  match cmp a b with
  | .ub => ub
  | .exn => ok (.threw ())
  | .val true => failed
  | .val false => ok (.done ())

/-- The body of the second loop of `isValid` (src/mathic/TourTree.h:255-268). -/
def nodeValidX (cmp : E → E → Cmp) (s : State E) (pos : ℕ) : Dbg (End Unit) := do
  let p ← lift (rd s.tree pos)
  if 2 * pos ≥ s.tree.length then do
    assert (decide (2 * pos + 1 > s.tree.length))
    let q ← lift (s.players[p]?.map Prod.snd)
    assert (q == pos)
    ok (.done ())
  else do
    assert (decide (2 * pos + 1 ≤ s.tree.length))
    let l ← lift (rd s.tree (2 * pos))
    let r ← lift (rd s.tree (2 * pos + 1))
    assert (l != r)
    assert (p == l || p == r)
    let pe ← lift (s.players[p]?.map Prod.fst)
    let le ← lift (s.players[l]?.map Prod.fst)
    let re ← lift (s.players[r]?.map Prod.fst)
    End.check (assertNotLess cmp pe le) () (assertNotLess cmp pe re)

/-- The second loop of `isValid` (src/mathic/TourTree.h:254-269) for the nodes from `pos` on, `n` of
them. -/
def nodesValidX (cmp : E → E → Cmp) (s : State E) (pos : ℕ) : ℕ → Dbg (End Unit)
  | 0 => ok (.done ())
  | n + 1 => End.check (nodeValidX cmp s pos) () (nodesValidX cmp s (pos + 1) n)

/-- `isValid` (src/mathic/TourTree.h:238-272). -/
def isValidX (cmp : E → E → Cmp) (s : State E) : Dbg (End Unit) := do
  assert ((s.tree.isEmpty && s.players.isEmpty) || decide (s.cap + 1 ≤ 2 * s.pcap))
  assert ((s.tree.isEmpty && s.players.isEmpty) || s.tree.length + 1 == 2 * s.players.length)
  pointersValid s.players.length s.tree
  nodesValidX cmp s 1 s.tree.length

/-- `MATHIC_SLOW_ASSERT(isValid())` at the end of a call. -/
def endValid (cmp : E → E → Cmp) : Res (State E) → Dbg (End (State E))
  | .ok s => End.check (isValidX cmp s) s (ok (.done s))
  | .exn s => ok (.threw s)
  | .ub => ub

/-- `push` (src/mathic/TourTree.h:107-143) with `reallocate` (221-236). -/
def pushXD (cmp : E → E → Cmp) (s : State E) (e : E) : Dbg (End (State E)) :=
  End.check (isValidX cmp s) s
    (if s.cap - s.tree.length ≥ 2 then endValid cmp (pushX cmp s e)
     else End.check (isValidX cmp s) s
      (End.check (isValidX cmp (reallocate s)) (reallocate s) (endValid cmp (pushX cmp s e))))

/-- `decreaseTop` (src/mathic/TourTree.h:152-164). -/
def decreaseTopXD (cmp : E → E → Cmp) (s : State E) (e : E) : Dbg (End (State E)) := do
  assert (!s.tree.isEmpty)
  endValid cmp (decreaseTopX cmp s e)

/-- `pop` (src/mathic/TourTree.h:166-208), without the value returned. -/
def popXD (cmp : E → E → Cmp) (s : State E) : Dbg (End (State E)) := do
  assert (!s.tree.isEmpty)
  endValid cmp (popX cmp s)

/-- `top` (src/mathic/TourTree.h:210-214). -/
def topXD (s : State E) : Dbg E := do
  assert (!s.tree.isEmpty)
  lift (top s)

end Verif.TourTree

namespace Verif.PairQueue

open Verif.Dbg

variable {D : Type}

/-- `retired(index)` (src/mathic/PairQueue.h:162-168, 185-187, 634-638). -/
def retiredD (cf : Conf D) (s : State D) (i : ℕ) : Dbg Bool := do
  assert (decide (i < s.count))
  assert (!cf.support || decide (i < s.ret.length))
  lift (retired cf s.ret i)

/-- `constructPairData` (src/mathic/PairQueue.h:76-91) for a row given as a number; `log` is what has happened before. -/
def constructD (f : Faults) (col row : ℕ) (log : List (Event D)) : Dbg (End (List (Event D))) := do
  assert (decide (col > row % 4294967296))
  if f.ctor then ok (.threw log)
  else if f.compute col (row % 4294967296) then ok (.threw (log ++ [.construct col (row % 4294967296)]))
  else ok (.done (log ++ [.construct col (row % 4294967296), .compute col (row % 4294967296)]))

/-- The check of the order of the rows (src/mathic/PairQueue.h:391-420): `prev` is `*prevIt`. Line 417 destructs the data of
`*it` as that of `*prevIt`. An exception out of `compare` leaves without a destruction. -/
def checkOrder (cf : Conf D) (f : Faults) (col : ℕ) : ℕ → List ℕ → List (Event D) → Dbg (End (List (Event D)))
  | _, [], log => ok (.done log)
  | prev, r :: rows, log => do
    match ← constructD f col prev log with
    | .threw log => ok (.threw log)
    | .done log =>
      match ← constructD f col r log with
      | .threw log =>
        ok (.threw (log ++ [.destruct col (prev % 4294967296) (cf.compute col (prev % 4294967296))]))
      | .done log =>
        if f.compare col col then ok (.threw log)
        else do
          assert (!cf.lt col (prev % 4294967296) (cf.compute col (prev % 4294967296))
            col (r % 4294967296) (cf.compute col (r % 4294967296)))
          checkOrder cf f col r rows (log ++ [.destruct col (prev % 4294967296) (cf.compute col (r % 4294967296)),
            .destruct col (prev % 4294967296) (cf.compute col (prev % 4294967296))])

/-- The loops that copy the rows (src/mathic/PairQueue.h:430-436, 444-449) assert that each row is less than the column and
less than the largest number that is stored. -/
def rowsFit (col : ℕ) (rows : List ℕ) : Bool :=
  rows.all fun r => decide (r < col) && decide (r < if big col then 4294967295 else 65535)

/-- `Column::create` (src/mathic/PairQueue.h:382-456) on a range that starts with `r`. The log of the check is left out. -/
def createD (cf : Conf D) (f : Faults) (col r : ℕ) (rows : List ℕ) : Dbg (Created D) := do
  match ← checkOrder cf f col r rows [] with
  | .threw _ => ok (.exn [])
  | .done _ =>
    assert (rowsFit col (r :: rows))
    match ← constructD f col r [] with
    | .threw log => ok (.exn log)
    | .done log => ok (.column ⟨col, (r :: rows).map (store col), some (cf.compute col (r % 4294967296))⟩ log)

/-- `Column::destruct(conf)` (src/mathic/PairQueue.h:289-293, 308-311) with the default `destructPairData` (111-119). -/
def destructColumnD (s : State D) (p : ℕ) : Dbg (State D) := do
  match ← lift s.mem[p]? with
  | ⟨_, [], _⟩ => ok s
  | ⟨c, r :: _, _⟩ =>
    assert (decide (c > r))
    lift (destructColumn s p)

/-- The loops of `incrementRowIndex` (src/mathic/PairQueue.h:470-477, 479-486) after `++begin`. -/
def advanceD (cf : Conf D) (s : State D) : ℕ → List ℕ → Dbg (ℕ × List ℕ)
  | prev, [] => ok (prev, [])
  | prev, r :: l =>
    if cf.support then do
      if ← retiredD cf s r then advanceD cf s r l
      else ok (prev, r :: l)
    else ok (prev, r :: l)

/-- `incrementRowIndex` (src/mathic/PairQueue.h:467-491). -/
def incrementD (cf : Conf D) (f : Faults) (s : State D) (p : ℕ) : Dbg (End (State D)) := do
  match ← lift s.mem[p]? with
  | ⟨_, [], _⟩ => failed
  | ⟨_, _ :: _, none⟩ => ub
  | ⟨c, r :: l, some d⟩ =>
    match ← advanceD cf s r l with
    | (last, []) =>
      assert (decide (c > last))
      ok (.done { s with mem := s.mem.set p ⟨c, [], none⟩, log := s.log ++ [.destruct c last d] })
    | (_, r' :: l') =>
      let x ← retiredD cf s r'
      assert (!x)
      if f.compute c r' then ok (.threw { s with mem := s.mem.set p ⟨c, r' :: l', some d⟩ })
      else ok (.done { s with mem := s.mem.set p ⟨c, r' :: l', some (cf.compute c r')⟩,
                              log := s.log ++ [.compute c r'] })

/-- `addColumnDescending` (src/mathic/PairQueue.h:543-577). -/
def addColumnD (cf : Conf D) (f : Faults) (s : State D) (rows : List ℕ) : Dbg (End (State D)) :=
  if s.count ≥ indexMax then ok (.threw s)
  else
    match rows with
    | [] => ok (.done { s with count := s.count + 1, ret := if cf.support then s.ret ++ [false] else s.ret })
    | r :: rows => do
      match ← createD cf f s.count r rows with
      | .exn log => ok (.threw { s with log := s.log ++ log })
      | .column c log =>
        let s1 : State D :=
          ⟨s.mem ++ [c], s.queue, s.count + 1, if cf.support then s.ret ++ [false] else s.ret, s.log ++ log⟩
        match ← TourTree.pushXD (compare cf f s1.mem) s1.queue s.mem.length with
        | .done q => ok (.done { s1 with queue := q })
        | .threw q =>
          let s2 ← destructColumnD { s1 with queue := q } s.mem.length
          ok (.threw { s2 with mem := s.mem, count := s.count, ret := s.ret })

/-- Put the column queue back. -/
def withQueue (s : State D) : End (TourTree.State ℕ) → End (State D)
  | .done q => .done { s with queue := q }
  | .threw q => .threw { s with queue := q }

/-- `topColumn->destruct(mConf); mColumnQueue.pop();` (src/mathic/PairQueue.h:601-602). -/
def destroyTopD (cf : Conf D) (f : Faults) (s : State D) (p : ℕ) : Dbg (End (State D)) := do
  let s ← destructColumnD s p
  let q ← TourTree.popXD (compare cf f s.mem) s.queue
  ok (withQueue s q)

/-- `rowIndex()` (src/mathic/PairQueue.h:458-465). -/
def rowIndexD (c : Column D) : Dbg ℕ :=
  match c.rows with
  | [] => failed
  | r :: _ => ok r

/-- `empty` (src/mathic/PairQueue.h:529-533). -/
def emptyD (s : State D) : Dbg Bool :=
  if s.queue.tree.isEmpty then ok true
  else do
    let p ← TourTree.topXD s.queue
    let c ← lift s.mem[p]?
    assert (!c.rows.isEmpty)
    ok false

/-- `topPair` (src/mathic/PairQueue.h:640-647). -/
def topPairD (s : State D) : Dbg (ℕ × ℕ) := do
  assert (!s.queue.tree.isEmpty)
  let p ← TourTree.topXD s.queue
  let c ← lift s.mem[p]?
  assert (!c.rows.isEmpty)
  let r ← rowIndexD c
  ok (c.col, r)

/-- `topPairData` (src/mathic/PairQueue.h:649-656, 281). -/
def topPairDataD (s : State D) : Dbg D := do
  assert (!s.queue.tree.isEmpty)
  let p ← TourTree.topXD s.queue
  let c ← lift s.mem[p]?
  assert (!c.rows.isEmpty)
  lift c.data

/-- `SupportRetirement && retired(index)` (src/mathic/PairQueue.h:589). -/
def supportedRetiredD (cf : Conf D) (s : State D) (i : ℕ) : Dbg Bool :=
  if cf.support then retiredD cf s i else ok false

/-- The body of the loop of `pop` up to the label (src/mathic/PairQueue.h:584-603). -/
def popBodyD (cf : Conf D) (f : Faults) (s : State D) (p : ℕ) : Dbg (End (State D)) := do
  let e ← emptyD s
  assert (!e)
  let t ← TourTree.topXD s.queue
  assert (p == t)
  let c ← lift s.mem[p]?
  assert (!c.rows.isEmpty)
  let x ← supportedRetiredD cf s c.col
  if x then destroyTopD cf f s p
  else
    match ← incrementD cf f s p with
    | .threw s => ok (.threw s)
    | .done s =>
      let c ← lift s.mem[p]?
      if c.rows = [] then destroyTopD cf f s p
      else do
        let x ← retiredD cf s c.col
        assert (!x)
        let r ← rowIndexD c
        let y ← retiredD cf s r
        assert (!y)
        let q ← TourTree.decreaseTopXD (compare cf f s.mem) s.queue p
        ok (withQueue s q)

/-- The condition of the loop of `pop` (src/mathic/PairQueue.h:607-608). -/
def involvesRetiredD (cf : Conf D) (s : State D) (p : ℕ) : Dbg Bool := do
  let c ← lift s.mem[p]?
  if ← retiredD cf s c.col then ok true
  else do
    let r ← rowIndexD c
    retiredD cf s r

/-- The loop of `pop` (src/mathic/PairQueue.h:583-608), with a bound on the rounds as in the release model. -/
def popLoopD (cf : Conf D) (f : Faults) : ℕ → State D → ℕ → Dbg (End (State D))
  | 0, _, _ => ub
  | n + 1, s, p => do
    match ← popBodyD cf f s p with
    | .threw s => ok (.threw s)
    | .done s =>
      if cf.support = false ∨ s.queue.tree.length = 0 then ok (.done s)
      else do
        let p ← TourTree.topXD s.queue
        if ← involvesRetiredD cf s p then popLoopD cf f n s p
        else ok (.done s)

/-- The assertions at the end of `pop` (src/mathic/PairQueue.h:608-609). -/
def topAliveD (cf : Conf D) (s : State D) : Dbg Unit :=
  if cf.support then do
    let e ← emptyD s
    if e then ok ()
    else do
      let x ← topPairD s
      let a ← retiredD cf s x.1
      assert (!a)
      let y ← topPairD s
      let b ← retiredD cf s y.2
      assert (!b)
  else ok ()

/-- `pop` (src/mathic/PairQueue.h:579-610). -/
def popD (cf : Conf D) (f : Faults) (s : State D) : Dbg (End (State D)) := do
  let e ← emptyD s
  assert (!e)
  let p ← TourTree.topXD s.queue
  match ← popLoopD cf f (pairTotal s + 1) s p with
  | .threw s => ok (.threw s)
  | .done s =>
    topAliveD cf s
    ok (.done s)

/-- `retireIndex` (src/mathic/PairQueue.h:622-632, 157-160, 183-185). -/
def retireIndexD (cf : Conf D) (f : Faults) (s : State D) (i : ℕ) : Dbg (End (State D)) := do
  assert cf.support
  assert (decide (i < s.count))
  assert (decide (i < s.ret.length))
  let s : State D := { s with ret := s.ret.set i true }
  let e ← emptyD s
  if e then ok (.done s)
  else do
    let x ← topPairD s
    if x.1 = i ∨ x.2 = i then popD cf f s else ok (.done s)

/-- Destruction of a list of columns in order. -/
def destructAllD (s : State D) : List ℕ → Dbg (State D)
  | [] => ok s
  | p :: l => do
    let s ← destructColumnD s p
    destructAllD s l

/-- The destructor (src/mathic/PairQueue.h:523-527, with `ColumnDestructor` 342-352). -/
def destroyD (s : State D) : Dbg (State D) := destructAllD s (TourTree.entries s.queue)

/-- One call. -/
def stepD (cf : Conf D) (f : Faults) (s : State D) : Op → Dbg (End (State D))
  | .add rows => addColumnD cf f s rows
  | .pop => popD cf f s
  | .retire i => retireIndexD cf f s i

end Verif.PairQueue
