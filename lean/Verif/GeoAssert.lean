import Verif.Assert
import Verif.Geobucket
import Mathlib.Data.List.Sort

/-!
# Debug builds of `Geobucket` and `GeoFront`

The same functions as in the model of the release build (`Verif.Geobucket`), with `MATHIC_ASSERT` and
`MATHIC_SLOW_ASSERT` in their places. The parts of a function between two assertions are those of the
release model.

Simplifications: the assertions within the members of `Bucket` (src/mathic/Geobucket.h:184, 188, 192, 198,
204, 254) are the conditions under which the release model of the member is defined; where such a member is
part of a release function used here a failure counts as undefined, not as a failed assertion. Pointers to
buckets are indices, so assertions that they are not null (src/mathic/GeoFront.h:244, 325-326, 336-337)
are left out, and so are those about template parameters that select the branch they are in
(src/mathic/Geobucket.h:221, 225, 229, 638, 707, src/mathic/GeoFront.h:42, 61, 202), that the length given
beside a range is its length (240, 639), and those about `_bucketBegin` and `_bucketEnd` (799-800), which
the model does not have.
-/

namespace Verif.Geobucket

open Dbg

variable {E : Type} (c : Conf E)

/-! ## Checks of the whole structure -/

/-- `std::equal` on the range `a` and the range that starts as `b`: reading past the end of `b` is
undefined. -/
def stdEqual : List ℕ → List ℕ → Dbg Unit
  | [], _ => ok ()
  | _ :: _, [] => ub
  | x :: a, y :: b => do
    assert (x == y)
    stdEqual a b

/-- The first loop of `debugIsValid` of the tracked front (src/mathic/GeoFront.h:352-360) from bucket `i` on, `n`
of them; the numbers of the buckets that are not empty. -/
def frontPosValid (s : State E) : ℕ → ℕ → Dbg (List ℕ)
  | 0, _ => ok []
  | n + 1, i => do
    let b ← lift s.buckets[i]?
    let t ← lift s.front.pos[i]?
    if b.es = [] then do
      assert (t == .null)
      frontPosValid s n (i + 1)
    else do
      assert (t != .null)
      let q ← (match t with
        | .slot p => lift (s.front.rdSlot p)
        | _ => ub)
      assert (q == i)
      let l ← frontPosValid s n (i + 1)
      ok (i :: l)

/-- The copy of the front (src/mathic/GeoFront.h:362), `n` cells from cell `i` on. -/
def frontCopy (f : Front) : ℕ → ℕ → Dbg (List ℕ)
  | 0, _ => ok []
  | n + 1, i => do
    let q ← lift (f.rdSlot i)
    let l ← frontCopy f n (i + 1)
    ok (q :: l)

/-- `back()` in a debug build (src/mathic/Geobucket.h:183-186) of bucket `i`. -/
def backD (bs : List (Bucket E)) (i : ℕ) : Dbg E := do
  let b ← lift bs[i]?
  assert (!b.es.isEmpty)
  lift (b.getBack c)

/-- The last loop of `debugIsValid` of the tracked front (src/mathic/GeoFront.h:366-370), over the buckets in
the front. -/
def frontSorted (bs : List (Bucket E)) : List ℕ → Dbg Unit
  | [] => ok ()
  | [_] => ok ()
  | i :: j :: l => do
    let x ← backD c bs i
    let y ← backD c bs j
    assert (!c.lt x y)
    frontSorted bs (j :: l)

/-- The loop of `debugIsValid` of the untracked front (src/mathic/GeoFront.h:130-135), over the buckets. -/
def cacheMax (m : E) : List (Bucket E) → Dbg Unit
  | [] => ok ()
  | b :: bs =>
    if b.es = [] then cacheMax m bs
    else do
      let y ← lift (b.getBack c)
      assert (!c.lt m y)
      cacheMax m bs

/-- `GeoFront::debugIsValid` (src/mathic/GeoFront.h:125-138, 348-373). `std::sort` on pointers into one array
sorts the numbers; the other list is in order already. -/
def frontIsValid (s : State E) : Dbg Unit :=
  if c.trackFront then do
    let ne ← frontPosValid s s.buckets.length 0
    let fr ← frontCopy s.front s.front.fend 0
    stdEqual (fr.insertionSort (· ≤ ·)) ne
    frontSorted c s.buckets fr
  else
    match s.front.cached with
    | none => ok ()
    | some m => do
      let x ← backD c s.buckets m
      cacheMax c x s.buckets

/-- The loop over the entries of a bucket in `isValid` (src/mathic/Geobucket.h:809-811). -/
def ascending : List E → Bool
  | [] => true
  | [_] => true
  | x :: y :: l => !c.lt y x && ascending (y :: l)

/-- The assertion that there is a bucket, and the first one (src/mathic/Geobucket.h:798, 801). -/
def firstBucket : List (Bucket E) → Dbg (Bucket E)
  | [] => failed
  | b :: _ => ok b

/-- `isValid` (src/mathic/Geobucket.h:792-817). -/
def isValid (s : State E) : Dbg Unit := do
  assert (decide (c.geoBase ≥ 2))
  let b ← firstBucket s.buckets
  assert (decide (b.cap ≥ 1))
  assert (s.buckets.all (fun b => ascending c b.es))
  assert ((s.buckets.map (fun b => b.es.length)).sum == s.count)
  frontIsValid c s

/-! ## The front -/

/-- `GeoFront::insert` (src/mathic/GeoFront.h:240-253). That `reserveCapacity` is given a larger size than the
present one (line 207) is part of its release model. -/
def frontInsertD (s : State E) (b : ℕ) : Dbg (State E) :=
  if c.trackFront then do
    let t ← lift s.front.pos[b]?
    assert (t == .null)
    let bb ← lift s.buckets[b]?
    assert (!bb.es.isEmpty)
    lift (frontInsert c s b)
  else lift (frontInsert c s b)

/-- `GeoFront::remove` (src/mathic/GeoFront.h:311-322). -/
def frontRemoveD (s : State E) (b : ℕ) : Dbg (State E) :=
  if c.trackFront then do
    let t ← lift s.front.pos[b]?
    assert (t != .null)
    let bb ← lift s.buckets[b]?
    assert bb.es.isEmpty
    lift (frontRemove c s b)
  else lift (frontRemove c s b)

/-- `keyDecreased` (src/mathic/GeoFront.h:276-309). The call of `remove` in the loop comes right after
`_frontPos` is set and `empty()` is true. -/
def keyDecreasedD (s : State E) (b : ℕ) : Dbg (State E) := do
  let bb ← lift s.buckets[b]?
  if bb.es = [] then frontRemoveD c s b else lift (keyDecreased c s b)

/-- `getMax` and `computeMax` (src/mathic/GeoFront.h:85-123, 342-346). The loop in lines 100-103 asserts that it
does not reach the end. -/
def getMaxD (s : State E) : Dbg (ℕ × State E) := do
  if c.trackFront then assert (s.front.fend != 0)
  else if s.front.cached.isNone then assert (s.buckets.any (fun b => !b.es.isEmpty))
  else ok ()
  lift (getMax c s)

/-! ## The geobucket -/

/-- The capacity of the bucket that `addBucket` adds (src/mathic/Geobucket.h:506-507). -/
def newCap (s : State E) : ℕ :=
  match s.buckets.getLast? with
  | none => c.minBucketSize
  | some b => b.cap * c.geoBase

/-- `required` (src/mathic/Geobucket.h:508-522). -/
def required (s : State E) : ℕ :=
  let n := newCap c s
  let r := s.buckets.foldl (fun r b =>
    let r := r + if c.storage = .sameSize then n else b.cap
    if c.storage = .doubleBuffer then r + b.cap else r) 0
  let r := r + n
  let r := if c.storage = .doubleBuffer then r + n else r
  let r := r + n
  if !c.premerge then r + n else r

/-- `offset` in the end (src/mathic/Geobucket.h:529-559). -/
def finalOffset (s : State E) : ℕ :=
  let n := newCap c s
  let o := s.buckets.foldl (fun o b =>
    let o := o + if c.storage = .sameSize then n else b.cap
    if c.storage = .doubleBuffer then o + b.cap else o) 0
  let o := o + n
  let o := if c.storage = .doubleBuffer then o + n else o
  let o := o + n
  if !c.premerge then o + n else o

/-- `addBucket` (src/mathic/Geobucket.h:503-563), with the assertion of `reserveCapacity`
(src/mathic/GeoFront.h:207). -/
def addBucketD (s : State E) : Dbg (State E) := do
  assert (!c.trackFront || decide (s.buckets.length + 1 ≥ s.front.fend))
  let s' ← lift (addBucket c s)
  assert (finalOffset c s == required c s)
  ok s'

/-- The constructor (src/mathic/Geobucket.h:311-323). -/
def mkD : Dbg (State E) := do
  assert (decide (c.geoBase > 1))
  let s ← addBucketD c ⟨[], 0, ⟨none, [], 0, []⟩⟩
  frontIsValid c s
  ok s

/-- `mergeToNonEmpty` with a range (src/mathic/Geobucket.h:578-600). -/
def mergeToNonEmptyD (s : State E) (into : ℕ) (l : List E) : Dbg (State E) := do
  let b ← lift s.buckets[into]?
  assert (!b.es.isEmpty)
  assert (!l.isEmpty)
  assert (decide (l.length ≤ b.cap))
  lift (mergeToNonEmpty c s into l)

/-- `if (!C::trackFront || _front.larger(&from, &to)) _front.swapKeys(&to, &from);`
(src/mathic/Geobucket.h:571-572). -/
def mergeSwap (s : State E) (dst src : ℕ) : Option (State E) := do
  let swap ← (if c.trackFront then larger s.front src dst else some true)
  if swap then swapKeys c s dst src else some s

/-- `mergeToNonEmpty` with a bucket (src/mathic/Geobucket.h:565-576). -/
def mergeBucketsD (s : State E) (dst src : ℕ) : Dbg (State E) := do
  let tb ← lift s.buckets[dst]?
  let fb ← lift s.buckets[src]?
  assert (!tb.es.isEmpty)
  assert (!fb.es.isEmpty)
  assert (dst != src)
  assert (decide (tb.es.length + fb.es.length ≤ tb.cap))
  let s ← lift (mergeSwap c s dst src)
  let fb ← lift s.buckets[src]?
  let s ← mergeToNonEmptyD c s dst fb.es
  let fb ← lift s.buckets[src]?
  frontRemoveD c (s.setBucket src fb.clear) src

/-- `mergeToEmpty` (src/mathic/Geobucket.h:602-614). -/
def mergeToEmptyD (s : State E) (dst src : ℕ) (l : List E) : Dbg (State E) := do
  let tb ← lift s.buckets[dst]?
  let fb ← lift s.buckets[src]?
  assert tb.es.isEmpty
  assert (!fb.es.isEmpty)
  assert (dst != src)
  assert (!l.isEmpty)
  assert (decide (l.length + fb.es.length ≤ tb.cap))
  lift (mergeToEmpty c s dst src l)

/-- `moveToEmpty` (src/mathic/Geobucket.h:616-632). -/
def moveToEmptyD (s : State E) (dst src : ℕ) : Dbg (State E) := do
  let tb ← lift s.buckets[dst]?
  let fb ← lift s.buckets[src]?
  assert (dst != src)
  assert tb.es.isEmpty
  assert (!fb.es.isEmpty)
  assert (decide (fb.es.length ≤ tb.cap))
  lift (moveToEmpty c s dst src)

/-- `assign` and `_front.insert` (src/mathic/Geobucket.h:647-648, 735-736). -/
def assignNewD (s : State E) (b : ℕ) (l : List E) : Dbg (State E) := do
  let bb ← lift s.buckets[b]?
  let bb ← lift (bb.fill l)
  frontInsertD c (s.setBucket b bb) b

/-- `if (i == _buckets.size()) addBucket();` (src/mathic/Geobucket.h:657-658). -/
def growAtD (i : ℕ) (s : State E) : Dbg (State E) :=
  if i = s.buckets.length then addBucketD c s else ok s

/-- The loop that makes room (src/mathic/Geobucket.h:656-663), see `reserveLoop`. -/
def reserveLoopD : ℕ → ℕ → ℕ → State E → Dbg (State E)
  | 0, _, _, _ => ub
  | n + 1, i, acc, s => do
    let s ← growAtD c i s
    let b ← lift s.buckets[i]?
    if acc + b.es.length ≤ b.cap then ok s else reserveLoopD n (i + 1) (acc + b.es.length) s

/-- A merge into a temporary area (src/mathic/Geobucket.h:674-678, 694-699), see `mergeToTmp`. -/
def mergeToTmpD (s : State E) (b : ℕ) (l : List E) : Dbg (List E × State E) := do
  let cur ← lift s.buckets[b]?
  let r := merge c l cur.es
  if r.1.length ≤ tmpCap s then do
    let s ← frontRemoveD c { s.setBucket b cur.clear with count := s.count - r.2 } b
    ok (r.1, s)
  else ub

/-- The second loop of `insert` without premerge (src/mathic/Geobucket.h:680-700), see `cascadeLoop`. -/
def cascadeLoopD : ℕ → ℕ → List E → State E → Dbg (State E)
  | 0, _, _, _ => ub
  | n + 1, b, l, s => do
    let cur ← lift s.buckets[b]?
    if l.length + cur.es.length ≤ cur.cap then mergeToNonEmptyD c s b l
    else do
      assert (decide (b + 1 < s.buckets.length))
      let next ← lift s.buckets[b + 1]?
      if next.es = [] then mergeToEmptyD c s (b + 1) b l
      else do
        let r ← mergeToTmpD c s b l
        cascadeLoopD n (b + 1) r.1 r.2

/-- `insert` without premerge (src/mathic/Geobucket.h:634-701). -/
def insertNoPremergeD (s : State E) (b : ℕ) (l : List E) : Dbg (State E) := do
  assert (decide (0 < l.length))
  let bucket ← lift s.buckets[b]?
  if bucket.es = [] then assignNewD c s b l
  else if bucket.es.length + l.length ≤ bucket.cap then mergeToNonEmptyD c s b l
  else do
    let s ← reserveLoopD c (s.buckets.length + 1) (b + 1) (bucket.es.length + l.length) s
    assert (decide (b + 1 < s.buckets.length))
    let next ← lift s.buckets[b + 1]?
    if next.es = [] then mergeToEmptyD c s (b + 1) b l
    else do
      let r ← mergeToTmpD c s b l
      cascadeLoopD c r.2.buckets.length (b + 1) r.1 r.2

/-- The loop that finds the range of premerges (src/mathic/Geobucket.h:709-723), see `premergeRange`. -/
def premergeRangeD : ℕ → ℕ → ℕ → State E → Dbg (ℕ × State E)
  | 0, _, _, _ => ub
  | n + 1, r, incoming, s => do
    let b ← lift s.buckets[r]?
    if b.es.length + incoming ≤ b.cap then ok (r, s)
    else if r + 1 = s.buckets.length then do
      let s ← addBucketD c s
      ok (r + 1, s)
    else premergeRangeD n (r + 1) b.es.length s

/-- The loop of moves (src/mathic/Geobucket.h:730-731), see `moveLoop`. -/
def moveLoopD : ℕ → ℕ → State E → Dbg (State E)
  | 0, _, s => ok s
  | n + 1, r, s => do
    let s ← moveToEmptyD c s r (r - 1)
    moveLoopD n (r - 1) s

/-- The premerges (src/mathic/Geobucket.h:725-732). -/
def premergesD (s : State E) (b r : ℕ) : Dbg (State E) :=
  if b ≠ r then do
    let rb ← lift s.buckets[r]?
    if rb.es ≠ [] then do
      let s ← mergeBucketsD c s r (r - 1)
      moveLoopD c (r - 1 - b) (r - 1) s
    else moveLoopD c (r - b) r s
  else ok s

/-- `insert` with premerge (src/mathic/Geobucket.h:703-739). -/
def insertPremergeD (s : State E) (b : ℕ) (l : List E) : Dbg (State E) := do
  let r ← premergeRangeD c (s.buckets.length + 1) b l.length s
  let s ← premergesD c r.2 b r.1
  let bucket ← lift s.buckets[b]?
  if bucket.es = [] then assignNewD c s b l else mergeToNonEmptyD c s b l

/-- The choice by `Premerge<C::premerge>`. -/
def insertD (s : State E) (b : ℕ) (l : List E) : Dbg (State E) :=
  if c.premerge then insertPremergeD c s b l else insertNoPremergeD c s b l

/-- `push` of one entry (src/mathic/Geobucket.h:343-399). Once the first bucket has an entry and room for
another one, `push` calls only members of `Bucket` and `keyIncreased`. -/
def pushD (s : State E) (e : E) : Dbg (State E) := do
  let b ← lift s.buckets[0]?
  if b.es.length = b.cap then insertD c { s with count := s.count + 1 } 0 [e]
  else if b.es = [] then do
    let b ← lift (b.pushBack c e)
    frontInsertD c (({ s with count := s.count + 1 } : State E).setBucket 0 b) 0
  else lift (push c s e)

/-- The check of the range in `push` (src/mathic/Geobucket.h:403-416). -/
def rangeSorted : List E → Bool
  | [] => true
  | [_] => true
  | x :: y :: l => (if c.supportDedup then c.lt y x else !c.lt x y) && rangeSorted (y :: l)

/-- `while (adjCount > (_bucketEnd - 1)->capacity()) addBucket();` (src/mathic/Geobucket.h:421-422). -/
def growLoopD : ℕ → ℕ → State E → Dbg (State E)
  | 0, _, _ => ub
  | n + 1, adj, s =>
    if adj > tmpCap s then do
      let s ← addBucketD c s
      growLoopD n adj s
    else ok s

/-- `push` of a range (src/mathic/Geobucket.h:401-433); the loop that looks for a bucket asserts that it does
not reach the end (line 424). -/
def pushRangeD (s : State E) (l : List E) : Dbg (State E) := do
  assert (rangeSorted c l)
  let s ← growLoopD c (l.length * c.insertFactor + 1) (l.length * c.insertFactor)
    { s with count := s.count + l.length }
  let b ← caught (s.buckets.findIdx? (fun b => decide (l.length * c.insertFactor ≤ b.cap)))
  let s ← insertD c s b l.reverse
  isValid c s
  ok s

/-- `pop` (src/mathic/Geobucket.h:445-455). -/
def popD (s : State E) : Dbg (E × State E) := do
  let r ← getMaxD c s
  let x ← backD c r.2.buckets r.1
  let b ← lift r.2.buckets[r.1]?
  let b ← lift (b.popBack c)
  let s ← keyDecreasedD c { r.2.setBucket r.1 b with count := r.2.count - 1 } r.1
  isValid c s
  ok (x, s)

/-- `size` (src/mathic/Geobucket.h:470-479). -/
def sizeD (s : State E) : Dbg ℕ := do
  assert ((s.buckets.map (fun b => b.es.length)).sum == s.count)
  ok s.count

/-- `empty` (src/mathic/Geobucket.h:481-484). -/
def emptyD (s : State E) : Dbg Bool := do
  let n ← sizeD s
  ok (n == 0)

/-- `top` (src/mathic/Geobucket.h:457-461). -/
def topD (s : State E) : Dbg (E × State E) := do
  let e ← emptyD s
  assert (!e)
  let r ← getMaxD c s
  let x ← backD c r.2.buckets r.1
  ok (x, r.2)

/-- `decreaseTop` (src/mathic/Geobucket.h:463-468). -/
def decreaseTopD (s : State E) (e : E) : Dbg (State E) := do
  let b ← emptyD s
  assert (!b)
  let r ← popD c s
  pushD c r.2 e

/-- `clear` (src/mathic/Geobucket.h:435-443). -/
def clearD (s : State E) : Dbg (State E) := do
  isValid c s
  isValid c (clear c s)
  ok (clear c s)

/-- `forAll` (src/mathic/Geobucket.h:154-166): both of its ends assert `isValid()`. -/
def forAllD (s : State E) : Dbg (List E) := do
  isValid c s
  ok (entries s)

/-- One call. -/
def stepD (s : State E) : PQOp E → Dbg (Option E × State E)
  | .push e => do
    let s ← pushD c s e
    ok (none, s)
  | .pushRange l => do
    let s ← pushRangeD c s l
    ok (none, s)
  | .top => do
    let r ← topD c s
    ok (some r.1, r.2)
  | .pop => do
    let r ← popD c s
    ok (some r.1, r.2)
  | .decreaseTop e => do
    let s ← decreaseTopD c s e
    ok (none, s)
  | .clear => do
    let s ← clearD c s
    ok (none, s)

/-- A history of calls. -/
def runFromD (s : State E) : List (PQOp E) → Dbg (List (Option E) × State E)
  | [] => ok ([], s)
  | op :: ops => do
    let r ← stepD c s op
    let t ← runFromD r.2 ops
    ok (r.1 :: t.1, t.2)

/-- A new geobucket and a history of calls. -/
def runD (ops : List (PQOp E)) : Dbg (List (Option E) × State E) := do
  let s ← mkD c
  runFromD c s ops

end Verif.Geobucket
