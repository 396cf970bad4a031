import Verif.PQSpec

/-!
# Model of `mathic::Geobucket` and `mathic::GeoFront` (src/mathic/Geobucket.h, src/mathic/GeoFront.h)

A pointer to a bucket is the index of the bucket in `_buckets`, a pointer into the array of the
tracked front is an index into that array. The positions `_frontPos` are a member of `Bucket` in the
code; here they are a list of their own beside the array that they point into.

Simplifications: the entries of a bucket are a list; where the code writes entries into a memory
area, the model checks that they fit the noted capacity of the bucket (or of the temporary area)
and is undefined if they do not. The areas themselves, which `addBucket` cuts out of one memory block
(src/mathic/Geobucket.h:527-559), are modelled in `Verif.GeoMem`. Sizes are unbounded. `back()` of an empty bucket is undefined (it is
asserted against). The ranges given to `push` are lists, they are not part of the geobucket itself.
-/

namespace Verif.Geobucket

variable {E : Type}

/-- `GeobucketBucketStorage` (src/mathic/Geobucket.h:12-19). -/
inductive Storage where
  | plain
  | doubleBuffer
  | sameSize
deriving DecidableEq

/-- A configuration (src/mathic/Geobucket.h:27-124). -/
structure Conf (E : Type) extends PQConf E where
  minBucketSize : ℕ
  geoBase : ℕ
  insertFactor : ℕ
  binarySearch : Bool
  trackFront : Bool
  premerge : Bool
  collectMax : Bool
  storage : Storage

/-- A value of `_frontPos`: null, a position in the array, or a position in an array that has been
freed. -/
inductive Tok where
  | null
  | slot (i : ℕ)
  | dangling
deriving DecidableEq

/-- `Bucket` (src/mathic/Geobucket.h:264-271) without `_frontPos` and the buffers. `back` is
`_back`, `none` if it has not been assigned. -/
structure Bucket (E : Type) where
  cap : ℕ
  es : List E
  back : Option E

/-- Both kinds of `GeoFront`. `cached` is `_cachedMaxBucket` (src/mathic/GeoFront.h:75). `slots` is
the array at `_bucketBegin` up to `_bucketCapacityEnd`, a cell is `none` if it has not been
written, `fend` is `_bucketEnd - _bucketBegin` (src/mathic/GeoFront.h:178-180). `pos` holds
the `_frontPos` of the buckets. -/
structure Front where
  cached : Option ℕ
  slots : List (Option ℕ)
  fend : ℕ
  pos : List Tok

/-- The members of a `Geobucket` (src/mathic/Geobucket.h:293-305) without the memory. -/
structure State (E : Type) where
  buckets : List (Bucket E)
  count : ℕ
  front : Front

variable (c : Conf E)

/-! ## Buckets -/

/-- `Bucket::back` (src/mathic/Geobucket.h:183-186). -/
def Bucket.getBack (b : Bucket E) : Option E :=
  if b.es = [] then none else if c.collectMax then b.back else b.es.getLast?

/-- `Bucket::pop_back` (src/mathic/Geobucket.h:191-196). -/
def Bucket.popBack (b : Bucket E) : Option (Bucket E) :=
  if b.es = [] then none
  else some { b with
    es := b.es.dropLast
    back := if c.collectMax && decide (b.es.dropLast.length > 0) then b.es.dropLast.getLast? else b.back }

/-- `Bucket::setEntry` (src/mathic/Geobucket.h:197-202). -/
def Bucket.setEntry (b : Bucket E) (i : ℕ) (e : E) : Option (Bucket E) :=
  if i < b.es.length then
    some { b with
      es := b.es.set i e
      back := if c.collectMax && decide (i + 1 = b.es.length) then some e else b.back }
  else none

/-- `Bucket::insertAtNotEnd` (src/mathic/Geobucket.h:203-209). -/
def Bucket.insertAtNotEnd (b : Bucket E) (i : ℕ) (e : E) : Option (Bucket E) :=
  if i < b.es.length ∧ b.es.length < b.cap then
    some { b with es := b.es.take i ++ e :: b.es.drop i }
  else none

/-- `Bucket::push_back` (src/mathic/Geobucket.h:253-259). -/
def Bucket.pushBack (b : Bucket E) (e : E) : Option (Bucket E) :=
  if b.es.length < b.cap then
    some { b with es := b.es ++ [e], back := if c.collectMax then some e else b.back }
  else none

/-- New entries in a buffer of the bucket: `setBufferWithNewEntries`, `switchToOtherBuffer`, `assign`
and `merge` (src/mathic/Geobucket.h:214-219, 228-234, 238-252). All of them set `_back`
whether or not `collectMax` is set. -/
def Bucket.fill (b : Bucket E) (l : List E) : Option (Bucket E) :=
  if l.length ≤ b.cap then
    some { b with es := l, back := if l.length > 0 then l.getLast? else b.back }
  else none

/-- `Bucket::clear` (src/mathic/Geobucket.h:235-237). -/
def Bucket.clear (b : Bucket E) : Bucket E := { b with es := [] }

/-- Overwrite bucket `i`. -/
def State.setBucket (s : State E) (i : ℕ) (b : Bucket E) : State E :=
  { s with buckets := s.buckets.set i b }

/-- `back` of bucket `i`. -/
def backAt (bs : List (Bucket E)) (i : ℕ) : Option E :=
  match bs[i]? with
  | none => none
  | some b => b.getBack c

/-! ## The front -/

/-- Read a cell of the array. -/
def Front.rdSlot (f : Front) (i : ℕ) : Option ℕ := (f.slots[i]?).join

/-- Write a cell of the array. -/
def Front.wrSlot (f : Front) (i : ℕ) (b : ℕ) : Option Front :=
  if i < f.slots.length then some { f with slots := f.slots.set i (some b) } else none

/-- `bucket->_frontPos = t`. -/
def Front.setPos (f : Front) (b : ℕ) (t : Tok) : Option Front :=
  if b < f.pos.length then some { f with pos := f.pos.set b t } else none

/-- `GeoFront<true>::reserveCapacity` (src/mathic/GeoFront.h:205-226). The positions of buckets in
the front are carried over to the new array, those of all others keep pointing to the old one. -/
def reserveCapacity (f : Front) (newCapacity : ℕ) : Option Front :=
  let n := if newCapacity = 0 then 1 else newCapacity
  if f.fend ≤ n then
    some { f with
      slots := f.slots.take f.fend ++ List.replicate (n - f.fend) none
      pos := f.pos.mapIdx (fun i t =>
        if some i ∈ f.slots.take f.fend then t else if t = .null then .null else .dangling) }
  else none

/-- The loop of `keyIncreased` (src/mathic/GeoFront.h:259-268). -/
def incLoop (bs : List (Bucket E)) (b : ℕ) : ℕ → Front → Option (ℕ × Front)
  | 0, f => some (0, f)
  | p + 1, f => do
    let q ← f.rdSlot p
    let y ← backAt c bs q
    let x ← backAt c bs b
    if c.lt y x then
      let f ← f.wrSlot (p + 1) q
      let f ← f.setPos q (.slot (p + 1))
      incLoop bs b p f
    else some (p + 1, f)

/-- `*pos = bucket; bucket->_frontPos = pos;` (src/mathic/GeoFront.h:272-273, 307-308). -/
def settle (f : Front) (p b : ℕ) : Option Front := do
  let f ← f.wrSlot p b
  f.setPos b (.slot p)

/-- `keyIncreased` of the tracked front (src/mathic/GeoFront.h:255-274). -/
def keyIncreasedT (bs : List (Bucket E)) (f : Front) (b : ℕ) : Option Front :=
  match f.pos[b]? with
  | some (.slot p) => do
    let (p, f) ← incLoop c bs b p f
    settle f p b
  | _ => none

/-- `keyIncreased` (src/mathic/GeoFront.h:57, 255-274). -/
def keyIncreased (s : State E) (b : ℕ) : Option (State E) :=
  if c.trackFront then
    (keyIncreasedT c s.buckets s.front b).map (fun f => { s with front := f })
  else some { s with front := { s.front with cached := none } }

/-- `insert` (src/mathic/GeoFront.h:55, 240-253). -/
def frontInsert (s : State E) (b : ℕ) : Option (State E) :=
  if c.trackFront then do
    let f ← (if s.front.fend = s.front.slots.length then reserveCapacity s.front (s.front.fend + 1)
      else some s.front)
    let f ← f.wrSlot f.fend b
    let f ← ({ f with fend := f.fend + 1 } : Front).setPos b (.slot f.fend)
    let f ← keyIncreasedT c s.buckets f b
    some { s with front := f }
  else some { s with front := { s.front with cached := none } }

/-- The loop of `remove` (src/mathic/GeoFront.h:316-319) from cell `i` on, for `n` cells. -/
def removeLoop : ℕ → ℕ → Front → Option Front
  | 0, _, f => some f
  | n + 1, i, f => do
    let q ← f.rdSlot i
    let f ← f.wrSlot (i - 1) q
    let f ← f.setPos q (.slot (i - 1))
    removeLoop n (i + 1) f

/-- `remove` of the tracked front (src/mathic/GeoFront.h:311-322). -/
def removeT (f : Front) (b : ℕ) : Option Front :=
  match f.pos[b]? with
  | some (.slot p) =>
    if p + 1 ≤ f.fend then do
      let f ← removeLoop (f.fend - (p + 1)) (p + 1) f
      ({ f with fend := f.fend - 1 } : Front).setPos b .null
    else none
  | _ => none

/-- `remove` (src/mathic/GeoFront.h:56, 311-322). -/
def frontRemove (s : State E) (b : ℕ) : Option (State E) :=
  if c.trackFront then (removeT s.front b).map (fun f => { s with front := f })
  else some { s with front := { s.front with cached := none } }

/-- The deduplication in `keyDecreased` (src/mathic/GeoFront.h:291-294): `x`, the last entry of bucket
`b`, goes into `y`, the last entry of bucket `q`. -/
def dedupInto (s : State E) (b q : ℕ) (x y : E) : Option (State E) := do
  let qb ← s.buckets[q]?
  let qb ← qb.setEntry c (qb.es.length - 1) (c.dedup x y)
  let s := s.setBucket q qb
  let bb ← s.buckets[b]?
  let bb ← bb.popBack c
  some { s.setBucket b bb with count := s.count - 1 }

/-- The loop of `keyDecreased` and what follows it (src/mathic/GeoFront.h:284-308), at position `p` with
`n` cells after it. -/
def decLoop (b : ℕ) : ℕ → ℕ → State E → Option (State E)
  | 0, p, s => (settle s.front p b).map (fun f => { s with front := f })
  | n + 1, p, s => do
    let q ← s.front.rdSlot (p + 1)
    let x ← backAt c s.buckets b
    let y ← backAt c s.buckets q
    if c.lt x y then
      let f ← s.front.wrSlot p q
      let f ← f.setPos q (.slot p)
      decLoop b n (p + 1) { s with front := f }
    else if !c.supportDedup || !c.eq x y then
      (settle s.front p b).map (fun f => { s with front := f })
    else
      let s ← dedupInto c s b q x y
      let bb ← s.buckets[b]?
      if bb.es = [] then
        let f ← s.front.setPos b (.slot p)
        let f ← removeT f b
        some { s with front := f }
      else
        let f ← s.front.wrSlot p q
        let f ← f.setPos q (.slot p)
        decLoop b n (p + 1) { s with front := f }

/-- `keyDecreased` (src/mathic/GeoFront.h:58, 276-309). -/
def keyDecreased (s : State E) (b : ℕ) : Option (State E) :=
  if c.trackFront then
    match s.buckets[b]? with
    | none => none
    | some bb =>
      if bb.es = [] then (removeT s.front b).map (fun f => { s with front := f })
      else
        match s.front.pos[b]? with
        | some (.slot p) =>
          if p + 1 ≤ s.front.fend then decLoop c b (s.front.fend - (p + 1)) p s else none
        | _ => none
  else some { s with front := { s.front with cached := none } }

/-- `if (a->_frontPos != 0) *a->_frontPos = a;` (src/mathic/GeoFront.h:329-332). -/
def writeBack (f : Front) (a : ℕ) : Option Front :=
  match f.pos[a]? with
  | some .null => some f
  | some (.slot p) => f.wrSlot p a
  | _ => none

/-- `swapKeys` (src/mathic/GeoFront.h:59, 324-333). -/
def swapKeys (s : State E) (a b : ℕ) : Option (State E) :=
  if c.trackFront then do
    let ta ← s.front.pos[a]?
    let tb ← s.front.pos[b]?
    let f ← s.front.setPos a tb
    let f ← f.setPos b ta
    let f ← writeBack f a
    let f ← writeBack f b
    some { s with front := f }
  else some s

/-- `larger` of the tracked front (src/mathic/GeoFront.h:335-340); comparing other than two positions
is undefined. -/
def larger (f : Front) (a b : ℕ) : Option Bool :=
  match f.pos[a]?, f.pos[b]? with
  | some (.slot i), some (.slot j) => some (decide (i < j))
  | _, _ => none

/-- The loop of `computeMax` (src/mathic/GeoFront.h:104-120): `m` is `maxBucket`, `it` the next bucket
to look at, `n` the number of buckets left. -/
def maxLoop : ℕ → ℕ → ℕ → State E → Option (ℕ × State E)
  | 0, m, _, s => some (m, s)
  | n + 1, m, it, s => do
    let ib ← s.buckets[it]?
    if ib.es = [] then maxLoop n m (it + 1) s
    else
      let mb ← s.buckets[m]?
      let x ← ib.getBack c
      let y ← mb.getBack c
      if c.lt x y then maxLoop n m (it + 1) s
      else if c.supportDedup && c.eq x y then
        let mb ← mb.setEntry c (mb.es.length - 1) (c.dedup y x)
        let s := s.setBucket m mb
        let ib ← s.buckets[it]?
        let ib ← ib.popBack c
        maxLoop n m (it + 1) { s.setBucket it ib with count := s.count - 1 }
      else maxLoop n it (it + 1) s

/-- `getMax` with `computeMax` (src/mathic/GeoFront.h:85-123, 342-346). The untracked version may merge
entries, though `top()` is `const`. -/
def getMax (s : State E) : Option (ℕ × State E) :=
  if c.trackFront then
    if s.front.fend = 0 then none else (s.front.rdSlot 0).map (fun b => (b, s))
  else
    match s.front.cached with
    | some b => some (b, s)
    | none =>
      match s.buckets.findIdx? (fun b => !b.es.isEmpty) with
      | none => none
      | some m =>
        (maxLoop c (s.buckets.length - (m + 1)) m (m + 1) s).map
          (fun r => (r.1, { r.2 with front := { r.2.front with cached := some r.1 } }))

/-- `clear` of the front (src/mathic/GeoFront.h:45-47, 185-188). -/
def frontClear (f : Front) : Front :=
  if c.trackFront then { f with fend := 0 } else { f with cached := none }

/-! ## The geobucket -/

/-- `addBucket` (src/mathic/Geobucket.h:503-563). -/
def addBucket (s : State E) : Option (State E) :=
  let cap := match s.buckets.getLast? with
    | none => c.minBucketSize
    | some b => b.cap * c.geoBase
  let bs := s.buckets ++ [⟨cap, [], none⟩]
  let f := { s.front with pos := s.front.pos ++ [.null] }
  if c.trackFront then
    (reserveCapacity f bs.length).map (fun f => { s with buckets := bs, front := f })
  else some { s with buckets := bs, front := { f with cached := none } }

/-- The constructor (src/mathic/Geobucket.h:311-323). -/
def mk : Option (State E) := addBucket c ⟨[], 0, ⟨none, [], 0, []⟩⟩

/-- `merge` (src/mathic/Geobucket.h:741-771): what is written to `res`, and how often `_entryCount` is
decreased. -/
def merge : List E → List E → List E × ℕ
  | [], l₂ => (l₂, 0)
  | a :: l₁, [] => (a :: l₁, 0)
  | a :: l₁, b :: l₂ =>
    if c.lt a b then
      let r := merge l₁ (b :: l₂)
      (a :: r.1, r.2)
    else if !c.supportDedup || !c.eq a b then
      let r := merge (a :: l₁) l₂
      (b :: r.1, r.2)
    else
      let r := merge l₁ l₂
      (c.dedup a b :: r.1, r.2 + 1)
termination_by l₁ l₂ => l₁.length + l₂.length

/-- The capacity of `_tmp` and of `_tmpForNoPremerge`, that of the largest bucket
(src/mathic/Geobucket.h:520-522, 554-559). -/
def tmpCap (s : State E) : ℕ :=
  match s.buckets.getLast? with
  | none => 0
  | some b => b.cap

/-- The three ways to merge `l` into the entries `es` of a bucket (src/mathic/Geobucket.h:583-597); the
plain one copies `es` to `_tmp`, of capacity `tmp`, first. -/
def mergeRes (tmp : ℕ) (es l : List E) : Option (List E × ℕ) :=
  match c.storage with
  | .doubleBuffer => some (merge c es l)
  | .sameSize => some (merge c es l)
  | .plain => if es.length ≤ tmp then some (merge c l es) else none

/-- `mergeToNonEmpty` with a range (src/mathic/Geobucket.h:578-600). -/
def mergeToNonEmpty (s : State E) (into : ℕ) (l : List E) : Option (State E) := do
  let b ← s.buckets[into]?
  let r ← mergeRes c (tmpCap s) b.es l
  let b ← b.fill r.1
  keyIncreased c { s.setBucket into b with count := s.count - r.2 } into

/-- `mergeToNonEmpty` with a bucket (src/mathic/Geobucket.h:565-576). -/
def mergeBuckets (s : State E) (dst src : ℕ) : Option (State E) := do
  let swap ← (if c.trackFront then larger s.front src dst else some true)
  let s ← (if swap then swapKeys c s dst src else some s)
  let fb ← s.buckets[src]?
  let s ← mergeToNonEmpty c s dst fb.es
  let fb ← s.buckets[src]?
  frontRemove c (s.setBucket src fb.clear) src

/-- `mergeToEmpty` (src/mathic/Geobucket.h:602-614). -/
def mergeToEmpty (s : State E) (dst src : ℕ) (l : List E) : Option (State E) := do
  let fb ← s.buckets[src]?
  let tb ← s.buckets[dst]?
  let r := merge c l fb.es
  let tb ← tb.fill r.1
  let s := { (s.setBucket dst tb).setBucket src fb.clear with count := s.count - r.2 }
  let s ← swapKeys c s src dst
  keyIncreased c s dst

/-- `moveToEmpty` (src/mathic/Geobucket.h:616-632); in both branches `to` has the entries and `from` has
none. -/
def moveToEmpty (s : State E) (dst src : ℕ) : Option (State E) := do
  let fb ← s.buckets[src]?
  let tb ← s.buckets[dst]?
  let tb ← tb.fill fb.es
  swapKeys c ((s.setBucket dst tb).setBucket src fb.clear) src dst

/-- `assign` and `_front.insert` (src/mathic/Geobucket.h:647-648, 735-736). -/
def assignNew (s : State E) (b : ℕ) (l : List E) : Option (State E) := do
  let bb ← s.buckets[b]?
  let bb ← bb.fill l
  frontInsert c (s.setBucket b bb) b

/-- The loop that makes room (src/mathic/Geobucket.h:656-663), from bucket `i` on. The first argument
bounds the number of rounds; using it up would be an endless loop. -/
def reserveLoop : ℕ → ℕ → ℕ → State E → Option (State E)
  | 0, _, _, _ => none
  | n + 1, i, acc, s => do
    let s ← (if i = s.buckets.length then addBucket c s else some s)
    let b ← s.buckets[i]?
    if acc + b.es.length ≤ b.cap then some s else reserveLoop n (i + 1) (acc + b.es.length) s

/-- A merge into `_tmp` or `_tmpForNoPremerge`, after which the bucket is cleared and leaves the front
(src/mathic/Geobucket.h:674-678, 694-699). -/
def mergeToTmp (s : State E) (b : ℕ) (l : List E) : Option (List E × State E) := do
  let cur ← s.buckets[b]?
  let r := merge c l cur.es
  if r.1.length ≤ tmpCap s then
    let s ← frontRemove c { s.setBucket b cur.clear with count := s.count - r.2 } b
    some (r.1, s)
  else none

/-- The second loop of `insert` without premerge (src/mathic/Geobucket.h:680-700); `n` bounds the number of
rounds. `l` is what is in `_tmpForNoPremerge`. -/
def cascadeLoop : ℕ → ℕ → List E → State E → Option (State E)
  | 0, _, _, _ => none
  | n + 1, b, l, s => do
    let cur ← s.buckets[b]?
    if l.length + cur.es.length ≤ cur.cap then mergeToNonEmpty c s b l
    else
      let next ← s.buckets[b + 1]?
      if next.es = [] then mergeToEmpty c s (b + 1) b l
      else
        let (l, s) ← mergeToTmp c s b l
        cascadeLoop n (b + 1) l s

/-- `insert` without premerge (src/mathic/Geobucket.h:634-701). -/
def insertNoPremerge (s : State E) (b : ℕ) (l : List E) : Option (State E) := do
  let bucket ← s.buckets[b]?
  if bucket.es = [] then assignNew c s b l
  else if bucket.es.length + l.length ≤ bucket.cap then mergeToNonEmpty c s b l
  else
    let s ← reserveLoop c (s.buckets.length + 1) (b + 1) (bucket.es.length + l.length) s
    let next ← s.buckets[b + 1]?
    if next.es = [] then mergeToEmpty c s (b + 1) b l
    else
      let (l, s) ← mergeToTmp c s b l
      cascadeLoop c s.buckets.length (b + 1) l s

/-- The loop that finds the range of premerges (src/mathic/Geobucket.h:709-723); `n` bounds the number of
rounds. -/
def premergeRange : ℕ → ℕ → ℕ → State E → Option (ℕ × State E)
  | 0, _, _, _ => none
  | n + 1, r, incoming, s => do
    let b ← s.buckets[r]?
    if b.es.length + incoming ≤ b.cap then some (r, s)
    else if r + 1 = s.buckets.length then (addBucket c s).map (fun s => (r + 1, s))
    else premergeRange n (r + 1) b.es.length s

/-- The loop of moves (src/mathic/Geobucket.h:730-731), `n` of them down from bucket `r`. -/
def moveLoop : ℕ → ℕ → State E → Option (State E)
  | 0, _, s => some s
  | n + 1, r, s => do
    let s ← moveToEmpty c s r (r - 1)
    moveLoop n (r - 1) s

/-- The premerges (src/mathic/Geobucket.h:725-732). -/
def premerges (s : State E) (b r : ℕ) : Option (State E) :=
  if b ≠ r then do
    let rb ← s.buckets[r]?
    if rb.es ≠ [] then
      let s ← mergeBuckets c s r (r - 1)
      moveLoop c (r - 1 - b) (r - 1) s
    else moveLoop c (r - b) r s
  else some s

/-- `insert` with premerge (src/mathic/Geobucket.h:703-739). -/
def insertPremerge (s : State E) (b : ℕ) (l : List E) : Option (State E) := do
  let (r, s) ← premergeRange c (s.buckets.length + 1) b l.length s
  let s ← premerges c s b r
  let bucket ← s.buckets[b]?
  if bucket.es = [] then assignNew c s b l else mergeToNonEmpty c s b l

/-- The choice by `Premerge<C::premerge>`. -/
def insert (s : State E) (b : ℕ) (l : List E) : Option (State E) :=
  if c.premerge then insertPremerge c s b l else insertNoPremerge c s b l

/-- Where the search for the place of a new entry ends: at a place, or at an equal entry. -/
inductive Place where
  | insertAt (i : ℕ)
  | dup (i : ℕ)

/-- The binary search of `push` (src/mathic/Geobucket.h:356-381). -/
def binarySearch (es : List E) (e : E) (start range : ℕ) : Option Place :=
  if range = 0 then some (.insertAt start)
  else
    match es[start + range / 2]? with
    | none => none
    | some m =>
      if c.lt e m then binarySearch es e start (range / 2)
      else if !c.supportDedup || !c.eq e m then
        binarySearch es e (start + range / 2 + 1) (range - (range / 2 + 1))
      else some (.dup (start + range / 2))
termination_by range
decreasing_by all_goals omega

/-- The linear search of `push` (src/mathic/Geobucket.h:383-395), with `i` entries passed. -/
def linearSearch (e : E) (i : ℕ) : List E → Place
  | [] => .insertAt i
  | m :: es =>
    if c.lt e m then .insertAt i
    else if c.supportDedup && c.eq e m then .dup i
    else linearSearch e (i + 1) es

/-- The choice by `minBucketBinarySearch`. -/
def search (es : List E) (e : E) : Option Place :=
  if c.binarySearch then binarySearch c es e 0 es.length else some (linearSearch c e 0 es)

/-- `push` of one entry (src/mathic/Geobucket.h:343-399). -/
def push (s : State E) (e : E) : Option (State E) := do
  let s := { s with count := s.count + 1 }
  let b ← s.buckets[0]?
  if b.es.length = b.cap then insert c s 0 [e]
  else if b.es = [] then
    let b ← b.pushBack c e
    frontInsert c (s.setBucket 0 b) 0
  else
    match ← search c b.es e with
    | .insertAt i =>
      if i = b.es.length then
        let b ← b.pushBack c e
        keyIncreased c (s.setBucket 0 b) 0
      else
        let b ← b.insertAtNotEnd i e
        some (s.setBucket 0 b)
    | .dup i =>
      let m ← b.es[i]?
      let b ← b.setEntry c i (c.dedup m e)
      some { s.setBucket 0 b with count := s.count - 1 }

/-- `while (adjCount > (_bucketEnd - 1)->capacity()) addBucket();` (src/mathic/Geobucket.h:421-422); the
first argument bounds the number of rounds. -/
def growLoop : ℕ → ℕ → State E → Option (State E)
  | 0, _, _ => none
  | n + 1, adj, s =>
    if adj > tmpCap s then
      match addBucket c s with
      | none => none
      | some s => growLoop n adj s
    else some s

/-- `push` of a range (src/mathic/Geobucket.h:401-433). -/
def pushRange (s : State E) (l : List E) : Option (State E) := do
  let adj := l.length * c.insertFactor
  let s ← growLoop c (adj + 1) adj { s with count := s.count + l.length }
  let b ← s.buckets.findIdx? (fun b => decide (adj ≤ b.cap))
  insert c s b l.reverse

/-- `pop` (src/mathic/Geobucket.h:445-455). -/
def pop (s : State E) : Option (E × State E) := do
  let (m, s) ← getMax c s
  let b ← s.buckets[m]?
  let x ← b.getBack c
  let b ← b.popBack c
  let s ← keyDecreased c { s.setBucket m b with count := s.count - 1 } m
  some (x, s)

/-- `top` (src/mathic/Geobucket.h:457-461). -/
def top (s : State E) : Option (E × State E) := do
  let (m, s) ← getMax c s
  let b ← s.buckets[m]?
  let x ← b.getBack c
  some (x, s)

/-- `decreaseTop` (src/mathic/Geobucket.h:463-468). -/
def decreaseTop (s : State E) (e : E) : Option (State E) := do
  let (_, s) ← pop c s
  push c s e

/-- `clear` (src/mathic/Geobucket.h:435-443). -/
def clear (s : State E) : State E :=
  { buckets := s.buckets.map Bucket.clear, count := 0, front := frontClear c s.front }

/-- What `forAll` visits (src/mathic/Geobucket.h:154-166) when never told to stop. -/
def entries (s : State E) : List E := s.buckets.flatMap Bucket.es

/-- One call. -/
def step (s : State E) : PQOp E → Option (Option E × State E)
  | .push e => (push c s e).map (fun s => (none, s))
  | .pushRange l => (pushRange c s l).map (fun s => (none, s))
  | .top => (top c s).map (fun r => (some r.1, r.2))
  | .pop => (pop c s).map (fun r => (some r.1, r.2))
  | .decreaseTop e => (decreaseTop c s e).map (fun s => (none, s))
  | .clear => some (none, clear c s)

/-- The geobucket as a priority queue; `size` and `empty` are src/mathic/Geobucket.h:470-484. The
constructor is defined for every configuration (`mk_spec`), the default is never taken. -/
def impl : PQImpl E where
  State := State E
  init := (mk c).getD ⟨[], 0, ⟨none, [], 0, []⟩⟩
  step := step c
  entries := entries
  top s := (top c s).map Prod.fst
  empty s := s.count == 0
  size s := s.count

end Verif.Geobucket
