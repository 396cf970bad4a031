import Verif.Geobucket

/-!
# Model of the memory of `mathic::Geobucket` (src/mathic/Geobucket.h)

Here the entries of all buckets are in the one vector `_mem` that `addBucket` cuts up into areas. A
pointer to an entry is a position in that vector, every entry is read and written one at a time in
the order of the code, and an access outside of the vector is undefined. So an area that overlaps
another one would show in what the buckets hold.

The front does not touch the memory except through `back`, `setEntry` and `pop_back` of buckets. The
functions of the front that only read (src/mathic/GeoFront.h) are those of `Verif.Geobucket`, run on
what the buckets show of the memory (`State.view`); those that change buckets are modelled again.

Simplifications: as in `Verif.Geobucket`, except for the memory. Iterators given by the caller do not
point into the memory of the geobucket. `dflt` is the entry that the default constructor makes.
-/

namespace Verif.GeoMem

open Geobucket (Conf Storage Front Place)

variable {E : Type}

/-! ## Memory -/

/-- `*p = e`. -/
def wr (m : List E) (p : ℕ) (e : E) : Option (List E) :=
  if p < m.length then some (m.set p e) else none

/-- The `n` entries from position `p` on, which must lie in the memory. -/
def slice (m : List E) (p n : ℕ) : List E := (m.drop p).take n

/-- A range `[begin, end)` given by two iterators: into a container of the caller, or into the memory
of the geobucket. -/
inductive Src (E : Type) where
  | ext (l : List E)
  | mem (p n : ℕ)

/-- `end - begin`. -/
def Src.len : Src E → ℕ
  | .ext l => l.length
  | .mem _ n => n

/-- `*begin`, which must not be the end. -/
def Src.head (m : List E) : Src E → Option E
  | .ext l => l.head?
  | .mem p n => if n = 0 then none else m[p]?

/-- `++begin`. -/
def Src.tail : Src E → Src E
  | .ext l => .ext l.tail
  | .mem p n => .mem (p + 1) (n - 1)

/-- `*(end - 1)`. -/
def Src.last (m : List E) : Src E → Option E
  | .ext l => l.getLast?
  | .mem p n => if n = 0 then none else m[p + n - 1]?

/-- `std::copy(begin, end, res)`, with `n` entries left to copy: the memory and the end of what has
been written. -/
def copyLoop : ℕ → List E → Src E → ℕ → Option (List E × ℕ)
  | 0, m, _, res => some (m, res)
  | n + 1, m, a, res => do
    let x ← a.head m
    let m ← wr m res x
    copyLoop n m a.tail (res + 1)

/-- `std::copy(begin, end, res)`. -/
def copy (m : List E) (a : Src E) (res : ℕ) : Option (List E × ℕ) := copyLoop a.len m a res

variable (c : Conf E)

/-- The loop of `Geobucket::merge` (src/mathic/Geobucket.h:741-771), with at most `n` rounds: the
memory, the end of what has been written, and how often `_entryCount` is decreased. -/
def mergeLoop : ℕ → List E → Src E → Src E → ℕ → Option (List E × ℕ × ℕ)
  | 0, _, _, _, _ => none
  | n + 1, m, a, b, res =>
    if a.len = 0 then (copy m b res).map (fun r => (r.1, r.2, 0))
    else if b.len = 0 then (copy m a res).map (fun r => (r.1, r.2, 0))
    else do
      let x ← a.head m
      let y ← b.head m
      if c.lt x y then
        let m ← wr m res x
        mergeLoop n m a.tail b (res + 1)
      else if !c.supportDedup || !c.eq x y then
        let m ← wr m res y
        mergeLoop n m a b.tail (res + 1)
      else
        let m ← wr m res (c.dedup x y)
        let r ← mergeLoop n m a.tail b.tail (res + 1)
        some (r.1, r.2.1, r.2.2 + 1)

/-- `Geobucket::merge` (src/mathic/Geobucket.h:741-771). -/
def merge (m : List E) (a b : Src E) (res : ℕ) : Option (List E × ℕ × ℕ) :=
  mergeLoop c (a.len + b.len + 1) m a b res

/-! ## Buckets -/

/-- `Bucket` (src/mathic/Geobucket.h:264-271) without `_frontPos`. `start` is `_begin`, `other` is
`_otherBuffer` with `none` for null. -/
structure Bucket (E : Type) where
  start : ℕ
  other : Option ℕ
  size : ℕ
  cap : ℕ
  back : Option E

/-- The members of a `Geobucket` (src/mathic/Geobucket.h:293-305). `tmp2` is `_tmpForNoPremerge`. -/
structure State (E : Type) where
  mem : List E
  buckets : List (Bucket E)
  tmp : ℕ
  tmp2 : Option ℕ
  count : ℕ
  front : Front

/-- What a bucket holds. -/
def Bucket.view (m : List E) (b : Bucket E) : Geobucket.Bucket E := ⟨b.cap, slice m b.start b.size, b.back⟩

/-- What the buckets hold, for the functions of the front that only read. -/
def State.view (s : State E) : Geobucket.State E := ⟨s.buckets.map (Bucket.view s.mem), s.count, s.front⟩

/-- Overwrite bucket `i`. -/
def State.setBucket (s : State E) (i : ℕ) (b : Bucket E) : State E :=
  { s with buckets := s.buckets.set i b }

/-- The range of the entries of a bucket, `[begin(), end())`. -/
def Bucket.src (b : Bucket E) : Src E := .mem b.start b.size

/-- `Bucket::back` (src/mathic/Geobucket.h:183-186). -/
def Bucket.getBack (m : List E) (b : Bucket E) : Option E :=
  if b.size = 0 then none else if c.collectMax then b.back else m[b.start + b.size - 1]?

/-- `if (size > 0) _back = *(end() - 1);` (src/mathic/Geobucket.h:217-218, 232-233, 250-251). -/
def Bucket.setBack (m : List E) (b : Bucket E) : Option (Bucket E) :=
  if b.size > 0 then do
    let x ← m[b.start + b.size - 1]?
    some { b with back := some x }
  else some b

/-- `Bucket::pop_back` (src/mathic/Geobucket.h:191-196). -/
def Bucket.popBack (m : List E) (b : Bucket E) : Option (Bucket E) :=
  if b.size = 0 then none
  else
    let b := { b with size := b.size - 1 }
    if c.collectMax then b.setBack m else some b

/-- `Bucket::setEntry` (src/mathic/Geobucket.h:197-202), at position `i` of the bucket. -/
def Bucket.setEntry (m : List E) (b : Bucket E) (i : ℕ) (e : E) : Option (List E × Bucket E) :=
  if i < b.size then do
    let m ← wr m (b.start + i) e
    some (m, if c.collectMax && decide (i + 1 = b.size) then { b with back := some e } else b)
  else none

/-- The loop of `insertAtNotEnd` (src/mathic/Geobucket.h:205-206) from position `it` on, `n` rounds. -/
def shiftLoop : ℕ → ℕ → List E → Option (List E)
  | 0, _, m => some m
  | n + 1, it, m => do
    let x ← m[it - 1]?
    let m ← wr m it x
    shiftLoop n (it - 1) m

/-- `Bucket::insertAtNotEnd` (src/mathic/Geobucket.h:203-209). -/
def Bucket.insertAtNotEnd (m : List E) (b : Bucket E) (i : ℕ) (e : E) : Option (List E × Bucket E) :=
  if i < b.size then do
    let m ← shiftLoop (b.size - i) (b.start + b.size) m
    let m ← wr m (b.start + i) e
    some (m, { b with size := b.size + 1 })
  else none

/-- `Bucket::push_back` (src/mathic/Geobucket.h:253-259). -/
def Bucket.pushBack (m : List E) (b : Bucket E) (e : E) : Option (List E × Bucket E) := do
  let m ← wr m (b.start + b.size) e
  some (m, { b with size := b.size + 1, back := if c.collectMax then some e else b.back })

/-- `Bucket::clear` (src/mathic/Geobucket.h:235-237). -/
def Bucket.clear (b : Bucket E) : Bucket E := { b with size := 0 }

/-- `Bucket::setBufferWithNewEntries` (src/mathic/Geobucket.h:214-219). -/
def Bucket.setBufferNew (m : List E) (b : Bucket E) (buffer size : ℕ) : Option (Bucket E) :=
  Bucket.setBack m { b with start := buffer, size := size }

/-- `Bucket::switchToOtherBuffer` (src/mathic/Geobucket.h:228-234). -/
def Bucket.switchOther (m : List E) (b : Bucket E) (size : ℕ) : Option (Bucket E) := do
  let o ← b.other
  Bucket.setBack m { b with start := o, other := some b.start, size := size }

/-- `Bucket::assign` (src/mathic/Geobucket.h:238-245); `_back` is read from the range given. -/
def Bucket.assign (m : List E) (b : Bucket E) (a : Src E) : Option (List E × Bucket E) := do
  let r ← copy m a b.start
  let b := { b with size := a.len }
  if a.len > 0 then
    let x ← a.last r.1
    some (r.1, { b with back := some x })
  else some (r.1, b)

/-- `Bucket::merge` (src/mathic/Geobucket.h:246-252). -/
def Bucket.merge (m : List E) (b : Bucket E) (a₁ a₂ : Src E) : Option (List E × Bucket E × ℕ) := do
  let r ← GeoMem.merge c m a₁ a₂ b.start
  let b ← Bucket.setBack r.1 { b with size := r.2.1 - b.start }
  some (r.1, b, r.2.2)

/-! ## The front -/

/-- A call of a function of the front that changes only the front. -/
def withFront (s : State E) (t : Option (Geobucket.State E)) : Option (State E) :=
  t.map (fun t => { s with front := t.front })

/-- `keyIncreased` (src/mathic/GeoFront.h:57, 255-274). -/
def keyIncreased (s : State E) (b : ℕ) : Option (State E) := withFront s (Geobucket.keyIncreased c s.view b)

/-- `insert` (src/mathic/GeoFront.h:55, 240-253). -/
def frontInsert (s : State E) (b : ℕ) : Option (State E) := withFront s (Geobucket.frontInsert c s.view b)

/-- `remove` (src/mathic/GeoFront.h:56, 311-322). -/
def frontRemove (s : State E) (b : ℕ) : Option (State E) := withFront s (Geobucket.frontRemove c s.view b)

/-- `swapKeys` (src/mathic/GeoFront.h:59, 324-333). -/
def swapKeys (s : State E) (a b : ℕ) : Option (State E) := withFront s (Geobucket.swapKeys c s.view a b)

/-- `back` of bucket `i`. -/
def backAt (s : State E) (i : ℕ) : Option E :=
  match s.buckets[i]? with
  | none => none
  | some b => b.getBack c s.mem

/-- The deduplication in `keyDecreased` (src/mathic/GeoFront.h:291-294). -/
def dedupInto (s : State E) (b q : ℕ) (x y : E) : Option (State E) := do
  let qb ← s.buckets[q]?
  let (m, qb) ← qb.setEntry c s.mem (qb.size - 1) (c.dedup x y)
  let s := { s.setBucket q qb with mem := m }
  let bb ← s.buckets[b]?
  let bb ← bb.popBack c s.mem
  some { s.setBucket b bb with count := s.count - 1 }

/-- The loop of `keyDecreased` and what follows it (src/mathic/GeoFront.h:284-308), at position `p` with
`n` cells after it. -/
def decLoop (b : ℕ) : ℕ → ℕ → State E → Option (State E)
  | 0, p, s => (Geobucket.settle s.front p b).map (fun f => { s with front := f })
  | n + 1, p, s => do
    let q ← s.front.rdSlot (p + 1)
    let x ← backAt c s b
    let y ← backAt c s q
    if c.lt x y then
      let f ← s.front.wrSlot p q
      let f ← f.setPos q (.slot p)
      decLoop b n (p + 1) { s with front := f }
    else if !c.supportDedup || !c.eq x y then
      (Geobucket.settle s.front p b).map (fun f => { s with front := f })
    else
      let s ← dedupInto c s b q x y
      let bb ← s.buckets[b]?
      if bb.size = 0 then
        let f ← s.front.setPos b (.slot p)
        let f ← Geobucket.removeT f b
        some { s with front := f }
      else
        let f ← s.front.wrSlot p q
        let f ← f.setPos q (.slot p)
        decLoop b n (p + 1) { s with front := f }

/-- `keyDecreased` (src/mathic/GeoFront.h:58, 276-309). -/
def keyDecreased (s : State E) (b : ℕ) : Option (State E) :=
  if c.trackFront then
    match s.buckets[b]? with
    | none => none
    | some bb =>
      if bb.size = 0 then (Geobucket.removeT s.front b).map (fun f => { s with front := f })
      else
        match s.front.pos[b]? with
        | some (.slot p) =>
          if p + 1 ≤ s.front.fend then decLoop c b (s.front.fend - (p + 1)) p s else none
        | _ => none
  else some { s with front := { s.front with cached := none } }

/-- The loop of `computeMax` (src/mathic/GeoFront.h:104-120): `x` is `maxBucket`, `it` the next bucket
to look at, `n` the number of buckets left. -/
def maxLoop : ℕ → ℕ → ℕ → State E → Option (ℕ × State E)
  | 0, x, _, s => some (x, s)
  | n + 1, x, it, s => do
    let ib ← s.buckets[it]?
    if ib.size = 0 then maxLoop n x (it + 1) s
    else
      let mb ← s.buckets[x]?
      let u ← ib.getBack c s.mem
      let v ← mb.getBack c s.mem
      if c.lt u v then maxLoop n x (it + 1) s
      else if c.supportDedup && c.eq u v then
        let (m, mb) ← mb.setEntry c s.mem (mb.size - 1) (c.dedup v u)
        let s := { s.setBucket x mb with mem := m }
        let ib ← s.buckets[it]?
        let ib ← ib.popBack c s.mem
        maxLoop n x (it + 1) { s.setBucket it ib with count := s.count - 1 }
      else maxLoop n it (it + 1) s

/-- `getMax` with `computeMax` (src/mathic/GeoFront.h:85-123, 342-346). -/
def getMax (s : State E) : Option (ℕ × State E) :=
  if c.trackFront then
    if s.front.fend = 0 then none else (s.front.rdSlot 0).map (fun b => (b, s))
  else
    match s.front.cached with
    | some b => some (b, s)
    | none =>
      match s.buckets.findIdx? (fun b => decide (b.size ≠ 0)) with
      | none => none
      | some x =>
        (maxLoop c (s.buckets.length - (x + 1)) x (x + 1) s).map
          (fun r => (r.1, { r.2 with front := { r.2.front with cached := some r.1 } }))

/-! ## The geobucket -/

/-- The size of the vector that `addBucket` allocates for buckets of capacities `caps` and a new one of
capacity `n` (src/mathic/Geobucket.h:508-522). -/
def required (caps : List ℕ) (n : ℕ) : ℕ :=
  (caps.map (fun k => (if c.storage = .sameSize then n else k) +
    (if c.storage = .doubleBuffer then k else 0))).sum +
  (n + (if c.storage = .doubleBuffer then n else 0) + n + (if c.premerge then 0 else n))

/-- `&(newMem[offset])`, which must be an element. -/
def addr (m : List E) (p : ℕ) : Option ℕ := if p < m.length then some p else none

/-- The loop that moves the buckets to the new memory `m` (src/mathic/Geobucket.h:529-538), with
`setBuffer` and `setOtherBuffer` (src/mathic/Geobucket.h:210-223). The entries are copied from the old
memory `old`. -/
def moveBuffers (old : List E) (n : ℕ) : ℕ → List E → List (Bucket E) → Option (List E × List (Bucket E) × ℕ)
  | offset, m, [] => some (m, [], offset)
  | offset, m, b :: bs => do
    if b.start + b.size ≤ old.length then
      let p ← addr m offset
      let (m, _) ← copy m (.ext (slice old b.start b.size)) p
      let offset := offset + (if c.storage = .sameSize then n else b.cap)
      if c.storage = .doubleBuffer then
        let o ← addr m offset
        let (m, bs, offset) ← moveBuffers old n (offset + b.cap) m bs
        some (m, { b with start := p, other := some o } :: bs, offset)
      else
        let (m, bs, offset) ← moveBuffers old n offset m bs
        some (m, { b with start := p } :: bs, offset)
    else none

/-- `addBucket` (src/mathic/Geobucket.h:503-563). `dflt` is the entry that the default constructor
makes. The positions that the front notes are adjusted as in `Verif.Geobucket.addBucket`. -/
def addBucket (dflt : E) (s : State E) : Option (State E) := do
  let n := match s.buckets.getLast? with
    | none => c.minBucketSize
    | some b => b.cap * c.geoBase
  let req := required c (s.buckets.map Bucket.cap) n
  if s.mem.length ≤ req then
    let m := s.mem ++ List.replicate (req - s.mem.length) dflt
    let (m, bs, offset) ← moveBuffers c s.mem n 0 m s.buckets
    let buffer ← addr m offset
    let offset := offset + n
    let other ← (if c.storage = .doubleBuffer then (addr m offset).map some else some none)
    let offset := if c.storage = .doubleBuffer then offset + n else offset
    let bs := bs ++ [⟨buffer, other, 0, n, none⟩]
    let f := { s.front with pos := s.front.pos ++ [.null] }
    let f ← (if c.trackFront then Geobucket.reserveCapacity f bs.length
      else some { f with cached := none })
    let tmp ← addr m offset
    let offset := offset + n
    let tmp2 ← (if c.premerge then some none else (addr m offset).map some)
    some { mem := m, buckets := bs, tmp := tmp, tmp2 := tmp2, count := s.count, front := f }
  else none

/-- The constructor (src/mathic/Geobucket.h:311-323). -/
def mk (dflt : E) : Option (State E) := addBucket c dflt ⟨[], [], 0, none, 0, ⟨none, [], 0, []⟩⟩

/-- `mergeToNonEmpty` with a range (src/mathic/Geobucket.h:578-600). -/
def mergeToNonEmpty (s : State E) (into : ℕ) (a : Src E) : Option (State E) := do
  let b ← s.buckets[into]?
  match c.storage with
  | .doubleBuffer =>
    let o ← b.other
    let (m, e, k) ← merge c s.mem b.src a o
    let b ← b.switchOther m (e - o)
    keyIncreased c { s.setBucket into b with mem := m, count := s.count - k } into
  | .sameSize =>
    let (m, e, k) ← merge c s.mem b.src a s.tmp
    let b' ← b.setBufferNew m s.tmp (e - s.tmp)
    keyIncreased c { s.setBucket into b' with mem := m, tmp := b.start, count := s.count - k } into
  | .plain =>
    let (m, e) ← copy s.mem b.src s.tmp
    let (m, b, k) ← b.merge c m a (.mem s.tmp (e - s.tmp))
    keyIncreased c { s.setBucket into b with mem := m, count := s.count - k } into

/-- `mergeToNonEmpty` with a bucket (src/mathic/Geobucket.h:565-576). -/
def mergeBuckets (s : State E) (dst src : ℕ) : Option (State E) := do
  let swap ← (if c.trackFront then Geobucket.larger s.front src dst else some true)
  let s ← (if swap then swapKeys c s dst src else some s)
  let fb ← s.buckets[src]?
  let s ← mergeToNonEmpty c s dst fb.src
  let fb ← s.buckets[src]?
  frontRemove c (s.setBucket src fb.clear) src

/-- `mergeToEmpty` (src/mathic/Geobucket.h:602-614). -/
def mergeToEmpty (s : State E) (dst src : ℕ) (a : Src E) : Option (State E) := do
  let fb ← s.buckets[src]?
  let tb ← s.buckets[dst]?
  let (m, tb, k) ← tb.merge c s.mem a fb.src
  let s := { (s.setBucket dst tb).setBucket src fb.clear with mem := m, count := s.count - k }
  let s ← swapKeys c s src dst
  keyIncreased c s dst

/-- `moveToEmpty` (src/mathic/Geobucket.h:616-632). -/
def moveToEmpty (s : State E) (dst src : ℕ) : Option (State E) := do
  let fb ← s.buckets[src]?
  let tb ← s.buckets[dst]?
  if c.storage = .sameSize then
    let tb' ← tb.setBufferNew s.mem fb.start fb.size
    let fb' ← fb.setBufferNew s.mem tb.start 0
    swapKeys c ((s.setBucket dst tb').setBucket src fb') src dst
  else
    let (m, tb') ← tb.assign s.mem fb.src
    swapKeys c { (s.setBucket dst tb').setBucket src fb.clear with mem := m } src dst

/-- `assign` and `_front.insert` (src/mathic/Geobucket.h:647-648, 735-736). -/
def assignNew (s : State E) (b : ℕ) (a : Src E) : Option (State E) := do
  let bb ← s.buckets[b]?
  let (m, bb) ← bb.assign s.mem a
  frontInsert c { s.setBucket b bb with mem := m } b

/-- The loop that makes room (src/mathic/Geobucket.h:656-663), from bucket `i` on, at most `n` rounds. -/
def reserveLoop (dflt : E) : ℕ → ℕ → ℕ → State E → Option (State E)
  | 0, _, _, _ => none
  | n + 1, i, acc, s => do
    let s ← (if i = s.buckets.length then addBucket c dflt s else some s)
    let b ← s.buckets[i]?
    if acc + b.size ≤ b.cap then some s else reserveLoop dflt n (i + 1) (acc + b.size) s

/-- The second loop of `insert` without premerge (src/mathic/Geobucket.h:680-700), at most `n` rounds.
`l` is `tmpForNoPremergeEnd - _tmpForNoPremerge`. -/
def cascadeLoop : ℕ → ℕ → ℕ → State E → Option (State E)
  | 0, _, _, _ => none
  | n + 1, b, l, s => do
    let cur ← s.buckets[b]?
    let t ← s.tmp2
    if l + cur.size ≤ cur.cap then mergeToNonEmpty c s b (.mem t l)
    else
      let next ← s.buckets[b + 1]?
      if next.size = 0 then mergeToEmpty c s (b + 1) b (.mem t l)
      else
        let (m, e, k) ← merge c s.mem (.mem t l) cur.src s.tmp
        let s' := { s.setBucket b cur.clear with
          mem := m, count := s.count - k, tmp := t, tmp2 := some s.tmp }
        let s' ← frontRemove c s' b
        cascadeLoop n (b + 1) (e - s.tmp) s'

/-- `insert` without premerge (src/mathic/Geobucket.h:634-701). -/
def insertNoPremerge (dflt : E) (s : State E) (b : ℕ) (a : Src E) : Option (State E) := do
  let bucket ← s.buckets[b]?
  if bucket.size = 0 then assignNew c s b a
  else if bucket.size + a.len ≤ bucket.cap then mergeToNonEmpty c s b a
  else
    let s ← reserveLoop c dflt (s.buckets.length + 1) (b + 1) (bucket.size + a.len) s
    let cur ← s.buckets[b]?
    let next ← s.buckets[b + 1]?
    if next.size = 0 then mergeToEmpty c s (b + 1) b a
    else
      let t ← s.tmp2
      let (m, e, k) ← merge c s.mem a cur.src t
      let s ← frontRemove c { s.setBucket b cur.clear with mem := m, count := s.count - k } b
      cascadeLoop c s.buckets.length (b + 1) (e - t) s

/-- The loop that finds the range of premerges (src/mathic/Geobucket.h:709-723), at most `n` rounds. -/
def premergeRange (dflt : E) : ℕ → ℕ → ℕ → State E → Option (ℕ × State E)
  | 0, _, _, _ => none
  | n + 1, r, incoming, s => do
    let b ← s.buckets[r]?
    if b.size + incoming ≤ b.cap then some (r, s)
    else if r + 1 = s.buckets.length then (addBucket c dflt s).map (fun s => (r + 1, s))
    else premergeRange dflt n (r + 1) b.size s

/-- The loop of moves (src/mathic/Geobucket.h:730-731), `n` of them down from bucket `r`. -/
def moveLoop : ℕ → ℕ → State E → Option (State E)
  | 0, _, s => some s
  | n + 1, r, s => do
    let s ← moveToEmpty c s r (r - 1)
    moveLoop n (r - 1) s

/-- The premerges (src/mathic/Geobucket.h:725-732). -/
def premerges (s : State E) (b r : ℕ) : Option (State E) :=
  if b ≠ r then do
    let rb ← s.buckets[r]?
    if rb.size ≠ 0 then
      let s ← mergeBuckets c s r (r - 1)
      moveLoop c (r - 1 - b) (r - 1) s
    else moveLoop c (r - b) r s
  else some s

/-- `insert` with premerge (src/mathic/Geobucket.h:703-739). -/
def insertPremerge (dflt : E) (s : State E) (b : ℕ) (a : Src E) : Option (State E) := do
  let (r, s) ← premergeRange c dflt (s.buckets.length + 1) b a.len s
  let s ← premerges c s b r
  let bucket ← s.buckets[b]?
  if bucket.size = 0 then assignNew c s b a else mergeToNonEmpty c s b a

/-- The choice by `Premerge<C::premerge>`. -/
def insert (dflt : E) (s : State E) (b : ℕ) (a : Src E) : Option (State E) :=
  if c.premerge then insertPremerge c dflt s b a else insertNoPremerge c dflt s b a

/-- The binary search of `push` (src/mathic/Geobucket.h:356-381), in the entries from position `p` of
the memory on. -/
def binarySearch (m : List E) (p : ℕ) (e : E) (start range : ℕ) : Option Place :=
  if range = 0 then some (.insertAt start)
  else
    match m[p + (start + range / 2)]? with
    | none => none
    | some x =>
      if c.lt e x then binarySearch m p e start (range / 2)
      else if !c.supportDedup || !c.eq e x then
        binarySearch m p e (start + range / 2 + 1) (range - (range / 2 + 1))
      else some (.dup (start + range / 2))
termination_by range
decreasing_by all_goals omega

/-- The linear search of `push` (src/mathic/Geobucket.h:383-395), with `i` entries passed and `n` left. -/
def linearSearch (m : List E) (p : ℕ) (e : E) : ℕ → ℕ → Option Place
  | i, 0 => some (.insertAt i)
  | i, n + 1 =>
    match m[p + i]? with
    | none => none
    | some x =>
      if c.lt e x then some (.insertAt i)
      else if c.supportDedup && c.eq e x then some (.dup i)
      else linearSearch m p e (i + 1) n

/-- The choice by `minBucketBinarySearch`. -/
def search (m : List E) (b : Bucket E) (e : E) : Option Place :=
  if c.binarySearch then binarySearch c m b.start e 0 b.size else linearSearch c m b.start e 0 b.size

/-- `push` of one entry (src/mathic/Geobucket.h:343-399). -/
def push (dflt : E) (s : State E) (e : E) : Option (State E) := do
  let s := { s with count := s.count + 1 }
  let b ← s.buckets[0]?
  if b.size = b.cap then insert c dflt s 0 (.ext [e])
  else if b.size = 0 then
    let (m, b) ← b.pushBack c s.mem e
    frontInsert c { s.setBucket 0 b with mem := m } 0
  else
    match ← search c s.mem b e with
    | .insertAt i =>
      if i = b.size then
        let (m, b) ← b.pushBack c s.mem e
        keyIncreased c { s.setBucket 0 b with mem := m } 0
      else
        let (m, b) ← b.insertAtNotEnd s.mem i e
        some { s.setBucket 0 b with mem := m }
    | .dup i =>
      let x ← s.mem[b.start + i]?
      let (m, b) ← b.setEntry c s.mem i (c.dedup x e)
      some { s.setBucket 0 b with mem := m, count := s.count - 1 }

/-- `while (adjCount > (_bucketEnd - 1)->capacity()) addBucket();` (src/mathic/Geobucket.h:421-422), at
most as many rounds as the first argument says. -/
def growLoop (dflt : E) : ℕ → ℕ → State E → Option (State E)
  | 0, _, _ => none
  | n + 1, adj, s =>
    match s.buckets.getLast? with
    | none => none
    | some b =>
      if adj > b.cap then
        match addBucket c dflt s with
        | none => none
        | some s => growLoop dflt n adj s
      else some s

/-- `push` of a range (src/mathic/Geobucket.h:401-433). -/
def pushRange (dflt : E) (s : State E) (l : List E) : Option (State E) := do
  let adj := l.length * c.insertFactor
  let s ← growLoop c dflt (adj + 1) adj { s with count := s.count + l.length }
  let b ← s.buckets.findIdx? (fun b => decide (adj ≤ b.cap))
  insert c dflt s b (.ext l.reverse)

/-- `pop` (src/mathic/Geobucket.h:445-455). -/
def pop (s : State E) : Option (E × State E) := do
  let (x, s) ← getMax c s
  let b ← s.buckets[x]?
  let e ← b.getBack c s.mem
  let b ← b.popBack c s.mem
  let s ← keyDecreased c { s.setBucket x b with count := s.count - 1 } x
  some (e, s)

/-- `top` (src/mathic/Geobucket.h:457-461). -/
def top (s : State E) : Option (E × State E) := do
  let (x, s) ← getMax c s
  let b ← s.buckets[x]?
  let e ← b.getBack c s.mem
  some (e, s)

/-- `decreaseTop` (src/mathic/Geobucket.h:463-468). -/
def decreaseTop (dflt : E) (s : State E) (e : E) : Option (State E) := do
  let (_, s) ← pop c s
  push c dflt s e

/-- `clear` (src/mathic/Geobucket.h:435-443). -/
def clear (s : State E) : State E :=
  { s with buckets := s.buckets.map Bucket.clear, count := 0, front := Geobucket.frontClear c s.front }

/-- What `forAll` visits (src/mathic/Geobucket.h:154-166) when never told to stop. -/
def entries (s : State E) : List E := s.buckets.flatMap (fun b => slice s.mem b.start b.size)

/-- One call. -/
def step (dflt : E) (s : State E) : PQOp E → Option (Option E × State E)
  | .push e => (push c dflt s e).map (fun s => (none, s))
  | .pushRange l => (pushRange c dflt s l).map (fun s => (none, s))
  | .top => (top c s).map (fun r => (some r.1, r.2))
  | .pop => (pop c s).map (fun r => (some r.1, r.2))
  | .decreaseTop e => (decreaseTop c dflt s e).map (fun s => (none, s))
  | .clear => some (none, clear c s)

/-- The geobucket with its memory as a priority queue; `size` and `empty` are
src/mathic/Geobucket.h:470-484. The constructor is defined for every sane configuration (`mk_sim`), the
default is not taken then. -/
def impl (dflt : E) : PQImpl E where
  State := State E
  init := (mk c dflt).getD ⟨[], [], 0, none, 0, ⟨none, [], 0, []⟩⟩
  step := step c dflt
  entries := entries
  top s := (top c s).map Prod.fst
  empty s := s.count == 0
  size s := s.count

end Verif.GeoMem
