import Verif.Geobucket
import Verif.CompareSpec

/-!
# The comparisons of `mathic::Geobucket` and `mathic::GeoFront` (src/mathic/Geobucket.h, src/mathic/GeoFront.h)

The functions of `Verif.Geobucket` that compare entries once more, with the pairs of entries given to `_conf.compare` in the
order of the calls. The two questions `cmpLessThan` and `cmpEqual` are asked about one call of `compare`.
-/

namespace Verif

/-- A computation that may be undefined, with the pairs compared up to there. -/
def Tr (E α : Type) : Type := Option α × List (E × E)

namespace Tr

variable {E α β : Type}

/-- A computation that compares nothing. -/
def lift (o : Option α) : Tr E α := (o, [])

/-- One comparison. -/
def ask (a b : E) : Tr E Unit := (some (), [(a, b)])

/-- One computation after the other. -/
def bind (x : Tr E α) (f : α → Tr E β) : Tr E β :=
  match x.1 with
  | none => (none, x.2)
  | some a => ((f a).1, x.2 ++ (f a).2)

instance : Monad (Tr E) where
  pure a := (some a, [])
  bind := bind

end Tr

end Verif

namespace Verif.Geobucket

open Verif.Tr (lift ask)

variable {E : Type} (c : Conf E)

/-! ## The front -/

/-- The loop of `keyIncreased` (src/mathic/GeoFront.h:259-268). -/
def incLoopT (bs : List (Bucket E)) (b : ℕ) : ℕ → Front → Tr E (ℕ × Front)
  | 0, f => lift (some (0, f))
  | p + 1, f => do
    let q ← lift (f.rdSlot p)
    let y ← lift (backAt c bs q)
    let x ← lift (backAt c bs b)
    ask y x
    if c.lt y x then do
      let f ← lift (f.wrSlot (p + 1) q)
      let f ← lift (f.setPos q (.slot (p + 1)))
      incLoopT bs b p f
    else lift (some (p + 1, f))

/-- `keyIncreased` of the tracked front from the position on (src/mathic/GeoFront.h:255-274). -/
def keyIncreasedFrom (bs : List (Bucket E)) (f : Front) (b : ℕ) : Option Tok → Tr E Front
  | some (.slot p) => do
    let r ← incLoopT c bs b p f
    lift (settle r.2 r.1 b)
  | _ => lift none

/-- `keyIncreased` of the tracked front (src/mathic/GeoFront.h:255-274). -/
def keyIncreasedTT (bs : List (Bucket E)) (f : Front) (b : ℕ) : Tr E Front := keyIncreasedFrom c bs f b f.pos[b]?

/-- `keyIncreased` (src/mathic/GeoFront.h:57, 255-274). -/
def keyIncreasedTr (s : State E) (b : ℕ) : Tr E (State E) :=
  if c.trackFront then do
    let f ← keyIncreasedTT c s.buckets s.front b
    lift (some { s with front := f })
  else lift (some { s with front := { s.front with cached := none } })

/-- `insert` (src/mathic/GeoFront.h:55, 240-253). -/
def frontInsertTr (s : State E) (b : ℕ) : Tr E (State E) :=
  if c.trackFront then do
    let f ← lift (if s.front.fend = s.front.slots.length then reserveCapacity s.front (s.front.fend + 1)
      else some s.front)
    let f ← lift (f.wrSlot f.fend b)
    let f ← lift (({ f with fend := f.fend + 1 } : Front).setPos b (.slot f.fend))
    let f ← keyIncreasedTT c s.buckets f b
    lift (some { s with front := f })
  else lift (some { s with front := { s.front with cached := none } })

/-- What `keyDecreased` does once it has merged two last entries (src/mathic/GeoFront.h:295-300). -/
def afterDedup (b q p : ℕ) (s : State E) : Option (State E ⊕ State E) := do
  let bb ← s.buckets[b]?
  if bb.es = [] then
    let f ← s.front.setPos b (.slot p)
    let f ← removeT f b
    some (.inl { s with front := f })
  else
    let f ← s.front.wrSlot p q
    let f ← f.setPos q (.slot p)
    some (.inr { s with front := f })

/-- The loop of `keyDecreased` and what follows it (src/mathic/GeoFront.h:284-308), at position `p` with
`n` cells after it. -/
def decLoopT (b : ℕ) : ℕ → ℕ → State E → Tr E (State E)
  | 0, p, s => lift ((settle s.front p b).map (fun f => { s with front := f }))
  | n + 1, p, s => do
    let q ← lift (s.front.rdSlot (p + 1))
    let x ← lift (backAt c s.buckets b)
    let y ← lift (backAt c s.buckets q)
    ask x y
    if c.lt x y then do
      let f ← lift (s.front.wrSlot p q)
      let f ← lift (f.setPos q (.slot p))
      decLoopT b n (p + 1) { s with front := f }
    else if !c.supportDedup || !c.eq x y then
      lift ((settle s.front p b).map (fun f => { s with front := f }))
    else do
      let s ← lift (dedupInto c s b q x y)
      let r ← lift (afterDedup b q p s)
      match r with
      | .inl s => lift (some s)
      | .inr s => decLoopT b n (p + 1) s

/-- `keyDecreased` of a bucket that is not empty (src/mathic/GeoFront.h:282-309). -/
def keyDecreasedFrom (s : State E) (b : ℕ) : Option Tok → Tr E (State E)
  | some (.slot p) => if p + 1 ≤ s.front.fend then decLoopT c b (s.front.fend - (p + 1)) p s else lift none
  | _ => lift none

/-- `keyDecreased` (src/mathic/GeoFront.h:58, 276-309). -/
def keyDecreasedTr (s : State E) (b : ℕ) : Tr E (State E) :=
  if c.trackFront then do
    let bb ← lift s.buckets[b]?
    if bb.es = [] then lift ((removeT s.front b).map (fun f => { s with front := f }))
    else keyDecreasedFrom c s b s.front.pos[b]?
  else lift (some { s with front := { s.front with cached := none } })

/-- The loop of `computeMax` (src/mathic/GeoFront.h:104-120): `m` is `maxBucket`, `it` the next bucket
to look at, `n` the number of buckets left. -/
def maxLoopT : ℕ → ℕ → ℕ → State E → Tr E (ℕ × State E)
  | 0, m, _, s => lift (some (m, s))
  | n + 1, m, it, s => do
    let ib ← lift s.buckets[it]?
    if ib.es = [] then maxLoopT n m (it + 1) s
    else do
      let mb ← lift s.buckets[m]?
      let x ← lift (ib.getBack c)
      let y ← lift (mb.getBack c)
      ask x y
      if c.lt x y then maxLoopT n m (it + 1) s
      else if c.supportDedup && c.eq x y then do
        let mb ← lift (mb.setEntry c (mb.es.length - 1) (c.dedup y x))
        let ib ← lift (s.setBucket m mb).buckets[it]?
        let ib ← lift (ib.popBack c)
        maxLoopT n m (it + 1) { (s.setBucket m mb).setBucket it ib with count := (s.setBucket m mb).count - 1 }
      else maxLoopT n it (it + 1) s

/-- `computeMax` (src/mathic/GeoFront.h:94-123) from the first bucket with entries on. -/
def computeMaxT (s : State E) : Option ℕ → Tr E (ℕ × State E)
  | none => lift none
  | some m => do
    let r ← maxLoopT c (s.buckets.length - (m + 1)) m (m + 1) s
    lift (some (r.1, { r.2 with front := { r.2.front with cached := some r.1 } }))

/-- `getMax` without a tracked front (src/mathic/GeoFront.h:85-92). -/
def cachedMaxT (s : State E) : Option ℕ → Tr E (ℕ × State E)
  | some b => lift (some (b, s))
  | none => computeMaxT c s (s.buckets.findIdx? (fun b => !b.es.isEmpty))

/-- `getMax` (src/mathic/GeoFront.h:85-123, 342-346). -/
def getMaxT (s : State E) : Tr E (ℕ × State E) :=
  if c.trackFront then
    lift (if s.front.fend = 0 then none else (s.front.rdSlot 0).map (fun b => (b, s)))
  else cachedMaxT c s s.front.cached

/-! ## The geobucket -/

/-- `merge` (src/mathic/Geobucket.h:741-771). -/
def mergeT : List E → List E → (List E × ℕ) × List (E × E)
  | [], l₂ => ((l₂, 0), [])
  | a :: l₁, [] => ((a :: l₁, 0), [])
  | a :: l₁, b :: l₂ =>
    if c.lt a b then
      let r := mergeT l₁ (b :: l₂)
      ((a :: r.1.1, r.1.2), (a, b) :: r.2)
    else if !c.supportDedup || !c.eq a b then
      let r := mergeT (a :: l₁) l₂
      ((b :: r.1.1, r.1.2), (a, b) :: r.2)
    else
      let r := mergeT l₁ l₂
      ((c.dedup a b :: r.1.1, r.1.2 + 1), (a, b) :: r.2)
termination_by l₁ l₂ => l₁.length + l₂.length

/-- `merge` as a computation. -/
def mergeTr (l₁ l₂ : List E) : Tr E (List E × ℕ) := (some (mergeT c l₁ l₂).1, (mergeT c l₁ l₂).2)

/-- The three ways to merge `l` into the entries `es` of a bucket (src/mathic/Geobucket.h:583-597). -/
def mergeResT (tmp : ℕ) (es l : List E) : Tr E (List E × ℕ) :=
  match c.storage with
  | .doubleBuffer => mergeTr c es l
  | .sameSize => mergeTr c es l
  | .plain => if es.length ≤ tmp then mergeTr c l es else lift none

/-- `mergeToNonEmpty` with a range (src/mathic/Geobucket.h:578-600). -/
def mergeToNonEmptyT (s : State E) (into : ℕ) (l : List E) : Tr E (State E) := do
  let b ← lift s.buckets[into]?
  let r ← mergeResT c (tmpCap s) b.es l
  let b ← lift (b.fill r.1)
  keyIncreasedTr c { s.setBucket into b with count := s.count - r.2 } into

/-- `mergeToNonEmpty` with a bucket (src/mathic/Geobucket.h:565-576). -/
def mergeBucketsT (s : State E) (dst src : ℕ) : Tr E (State E) := do
  let swap ← lift (if c.trackFront then larger s.front src dst else some true)
  let s ← lift (if swap then swapKeys c s dst src else some s)
  let fb ← lift s.buckets[src]?
  let s ← mergeToNonEmptyT c s dst fb.es
  let fb ← lift s.buckets[src]?
  lift (frontRemove c (s.setBucket src fb.clear) src)

/-- `mergeToEmpty` (src/mathic/Geobucket.h:602-614). -/
def mergeToEmptyT (s : State E) (dst src : ℕ) (l : List E) : Tr E (State E) := do
  let fb ← lift s.buckets[src]?
  let tb ← lift s.buckets[dst]?
  let r ← mergeTr c l fb.es
  let tb ← lift (tb.fill r.1)
  let s ← lift (swapKeys c { (s.setBucket dst tb).setBucket src fb.clear with count := s.count - r.2 } src dst)
  keyIncreasedTr c s dst

/-- `assign` and `_front.insert` (src/mathic/Geobucket.h:647-648, 735-736). -/
def assignNewT (s : State E) (b : ℕ) (l : List E) : Tr E (State E) := do
  let bb ← lift s.buckets[b]?
  let bb ← lift (bb.fill l)
  frontInsertTr c (s.setBucket b bb) b

/-- A merge into `_tmp` or `_tmpForNoPremerge` (src/mathic/Geobucket.h:674-678, 694-699). -/
def mergeToTmpT (s : State E) (b : ℕ) (l : List E) : Tr E (List E × State E) := do
  let cur ← lift s.buckets[b]?
  let r ← mergeTr c l cur.es
  if r.1.length ≤ tmpCap s then do
    let s ← lift (frontRemove c { s.setBucket b cur.clear with count := s.count - r.2 } b)
    lift (some (r.1, s))
  else lift none

/-- The second loop of `insert` without premerge (src/mathic/Geobucket.h:680-700). -/
def cascadeLoopT : ℕ → ℕ → List E → State E → Tr E (State E)
  | 0, _, _, _ => lift none
  | n + 1, b, l, s => do
    let cur ← lift s.buckets[b]?
    if l.length + cur.es.length ≤ cur.cap then mergeToNonEmptyT c s b l
    else do
      let next ← lift s.buckets[b + 1]?
      if next.es = [] then mergeToEmptyT c s (b + 1) b l
      else do
        let r ← mergeToTmpT c s b l
        cascadeLoopT n (b + 1) r.1 r.2

/-- `insert` without premerge (src/mathic/Geobucket.h:634-701). -/
def insertNoPremergeT (s : State E) (b : ℕ) (l : List E) : Tr E (State E) := do
  let bucket ← lift s.buckets[b]?
  if bucket.es = [] then assignNewT c s b l
  else if bucket.es.length + l.length ≤ bucket.cap then mergeToNonEmptyT c s b l
  else do
    let s ← lift (reserveLoop c (s.buckets.length + 1) (b + 1) (bucket.es.length + l.length) s)
    let next ← lift s.buckets[b + 1]?
    if next.es = [] then mergeToEmptyT c s (b + 1) b l
    else do
      let r ← mergeToTmpT c s b l
      cascadeLoopT c r.2.buckets.length (b + 1) r.1 r.2

/-- The premerges (src/mathic/Geobucket.h:725-732). -/
def premergesT (s : State E) (b r : ℕ) : Tr E (State E) :=
  if b ≠ r then do
    let rb ← lift s.buckets[r]?
    if rb.es ≠ [] then do
      let s ← mergeBucketsT c s r (r - 1)
      lift (moveLoop c (r - 1 - b) (r - 1) s)
    else lift (moveLoop c (r - b) r s)
  else lift (some s)

/-- `insert` with premerge (src/mathic/Geobucket.h:703-739). -/
def insertPremergeT (s : State E) (b : ℕ) (l : List E) : Tr E (State E) := do
  let r ← lift (premergeRange c (s.buckets.length + 1) b l.length s)
  let s ← premergesT c r.2 b r.1
  let bucket ← lift s.buckets[b]?
  if bucket.es = [] then assignNewT c s b l else mergeToNonEmptyT c s b l

/-- The choice by `Premerge<C::premerge>`. -/
def insertT (s : State E) (b : ℕ) (l : List E) : Tr E (State E) :=
  if c.premerge then insertPremergeT c s b l else insertNoPremergeT c s b l

/-- The binary search of `push` (src/mathic/Geobucket.h:356-381). -/
def binarySearchT (es : List E) (e : E) (start range : ℕ) : Tr E Place :=
  if _h : range = 0 then lift (some (.insertAt start))
  else do
    let m ← lift es[start + range / 2]?
    ask e m
    if c.lt e m then binarySearchT es e start (range / 2)
    else if !c.supportDedup || !c.eq e m then binarySearchT es e (start + range / 2 + 1) (range - (range / 2 + 1))
    else lift (some (.dup (start + range / 2)))
termination_by range
decreasing_by all_goals omega

/-- The linear search of `push` (src/mathic/Geobucket.h:383-395), with `i` entries passed. -/
def linearSearchT (e : E) (i : ℕ) : List E → Place × List (E × E)
  | [] => (.insertAt i, [])
  | m :: es =>
    if c.lt e m then (.insertAt i, [(e, m)])
    else if c.supportDedup && c.eq e m then (.dup i, [(e, m)])
    else
      let r := linearSearchT e (i + 1) es
      (r.1, (e, m) :: r.2)

/-- The choice by `minBucketBinarySearch`. -/
def searchT (es : List E) (e : E) : Tr E Place :=
  if c.binarySearch then binarySearchT c es e 0 es.length
  else (some (linearSearchT c e 0 es).1, (linearSearchT c e 0 es).2)

/-- `push` of one entry from the place found on (src/mathic/Geobucket.h:383-399). -/
def placeT (s : State E) (b : Bucket E) (e : E) : Place → Tr E (State E)
  | .insertAt i =>
    if i = b.es.length then do
      let b ← lift (b.pushBack c e)
      keyIncreasedTr c (s.setBucket 0 b) 0
    else do
      let b ← lift (b.insertAtNotEnd i e)
      lift (some (s.setBucket 0 b))
  | .dup i => do
    let m ← lift b.es[i]?
    let b ← lift (b.setEntry c i (c.dedup m e))
    lift (some { s.setBucket 0 b with count := s.count - 1 })

/-- `push` of one entry after it has been counted (src/mathic/Geobucket.h:345-399). -/
def pushCounted (s : State E) (e : E) : Tr E (State E) := do
  let b ← lift s.buckets[0]?
  if b.es.length = b.cap then insertT c s 0 [e]
  else if b.es = [] then do
    let b ← lift (b.pushBack c e)
    frontInsertTr c (s.setBucket 0 b) 0
  else do
    let p ← searchT c b.es e
    placeT c s b e p

/-- `push` of one entry (src/mathic/Geobucket.h:343-399). -/
def pushT (s : State E) (e : E) : Tr E (State E) := pushCounted c { s with count := s.count + 1 } e

/-- `push` of a range (src/mathic/Geobucket.h:401-433). -/
def pushRangeT (s : State E) (l : List E) : Tr E (State E) := do
  let s ← lift (growLoop c (l.length * c.insertFactor + 1) (l.length * c.insertFactor) { s with count := s.count + l.length })
  let b ← lift (s.buckets.findIdx? (fun b => decide (l.length * c.insertFactor ≤ b.cap)))
  insertT c s b l.reverse

/-- `pop` (src/mathic/Geobucket.h:445-455). -/
def popT (s : State E) : Tr E (E × State E) := do
  let r ← getMaxT c s
  let b ← lift r.2.buckets[r.1]?
  let x ← lift (b.getBack c)
  let b ← lift (b.popBack c)
  let s ← keyDecreasedTr c { r.2.setBucket r.1 b with count := r.2.count - 1 } r.1
  lift (some (x, s))

/-- `top` (src/mathic/Geobucket.h:457-461). -/
def topT (s : State E) : Tr E (E × State E) := do
  let r ← getMaxT c s
  let b ← lift r.2.buckets[r.1]?
  let x ← lift (b.getBack c)
  lift (some (x, r.2))

/-- `decreaseTop` (src/mathic/Geobucket.h:463-468). -/
def decreaseTopT (s : State E) (e : E) : Tr E (State E) := do
  let r ← popT c s
  pushT c r.2 e

/-- One call; `clear` compares nothing. -/
def stepT (s : State E) : PQOp E → Tr E (Option E × State E)
  | .push e => do
    let s ← pushT c s e
    lift (some (none, s))
  | .pushRange l => do
    let s ← pushRangeT c s l
    lift (some (none, s))
  | .top => do
    let r ← topT c s
    lift (some (some r.1, r.2))
  | .pop => do
    let r ← popT c s
    lift (some (some r.1, r.2))
  | .decreaseTop e => do
    let s ← decreaseTopT c s e
    lift (some (none, s))
  | .clear => lift (some (none, clear c s))

/-- The pairs of entries that a call compares, in order. -/
def compared (s : State E) (op : PQOp E) : List (E × E) := (stepT c s op).2

end Verif.Geobucket
