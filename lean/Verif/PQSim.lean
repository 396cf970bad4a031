import Verif.HeapLog
import Verif.TourTree
import Verif.StlSet
import Verif.Geobucket

/-!
# Model of the queues of the simulator `pqsim` (src/pqsim/Model.h, src/pqsim/Item.h)

The simulator drives each queue of mathic through a class `Model` with `push` of a sorted range, `pop`, which
removes the largest value with all its duplicates and returns it, and `empty`. On elements the range
goes into the queue value by value. On spans one `Item` goes in, which walks along the range.

`Value` is `unsigned long`; values are only copied and compared, so they are naturals here. An
`Item` holds pointers into an array that the simulator keeps, here the rest of the range.

The names, `print`, the count of comparisons and `getMemoryUse` are left out. `fastIndex` only changes how
positions of a tree are stored (see `comTree_refines`), so it is left out, too.
-/

namespace Verif.PQSim

/-- `CompareResult` (src/pqsim/Item.h:10). -/
inductive CompareResult where
  | less
  | equal
  | greater
deriving DecidableEq

/-- `compare` of values (src/pqsim/Item.h:45-51). -/
def compareValue (a b : ℕ) : CompareResult :=
  if a < b then .less else if b < a then .greater else .equal

/-- The members of `Item` (src/pqsim/Item.h:34-39); `rest` is what is between `_current` and
`_end`. -/
structure Item where
  value : ℕ
  rest : List ℕ
deriving DecidableEq

namespace Item

/-- `Item(begin, end)` (src/pqsim/Item.h:102-103). -/
def ofRange (l : List ℕ) : Item := ⟨l.headD 0, l⟩

/-- `atEnd` (src/pqsim/Item.h:67-69). -/
def atEnd (i : Item) : Bool := i.rest.isEmpty

/-- `toNext` (src/pqsim/Item.h:76-83); undefined at the end or where the next value is larger, both
of which are asserted against. -/
def toNext (i : Item) : Option Item :=
  match i.rest with
  | [] => none
  | [_] => some ⟨i.value, []⟩
  | _ :: v :: l => if v ≤ i.value then some ⟨v, v :: l⟩ else none

/-- `compare` of items (src/pqsim/Item.h:53-59). -/
def compare (a b : Item) : CompareResult :=
  if a.value < b.value then .less else if b.value < a.value then .greater else .equal

end Item

/-- `Model::Configuration` on elements (src/pqsim/Model.h:82-99), with `deduplicate` of values
(src/pqsim/Model.h:188-191). -/
def valueConf (dedup : Bool) : PQConf ℕ where
  lt a b := compareValue a b == .less
  eq a b := compareValue a b == .equal
  supportDedup := dedup
  dedup a _ := a

/-- `Model::Configuration` on spans (src/pqsim/Model.h:82-99). `deduplicate` of items
(src/pqsim/Model.h:192-199) returns its first argument; what it does with the second one is `absorb`
below. -/
def itemConf (dedup : Bool) : PQConf Item where
  lt a b := a.compare b == .less
  eq a b := a.compare b == .equal
  supportDedup := dedup
  dedup a _ := a

/-- A queue that also tells the arguments of the calls of `deduplicate` that a call has made. -/
structure LogImpl (E : Type) where
  State : Type
  init : State
  step : State → PQOp E → Option (Option E × State × List (E × E))
  entries : State → List E
  empty : State → Bool

/-- A queue whose configuration does not support deduplication, so that it never calls `deduplicate`. -/
def LogImpl.ofPQ {E : Type} (I : PQImpl E) : LogImpl E where
  State := I.State
  init := I.init
  step s op := (I.step s op).map (fun r => (r.1, r.2, []))
  entries := I.entries
  empty := I.empty

/-- A heap with the calls of `deduplicate` that it makes. -/
def LogImpl.heap {E : Type} (c : PQConf E) : LogImpl E where
  State := List E
  init := []
  step := Heap.stepL c
  entries t := t
  empty t := t.length == 0

/-- What the simulator sees of a model (src/pqsim/Model.h:50-60). `none` is undefined behaviour or a
call that does not return. -/
structure Queue where
  State : Type
  init : State
  push : State → List ℕ → Option State
  pop : State → Option (ℕ × State)
  empty : State → Bool

/-! ## On elements -/

namespace Elements

variable (I : PQImpl ℕ)

/-- `ModelHelper::push` on elements (src/pqsim/Model.h:110-113). -/
def push (s : I.State) (l : List ℕ) : Option I.State := (I.step s (.pushRange l)).map Prod.snd

/-- `ds.top()`, which may change a geobucket. -/
def top (s : I.State) : Option (ℕ × I.State) :=
  match I.step s .top with
  | some (some v, s) => some (v, s)
  | _ => none

/-- `!ds.empty() && ds.top() == topValue` (src/pqsim/Model.h:124). -/
def more (s : I.State) (topValue : ℕ) : Option (Bool × I.State) :=
  if I.empty s then some (false, s) else (top I s).map (fun r => (r.1 == topValue, r.2))

/-- The loop of `pop` (src/pqsim/Model.h:122-124). -/
def popLoop (topValue : ℕ) (s : I.State) : Option I.State :=
  match I.step s .pop with
  | none => none
  | some (_, s) =>
    match more I s topValue with
    | none => none
    | some (true, s) => popLoop topValue s
    | some (false, s) => some s
partial_fixpoint

/-- `ModelHelper::pop` on elements (src/pqsim/Model.h:119-126), the same with and without
`UseDecreaseTop`. -/
def pop (s : I.State) : Option (ℕ × I.State) :=
  match top I s with
  | none => none
  | some (topValue, s) => (popLoop I topValue s).map (topValue, ·)

end Elements

/-- `Model<false, ...>`. -/
def elements (I : PQImpl ℕ) : Queue where
  State := I.State
  init := I.init
  push := Elements.push I
  pop := Elements.pop I
  empty := I.empty

/-! ## On spans -/

namespace Spans

variable (I : LogImpl Item)

/-- The queue and `_pending`, last item first. -/
structure State where
  ds : I.State
  pending : List Item

/-- What `deduplicate` of items does with its second argument (src/pqsim/Model.h:192-199), for all the
calls in `log`. -/
def absorb (pending : List Item) : List (Item × Item) → Option (List Item)
  | [] => some pending
  | (_, b) :: log =>
    match b.toNext with
    | none => none
    | some next => absorb (if next.atEnd then pending else next :: pending) log

/-- A call of the queue, in which `deduplicate` may add to `_pending`. -/
def call (s : State I) (op : PQOp Item) : Option (Option Item × State I) :=
  match I.step s.ds op with
  | none => none
  | some (o, ds, log) => (absorb s.pending log).map (fun p => (o, ⟨ds, p⟩))

/-- `ModelHelper::push` on spans (src/pqsim/Model.h:114-117). -/
def push (s : State I) (l : List ℕ) : Option (State I) :=
  (call I s (.push (Item.ofRange l))).map Prod.snd

/-- `ds.top()`; `getValue` is undefined at the end (src/pqsim/Item.h:71-74). -/
def top (s : State I) : Option (Item × State I) :=
  match call I s .top with
  | some (some x, s) => if x.atEnd then none else some (x, s)
  | _ => none

/-- The loop over `pending` (src/pqsim/Model.h:141-147, 174-180). -/
def drain (s : State I) : Option (State I) :=
  match s.pending with
  | [] => some s
  | item :: pending =>
    match call I ⟨s.ds, pending⟩ (.push item) with
    | none => none
    | some (_, s) => drain s
partial_fixpoint

/-- The body of the loop of `pop` without `UseDecreaseTop` (src/pqsim/Model.h:134-137). -/
def advanceByPop (s : State I) : Option (State I) :=
  match call I s .pop with
  | some (some top, s) =>
    match top.toNext with
    | none => none
    | some top => if top.atEnd then some s else (call I s (.push top)).map Prod.snd
  | _ => none

/-- The body of the loop of `pop` with `UseDecreaseTop` (src/pqsim/Model.h:163-168). -/
def advanceByDecrease (s : State I) : Option (State I) :=
  match call I s .top with
  | some (some top, s) =>
    match top.toNext with
    | none => none
    | some top =>
      if top.atEnd then (call I s .pop).map Prod.snd else (call I s (.decreaseTop top)).map Prod.snd
  | _ => none

/-- The body of the loop of `pop` (src/pqsim/Model.h:134-150, 163-181). Without deduplication pending
items are asserted against. -/
def round (dedup dec : Bool) (s : State I) : Option (State I) :=
  match (if dec then advanceByDecrease I s else advanceByPop I s) with
  | none => none
  | some s => if dedup then drain I s else if s.pending.isEmpty then some s else none

/-- `!ds.empty() && ds.top().getValue() == topValue` (src/pqsim/Model.h:151, 182). -/
def more (s : State I) (topValue : ℕ) : Option (Bool × State I) :=
  if I.empty s.ds then some (false, s) else (top I s).map (fun r => (r.1.value == topValue, r.2))

/-- The loop of `pop` (src/pqsim/Model.h:133-151, 162-182). -/
def popLoop (dedup dec : Bool) (topValue : ℕ) (s : State I) : Option (State I) :=
  match round I dedup dec s with
  | none => none
  | some s =>
    match more I s topValue with
    | none => none
    | some (true, s) => popLoop dedup dec topValue s
    | some (false, s) => some s
partial_fixpoint

/-- `ModelHelper::pop` on spans (src/pqsim/Model.h:128-186). -/
def pop (dedup dec : Bool) (s : State I) : Option (ℕ × State I) :=
  match top I s with
  | none => none
  | some (x, s) => (popLoop I dedup dec x.value s).map (x.value, ·)

end Spans

/-- `Model<true, dedup, dec, ...>`. -/
def spans (I : LogImpl Item) (dedup dec : Bool) : Queue where
  State := Spans.State I
  init := ⟨I.init, []⟩
  push := Spans.push I
  pop := Spans.pop I dedup dec
  empty s := I.empty s.ds

/-! ## The models -/

/-- `TourTreeModel` (src/pqsim/TourTreeModel.h:12-14). -/
def tourTreeModel (onSpans : Bool) : Queue :=
  if onSpans then spans (.ofPQ (TourTree.impl (itemConf false))) false true
  else elements (TourTree.impl (valueConf false))

/-- `StlSetModel` (src/pqsim/StlSetModel.h:7-8). -/
def stlSetModel (onSpans : Bool) : Queue :=
  if onSpans then spans (.ofPQ (StlSet.impl (itemConf false))) false false
  else elements (StlSet.impl (valueConf false))

/-- `HeapModel` (src/pqsim/HeapModel.h:12-14). -/
def heapModel (onSpans dedup : Bool) : Queue :=
  if onSpans then spans (.heap (itemConf dedup)) dedup true
  else elements (Heap.impl (valueConf dedup))

/-- The parameters of `GeobucketModelBase` (src/pqsim/GeobucketModel.h:7-28). -/
structure GeoParams where
  geoBase : ℕ
  minBucketSize : ℕ
  trackFront : Bool := false
  binarySearch : Bool := false
  premerge : Bool := false
  collectMax : Bool := false
  storage : Geobucket.Storage := .plain
  insertFactor : ℕ := 1

/-- `Model::Configuration` over `GeobucketModelBase`. -/
def GeoParams.conf {E : Type} (g : GeoParams) (c : PQConf E) : Geobucket.Conf E where
  toPQConf := c
  minBucketSize := g.minBucketSize
  geoBase := g.geoBase
  insertFactor := g.insertFactor
  binarySearch := g.binarySearch
  trackFront := g.trackFront
  premerge := g.premerge
  collectMax := g.collectMax
  storage := g.storage

/-- `GeobucketModel` on elements (src/pqsim/GeobucketModel.h:30-66). -/
def geobucketModel (dedup : Bool) (g : GeoParams) : Queue :=
  elements (Geobucket.impl (g.conf (valueConf dedup)))

/-- `GeobucketModel` on spans without deduplication (src/pqsim/GeobucketModel.h:30-66). On spans with
deduplication it is not modelled: `pqMain` does not use it, and the calls of `deduplicate` in a
geobucket are not logged here. -/
def geobucketSpanModel (g : GeoParams) : Queue :=
  spans (.ofPQ (Geobucket.impl (g.conf (itemConf false)))) false false

/-- The models that `main` runs the simulation on (src/pqsim/pqMain.cpp:50-60). -/
def mainModels : List Queue :=
  [tourTreeModel true, tourTreeModel false,
   geobucketModel false { geoBase := 4, minBucketSize := 32 },
   geobucketModel false { geoBase := 2, minBucketSize := 32 },
   geobucketModel true { geoBase := 4, minBucketSize := 32 },
   stlSetModel true, stlSetModel false,
   heapModel false false, heapModel true false, heapModel false true, heapModel true true]

end Verif.PQSim
