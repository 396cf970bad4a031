import Verif.PQSimSpec
import Mathlib.Data.List.Sort

/-!
# Model of the simulator `pqsim` (src/pqsim/Simulator.h, src/pqsim/Simulator.cpp)

A simulation is a list of events, which is made once with random numbers and then run on each queue.

`rand()` is an arbitrary sequence of numbers; a position in it is part of the state. The outcome
of a function is `none` if it does not return, which depends on the numbers drawn, and otherwise a value
or undefined behaviour.

Simplifications: counters are unbounded, but the values that `orderSpans` makes are taken modulo 2^64.
The clock, the data collected about a run and all printing except for the divisions that it makes are left
out. The old values of `_mem` and `_events` do not matter as `SimBuilder` clears them.
-/

namespace Verif.PQSim.Sim

/-- What a function that returns gives back. -/
inductive Out (α : Type) where
  | ok (a : α)
  | ub
deriving DecidableEq

/-- First `x`, then `f` on its value. -/
def andThen {α β : Type} (x : Option (Out α)) (f : α → Option (Out β)) : Option (Out β) :=
  match x with
  | none => none
  | some .ub => some .ub
  | some (.ok a) => f a

/-- `Simulator::Event` (src/pqsim/Simulator.h:29-34); `none` is a member that has not been assigned. -/
structure Event where
  begin : Option ℕ
  size : ℕ
  popValue : Option ℕ
deriving DecidableEq

/-- The members of `SimBuilder` (src/pqsim/Simulator.cpp:115-125). The multiset `_queue` is the list of its
elements in iteration order. -/
structure Builder where
  popDuplicates : Bool
  queue : List ℕ
  push : List ℕ
  mem : List ℕ
  events : List Event
  pushCount : ℕ
  popCount : ℕ
  liveCountSum : ℕ
  pushSum : ℕ
  duplicateCount : ℕ

/-- What a builder leaves in the simulator: `_mem` and `_events`. -/
structure Simulation where
  mem : List ℕ
  events : List Event
deriving DecidableEq

namespace Builder

/-- The constructor (src/pqsim/Simulator.cpp:25-38). -/
def init (popDuplicates : Bool) : Builder := ⟨popDuplicates, [], [], [], [], 0, 0, 0, 0, 0⟩

/-- `getLiveCount` (src/pqsim/Simulator.cpp:40). -/
def liveCount (b : Builder) : ℕ := b.queue.length

/-- `getAvgLiveCount` (src/pqsim/Simulator.cpp:44-46). -/
def avgLiveCount (b : Builder) : ℕ := if b.events.isEmpty then 0 else b.liveCountSum / b.events.length

/-- `noLive` (src/pqsim/Simulator.cpp:101). -/
def noLive (b : Builder) : Bool := b.queue.isEmpty

/-- `isLive` (src/pqsim/Simulator.cpp:111-113). -/
def isLive (b : Builder) (v : ℕ) : Bool := decide (v ∈ b.queue)

/-- `isInPush` (src/pqsim/Simulator.cpp:64-66). -/
def isInPush (b : Builder) (v : ℕ) : Bool := decide (v ∈ b.push)

/-- `beginPush` (src/pqsim/Simulator.cpp:51-56). -/
def beginPush (b : Builder) : Builder :=
  { b with
    liveCountSum := b.liveCountSum + b.liveCount
    events := b.events ++ [⟨some b.mem.length, 0, none⟩] }

/-- `addToPush` (src/pqsim/Simulator.cpp:57-63). -/
def addToPush (b : Builder) (v : ℕ) : Builder :=
  { b with
    duplicateCount := if b.isLive v then b.duplicateCount + 1 else b.duplicateCount
    push := v :: b.push
    mem := b.mem ++ [v]
    queue := b.queue.orderedInsert (· ≤ ·) v }

/-- `endPush` (src/pqsim/Simulator.cpp:67-75); undefined without an event that has a begin. -/
def endPush (b : Builder) : Option (Out Builder) :=
  match b.events.getLast? with
  | some ⟨some begin, _, p⟩ =>
    some (.ok { b with
      events := b.events.dropLast ++ [⟨some begin, b.mem.length - begin, p⟩]
      mem := b.mem.take begin ++ (b.mem.drop begin).insertionSort (· ≥ ·)
      pushCount := b.pushCount + 1
      pushSum := b.pushSum + (b.mem.length - begin)
      push := [] })
  | _ => some .ub

/-- The loop of `pop` (src/pqsim/Simulator.cpp:90-94) on the elements in falling order. -/
def popLoop (popDuplicates : Bool) (top : ℕ) : List ℕ → List ℕ
  | [] => []
  | _ :: l =>
    match l with
    | [] => []
    | v :: l => if popDuplicates && v == top then popLoop popDuplicates top (v :: l) else v :: l

/-- `pop` (src/pqsim/Simulator.cpp:86-99); undefined if there are no elements. -/
def pop (b : Builder) : Option (Out Builder) :=
  match b.queue.getLast? with
  | none => some .ub
  | some top =>
    some (.ok { b with
      liveCountSum := b.liveCountSum + b.liveCount
      popCount := b.popCount + 1
      queue := (popLoop b.popDuplicates top b.queue.reverse).reverse
      events := b.events ++ [⟨none, 0, some top⟩] })

/-- `getRandomLive` (src/pqsim/Simulator.cpp:103-109) with the number drawn; undefined if there are no
elements. -/
def getRandomLive (b : Builder) (r : ℕ) : Option ℕ := b.queue[r % b.queue.length]?

/-- `makeDescription` (src/pqsim/Simulator.cpp:128-140) as far as it may be undefined: it divides by the number
of pushes and by the number of elements pushed. -/
def describe (b : Builder) : Option (Out Simulation) :=
  if b.pushCount = 0 ∨ b.pushSum = 0 then some .ub else some (.ok ⟨b.mem, b.events⟩)

end Builder

/-! ## Making simulations -/

section build
variable (R : ℕ → ℕ)

/-- The loop that looks for a live value (src/pqsim/Simulator.cpp:173-176), with the next random number at `i`. -/
def pickDup (b : Builder) (tries i : ℕ) : Option (Out (ℕ × ℕ)) :=
  match (if tries < 20 then b.getRandomLive (R i) else some (R i)) with
  | none => some .ub
  | some v => if b.isInPush v then pickDup b (tries + 1) (i + 1) else some (.ok (v, i + 1))
partial_fixpoint

/-- The loop that looks for a new value (src/pqsim/Simulator.cpp:180-182). -/
def pickNew (b : Builder) (i : ℕ) : Option (Out (ℕ × ℕ)) :=
  if b.isInPush (R i) || b.isLive (R i) then pickNew b (i + 1) else some (.ok (R i, i + 1))
partial_fixpoint

/-- Draw a value for `addToPush` in `dupSpans` (src/pqsim/Simulator.cpp:165-184). -/
def pickForDup (dupPercentage : ℕ) (b : Builder) (i : ℕ) : Option (Out (ℕ × ℕ)) :=
  if b.noLive then pickNew R b i
  else if R i % 100 ≤ dupPercentage then pickDup R b 0 (i + 1)
  else pickNew R b (i + 1)

/-- The loop over the elements of a push, which all three kinds of simulations have
(src/pqsim/Simulator.cpp:164-185, 209-216, 239-245). `pick` draws the value of element number `k`. -/
def fill (pick : ℕ → Builder → ℕ → Option (Out (ℕ × ℕ))) : ℕ → ℕ → Builder → ℕ → Option (Out (Builder × ℕ))
  | 0, _, b, i => some (.ok (b, i))
  | n + 1, k, b, i => andThen (pick k b i) (fun r => fill pick n (k + 1) (b.addToPush r.1) r.2)

/-- `beginPush`, the loop and `endPush`. -/
def pushSpan (pick : ℕ → Builder → ℕ → Option (Out (ℕ × ℕ))) (size : ℕ) (b : Builder) (i : ℕ) :
    Option (Out (Builder × ℕ)) :=
  andThen (fill pick size 0 b.beginPush i) (fun r => andThen r.1.endPush (fun b => some (.ok (b, r.2))))

/-- The size of a push in `dupSpans` (src/pqsim/Simulator.cpp:148-151, 161-162); undefined if `avgSpan` is 0,
which is asserted against, or the modulus is 0. -/
def dupSize (avgSpan r : ℕ) : Option ℕ :=
  let spanDeviation := if avgSpan ≤ 10 then avgSpan - 1 else 10
  if avgSpan = 0 ∨ 2 * spanDeviation = 0 then none
  else some (avgSpan - spanDeviation + r % (2 * spanDeviation))

/-- Whether `dupSpans` pushes next (src/pqsim/Simulator.cpp:154-158). -/
def dupDoPush (pushSumGoal avgLiveGoal : ℕ) (b : Builder) : Bool :=
  if b.pushSum = pushSumGoal then false
  else if b.noLive then true
  else decide (b.avgLiveCount < avgLiveGoal)

/-- The body of the loop of `dupSpans` (src/pqsim/Simulator.cpp:154-188). -/
def dupStep (pushSumGoal avgSpan avgLiveGoal dupPercentage : ℕ) (b : Builder) (i : ℕ) :
    Option (Out (Builder × ℕ)) :=
  if dupDoPush pushSumGoal avgLiveGoal b then
    match dupSize avgSpan (R i) with
    | none => some .ub
    | some size => pushSpan (fun _ => pickForDup R dupPercentage) size b (i + 1)
  else andThen b.pop (fun b => some (.ok (b, i)))

/-- The loop of `dupSpans` (src/pqsim/Simulator.cpp:153-189). -/
def dupLoop (pushSumGoal avgSpan avgLiveGoal dupPercentage : ℕ) (b : Builder) (i : ℕ) : Option (Out Builder) :=
  if b.pushSum < pushSumGoal ∨ b.noLive = false then
    match dupStep R pushSumGoal avgSpan avgLiveGoal dupPercentage b i with
    | none => none
    | some .ub => some .ub
    | some (.ok (b, i)) => dupLoop pushSumGoal avgSpan avgLiveGoal dupPercentage b i
  else some (.ok b)
partial_fixpoint

/-- `Simulator::dupSpans` (src/pqsim/Simulator.cpp:143-191). -/
def dupSpans (pushSumGoal avgSpan avgLiveGoal dupPercentage : ℕ) : Option (Out Simulation) :=
  if avgSpan = 0 then some .ub
  else andThen (dupLoop R pushSumGoal avgSpan avgLiveGoal dupPercentage (.init true) 0) Builder.describe

/-- Subtraction in `size_t`. -/
def sub64 (a b : ℕ) : ℕ := (a + 2 ^ 64 - b) % 2 ^ 64

/-- The loop that looks for a value in `orderSpans` (src/pqsim/Simulator.cpp:211-213); undefined if the
modulus is 0. -/
def pickOrder (insNum avgSize : ℕ) (b : Builder) (i : ℕ) : Option (Out (ℕ × ℕ)) :=
  if 2 * avgSize = 0 then some .ub
  else if b.isInPush ((insNum + R i % (2 * avgSize)) % 2 ^ 64) then pickOrder insNum avgSize b (i + 1)
  else some (.ok ((insNum + R i % (2 * avgSize)) % 2 ^ 64, i + 1))
partial_fixpoint

/-- `deviation` of `orderSpans` (src/pqsim/Simulator.cpp:197-201). -/
def orderDeviation (spanSize avgSize : ℕ) : ℕ :=
  let d := if spanSize / 2 = 0 then 1 else spanSize / 2
  if d > avgSize then sub64 avgSize 1 else d

/-- The body of the loop of `orderSpans` (src/pqsim/Simulator.cpp:204-219). -/
def orderStep (spanCount spanSize avgSize : ℕ) (insNum : ℕ) (b : Builder) (i : ℕ) :
    Option (Out ((Builder × ℕ) × ℕ)) :=
  if b.liveCount = 0 ∨
      (b.pushCount < spanCount ∧ b.liveCount < sub64 avgSize (orderDeviation spanSize avgSize)) then
    andThen (pushSpan (fun k => pickOrder R (sub64 insNum (k % 2 ^ 64)) avgSize) spanSize b i)
      (fun r => some (.ok (r, sub64 insNum (spanSize % 2 ^ 64))))
  else andThen b.pop (fun b => some (.ok ((b, i), insNum)))

/-- The loop of `orderSpans` (src/pqsim/Simulator.cpp:203-220). -/
def orderLoop (spanCount spanSize avgSize : ℕ) (insNum : ℕ) (b : Builder) (i : ℕ) : Option (Out Builder) :=
  if b.liveCount > 0 ∨ b.pushCount < spanCount then
    match orderStep R spanCount spanSize avgSize insNum b i with
    | none => none
    | some .ub => some .ub
    | some (.ok ((b, i), insNum)) => orderLoop spanCount spanSize avgSize insNum b i
  else some (.ok b)
partial_fixpoint

/-- `Simulator::orderSpans` (src/pqsim/Simulator.cpp:193-223). -/
def orderSpans (spanCount spanSize avgSize : ℕ) : Option (Out Simulation) :=
  andThen (orderLoop R spanCount spanSize avgSize ((spanSize + spanCount * avgSize) * 3 % 2 ^ 64) (.init true) 0)
    Builder.describe

/-- The loop that looks for a value in `randomSpans` (src/pqsim/Simulator.cpp:241-243). -/
def pickRandom (b : Builder) (i : ℕ) : Option (Out (ℕ × ℕ)) :=
  if b.isInPush (R i) then pickRandom b (i + 1) else some (.ok (R i, i + 1))
partial_fixpoint

/-- The body of the loop of `randomSpans` (src/pqsim/Simulator.cpp:228-247). -/
def randomStep (spanCount spanSize initialSize : ℕ) (b : Builder) (i : ℕ) : Option (Out (Builder × ℕ)) :=
  let doPop := if b.pushCount = spanCount then true else if b.liveCount = 0 then false
    else decide (R i % (spanSize + 1) ≠ 0)
  if doPop then andThen b.pop (fun b => some (.ok (b, i + 1)))
  else pushSpan (fun _ => pickRandom R) (if b.pushCount = 0 then initialSize else spanSize) b (i + 1)

/-- The loop of `randomSpans` (src/pqsim/Simulator.cpp:227-248). -/
def randomLoop (spanCount spanSize initialSize : ℕ) (b : Builder) (i : ℕ) : Option (Out Builder) :=
  if b.liveCount > 0 ∨ b.pushCount < spanCount then
    match randomStep R spanCount spanSize initialSize b i with
    | none => none
    | some .ub => some .ub
    | some (.ok (b, i)) => randomLoop spanCount spanSize initialSize b i
  else some (.ok b)
partial_fixpoint

/-- `Simulator::randomSpans` (src/pqsim/Simulator.cpp:225-250). -/
def randomSpans (spanCount spanSize initialSize : ℕ) : Option (Out Simulation) :=
  andThen (randomLoop R spanCount spanSize initialSize (.init false) 0) Builder.describe

end build

/-! ## Running simulations -/

/-- The outcome of a run: it ends, or the queue is found wrong and the program exits. -/
inductive Verdict (S : Type) where
  | pass (s : S)
  | accuse (v : ℕ)

/-- One event (src/pqsim/Simulator.h:77-87). `none` is undefined: a call of the queue that is, a pop value
that has never been assigned, or a range beyond the end of `_mem`. -/
def runEvent (Q : Queue) (mem : List ℕ) (e : Event) (s : Q.State) : Option (Verdict Q.State) :=
  if e.size = 0 then
    match Q.pop s with
    | none => none
    | some (item, s) =>
      match e.popValue with
      | none => none
      | some v => if item = v then some (.pass s) else some (.accuse item)
  else
    match e.begin with
    | none => none
    | some begin =>
      if begin + e.size ≤ mem.length then (Q.push s ((mem.drop begin).take e.size)).map .pass else none

/-- The loop over the events (src/pqsim/Simulator.h:67-88). -/
def runEvents (Q : Queue) (mem : List ℕ) : List Event → Q.State → Option (Verdict Q.State)
  | [], s => some (.pass s)
  | e :: es, s =>
    match runEvent Q mem e s with
    | none => none
    | some (.accuse v) => some (.accuse v)
    | some (.pass s) => runEvents Q mem es s

/-- `Simulator::run` (src/pqsim/Simulator.h:60-101), with `n` repeats to do. -/
def run (Q : Queue) (sim : Simulation) : ℕ → Q.State → Option (Verdict Q.State)
  | 0, s => some (.pass s)
  | n + 1, s =>
    match runEvents Q sim.mem sim.events s with
    | none => none
    | some (.accuse v) => some (.accuse v)
    | some (.pass s) => run Q sim n s

end Verif.PQSim.Sim
