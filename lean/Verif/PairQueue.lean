import Verif.TourTreeX

/-!
# Model of `mathic::PairQueue` (src/mathic/PairQueue.h)

Columns live in memory taken from an arena: `mem` is the list of columns allocated so far and a
`Column*` is an index into it. The column queue is the tournament tree of `TourTreeX.lean` over
such pointers, so that a comparison reads the columns as they are at that moment. A column that has
no current row, or whose pair data is not constructed, must not be compared or asked for its data:
that is undefined here. Dereferencing a pointer outside `mem` is undefined too.

What may throw is given to each call as a `Faults`. `log` records every construction, computation
and destruction of pair data. It is not in the code.

Simplifications: `computePairData` is a function of the two indices. Allocation does not fail.
The code within `#ifdef MATHIC_DEBUG` and the assertions are left out. The range `[begin, end)` of
a column is the list of its rows that are left.
-/

namespace Verif.PairQueue

variable {D : Type}

/-- What the configuration provides (src/mathic/PairQueue.h:16-140): the comparison, pair data, and
whether retirement is supported. -/
structure Conf (D : Type) where
  lt : ℕ → ℕ → D → ℕ → ℕ → D → Bool
  compute : ℕ → ℕ → D
  support : Bool

/-- Which calls of user code throw: the default constructor of `PairData`, `computePairData` on a
pair, the comparison of two columns (by their indices). -/
structure Faults where
  ctor : Bool
  compute : ℕ → ℕ → Bool
  compare : ℕ → ℕ → Bool

/-- Nothing throws. -/
def Faults.none : Faults := ⟨false, fun _ _ => false, fun _ _ => false⟩

/-- What happens to pair data. `destruct` is given the data that is destructed. -/
inductive Event (D : Type) where
  | construct (c r : ℕ)
  | compute (c r : ℕ)
  | destruct (c r : ℕ) (d : D)

/-- `Column` (src/mathic/PairQueue.h:271-327). `data` is `none` while there is no object. -/
structure Column (D : Type) where
  col : ℕ
  rows : List ℕ
  data : Option D

/-- The members of a `PairQueue` (src/mathic/PairQueue.h:373-377, and 171 for `mRetired`). -/
structure State (D : Type) where
  mem : List (Column D)
  queue : TourTree.State ℕ
  count : ℕ
  ret : List Bool
  log : List (Event D)

/-- The constructor (src/mathic/PairQueue.h:516-521). -/
def init : State D := ⟨[], TourTree.init, 0, [], []⟩

/-- `std::numeric_limits<Index>::max()`. -/
def indexMax : ℕ := 4294967295

/-- `big()` (src/mathic/PairQueue.h:510-514). -/
def big (col : ℕ) : Bool := decide (col ≥ 65535)

/-- What is stored for a row (src/mathic/PairQueue.h:430-434, 442-450). -/
def store (col row : ℕ) : ℕ := if big col then row % 4294967296 else row % 65536

/-- `retired(index)` (src/mathic/PairQueue.h:162-168, 185-187, 634-638). -/
def retired (cf : Conf D) (ret : List Bool) (i : ℕ) : Option Bool :=
  if cf.support then ret[i]? else some false

/-- `QueueConfiguration::compare` with `cmpLessThan` (src/mathic/PairQueue.h:359-365). -/
def compare (cf : Conf D) (f : Faults) (mem : List (Column D)) (p q : ℕ) : Cmp :=
  match mem[p]?, mem[q]? with
  | some ⟨c, r :: _, some d⟩, some ⟨c', r' :: _, some d'⟩ =>
    if f.compare c c' then .exn else .val (cf.lt c r d c' r' d')
  | _, _ => .ub

/-- How `Column::create` ends: with the column, or by an exception; `log` is what has happened to
pair data in either case. -/
inductive Created (D : Type) where
  | column (c : Column D) (log : List (Event D))
  | exn (log : List (Event D))

/-- `Column::create` (src/mathic/PairQueue.h:382-456) with the default `constructPairData`
(src/mathic/PairQueue.h:76-85) on a range that starts with `r`. An exception out of
`computePairData` leaves without a destruction. -/
def create (cf : Conf D) (f : Faults) (col r : ℕ) (rows : List ℕ) : Created D :=
  if f.ctor then .exn []
  else if f.compute col (r % 4294967296) then .exn [.construct col (r % 4294967296)]
  else .column ⟨col, (r :: rows).map (store col), some (cf.compute col (r % 4294967296))⟩
    [.construct col (r % 4294967296), .compute col (r % 4294967296)]

/-- `Column::destruct(conf)` (src/mathic/PairQueue.h:289-293, 308-311). -/
def destructColumn (s : State D) (p : ℕ) : Option (State D) :=
  match s.mem[p]? with
  | none => none
  | some ⟨_, [], _⟩ => some s
  | some ⟨_, _ :: _, none⟩ => none
  | some ⟨c, r :: l, some d⟩ =>
    some { s with mem := s.mem.set p ⟨c, r :: l, none⟩, log := s.log ++ [.destruct c r d] }

/-- The loops of `incrementRowIndex` (src/mathic/PairQueue.h:470-477, 479-486) after `++begin`:
`prev` is `*(begin - 1)`, the list is what is left. -/
def advance (ret : ℕ → Option Bool) : ℕ → List ℕ → Option (ℕ × List ℕ)
  | prev, [] => some (prev, [])
  | prev, r :: l =>
    match ret r with
    | none => none
    | some true => advance ret r l
    | some false => some (prev, r :: l)

/-- `incrementRowIndex` (src/mathic/PairQueue.h:467-491). -/
def increment (cf : Conf D) (f : Faults) (s : State D) (p : ℕ) : Res (State D) :=
  match s.mem[p]? with
  | some ⟨c, r :: l, some d⟩ =>
    match advance (retired cf s.ret) r l with
    | none => .ub
    | some (last, []) =>
      .ok { s with mem := s.mem.set p ⟨c, [], none⟩, log := s.log ++ [.destruct c last d] }
    | some (_, r' :: l') =>
      if f.compute c r' then .exn { s with mem := s.mem.set p ⟨c, r' :: l', some d⟩ }
      else .ok { s with mem := s.mem.set p ⟨c, r' :: l', some (cf.compute c r')⟩,
                        log := s.log ++ [.compute c r'] }
  | _ => .ub

/-- `addColumnDescending` (src/mathic/PairQueue.h:543-577). If the push throws, the column is
destructed and the guard gives its memory back. -/
def addColumn (cf : Conf D) (f : Faults) (s : State D) (rows : List ℕ) : Res (State D) :=
  if s.count ≥ indexMax then .exn s
  else
    let ret := if cf.support then s.ret ++ [false] else s.ret
    match rows with
    | [] => .ok { s with count := s.count + 1, ret := ret }
    | r :: rows =>
      match create cf f s.count r rows with
      | .exn log => .exn { s with log := s.log ++ log }
      | .column c log =>
        let s1 : State D :=
          ⟨s.mem ++ [c], s.queue, s.count + 1, ret, s.log ++ log⟩
        match TourTree.pushX (compare cf f s1.mem) s1.queue s.mem.length with
        | .ok q => .ok { s1 with queue := q }
        | .ub => .ub
        | .exn q =>
          match destructColumn { s1 with queue := q } s.mem.length with
          | none => .ub
          | some s2 => .exn { s2 with mem := s.mem, count := s.count, ret := s.ret }

/-- `topColumn->destruct(mConf); mColumnQueue.pop();` (src/mathic/PairQueue.h:601-602). -/
def destroyTop (cf : Conf D) (f : Faults) (s : State D) (p : ℕ) : Res (State D) :=
  match destructColumn s p with
  | none => .ub
  | some s => (TourTree.popX (compare cf f s.mem) s.queue).map (fun q => { s with queue := q })

/-- The body of the loop of `pop` up to the label (src/mathic/PairQueue.h:589-603). -/
def popBody (cf : Conf D) (f : Faults) (s : State D) (p : ℕ) : Res (State D) :=
  match s.mem[p]? with
  | none => .ub
  | some c =>
    match retired cf s.ret c.col with
    | none => .ub
    | some true => destroyTop cf f s p
    | some false =>
      match increment cf f s p with
      | .ub => .ub
      | .exn s => .exn s
      | .ok s =>
        match s.mem[p]? with
        | none => .ub
        | some c =>
          if c.rows = [] then destroyTop cf f s p
          else (TourTree.decreaseTopX (compare cf f s.mem) s.queue p).map
            (fun q => { s with queue := q })

/-- The condition of the loop of `pop` (src/mathic/PairQueue.h:607-608). -/
def involvesRetired (cf : Conf D) (s : State D) (p : ℕ) : Option Bool :=
  match s.mem[p]? with
  | none => none
  | some c =>
    match retired cf s.ret c.col with
    | none => none
    | some true => some true
    | some false =>
      match c.rows with
      | [] => none
      | r :: _ => retired cf s.ret r

/-- The loop of `pop` (src/mathic/PairQueue.h:583-608). The first argument bounds the number of
rounds; reaching it would be an endless loop, and it is shown that it is not reached. -/
def popLoop (cf : Conf D) (f : Faults) : ℕ → State D → ℕ → Res (State D)
  | 0, _, _ => .ub
  | n + 1, s, p =>
    match popBody cf f s p with
    | .ub => .ub
    | .exn s => .exn s
    | .ok s =>
      if cf.support = false ∨ s.queue.tree.length = 0 then .ok s
      else
        match TourTree.top s.queue with
        | none => .ub
        | some p =>
          match involvesRetired cf s p with
          | none => .ub
          | some true => popLoop cf f n s p
          | some false => .ok s

/-- The number of rows left in a column, 0 if there is no such column. -/
def rowsLeft (mem : List (Column D)) (p : ℕ) : ℕ :=
  match mem[p]? with
  | none => 0
  | some c => c.rows.length

/-- The sum of `ColumnSizeSummer` (src/mathic/PairQueue.h:329-340). -/
def pairTotal (s : State D) : ℕ := ((TourTree.entries s.queue).map (rowsLeft s.mem)).sum

/-- `pairCount` (src/mathic/PairQueue.h:535-540); undefined if a column is gone. -/
def pairCount (s : State D) : Option ℕ :=
  if (TourTree.entries s.queue).all (fun p => (s.mem[p]?).isSome) then some (pairTotal s) else none

/-- `pop` (src/mathic/PairQueue.h:579-610). -/
def pop (cf : Conf D) (f : Faults) (s : State D) : Res (State D) :=
  match TourTree.top s.queue with
  | none => .ub
  | some p => popLoop cf f (pairTotal s + 1) s p

/-- `empty` (src/mathic/PairQueue.h:529-533). -/
def empty (s : State D) : Bool := s.queue.tree.length == 0

/-- `topPair` (src/mathic/PairQueue.h:640-647). -/
def topPair (s : State D) : Option (ℕ × ℕ) :=
  match TourTree.top s.queue with
  | none => none
  | some p =>
    match s.mem[p]? with
    | some ⟨c, r :: _, _⟩ => some (c, r)
    | _ => none

/-- `topPairData` (src/mathic/PairQueue.h:649-656). -/
def topPairData (s : State D) : Option D :=
  match TourTree.top s.queue with
  | none => none
  | some p =>
    match s.mem[p]? with
    | some ⟨_, _ :: _, some d⟩ => some d
    | _ => none

/-- `retireIndex` (src/mathic/PairQueue.h:622-632, 157-160). -/
def retireIndex (cf : Conf D) (f : Faults) (s : State D) (i : ℕ) : Res (State D) :=
  if cf.support = false ∨ s.ret.length ≤ i then .ub
  else
    let s := { s with ret := s.ret.set i true }
    if empty s then .ok s
    else
      match topPair s with
      | none => .ub
      | some (a, b) => if a = i ∨ b = i then pop cf f s else .ok s

/-- Destruction of a list of columns in order. -/
def destructAll (s : State D) : List ℕ → Option (State D)
  | [] => some s
  | p :: l =>
    match destructColumn s p with
    | none => none
    | some s => destructAll s l

/-- The destructor (src/mathic/PairQueue.h:523-527, with `ColumnDestructor` 342-352). -/
def destroy (s : State D) : Option (State D) := destructAll s (TourTree.entries s.queue)

/-- The calls that change a queue. -/
inductive Op where
  | add (rows : List ℕ)
  | pop
  | retire (i : ℕ)

/-- One call. -/
def step (cf : Conf D) (f : Faults) (s : State D) : Op → Res (State D)
  | .add rows => addColumn cf f s rows
  | .pop => pop cf f s
  | .retire i => retireIndex cf f s i

end Verif.PairQueue
