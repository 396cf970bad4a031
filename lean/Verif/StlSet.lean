import Verif.PQSpec

/-!
# Model of `mathic::StlSet` (src/mathic/StlSet.h)

The `std::multiset` is the list of its elements in iteration order. `insert` puts a new element at
the end of its range of equivalent elements, as the standard demands.
-/

namespace Verif.StlSet

variable {E : Type*}

/-- `Cmp` (src/mathic/StlSet.h:57-63). -/
def cmp (c : PQConf E) (a b : E) : Bool := c.lt b a

/-- `std::multiset::insert` with the comparator `Cmp`: before the first element that is greater in
the order of the set. -/
def insert (c : PQConf E) (e : E) : List E → List E
  | [] => [e]
  | x :: l => if cmp c e x then e :: x :: l else x :: insert c e l

/-- `push` of one entry (src/mathic/StlSet.h:22). -/
def push (c : PQConf E) (s : List E) (e : E) : List E := insert c e s

/-- `push` of a range (src/mathic/StlSet.h:23-26). -/
def pushRange (c : PQConf E) (s : List E) : List E → List E
  | [] => s
  | e :: l => pushRange c (push c s e) l

/-- `pop` (src/mathic/StlSet.h:27-31); `*begin()` of an empty set is undefined. -/
def pop : List E → Option (E × List E)
  | [] => none
  | x :: l => some (x, l)

/-- `top` (src/mathic/StlSet.h:32-34). -/
def top : List E → Option E
  | [] => none
  | x :: _ => some x

/-- One call. `StlSet` has neither `decreaseTop` nor `clear`. -/
def step (c : PQConf E) (s : List E) : PQOp E → Option (Option E × List E)
  | .push e => some (none, push c s e)
  | .pushRange l => some (none, pushRange c s l)
  | .top => (top s).map (fun x => (some x, s))
  | .pop => (pop s).map (fun r => (some r.1, r.2))
  | .decreaseTop _ => none
  | .clear => none

/-- The set as a priority queue. There is neither `forAll` nor `size()`, the entries are
what `print` (src/mathic/StlSet.h:36-42) prints. -/
def impl (c : PQConf E) : PQImpl E where
  State := List E
  init := []
  step := step c
  entries := id
  top := top
  empty s := List.isEmpty s
  size s := List.length s

/-- The calls that the class has. -/
def allowed : PQOp E → Prop
  | .push _ => True
  | .pushRange _ => True
  | .top => True
  | .pop => True
  | _ => False

end Verif.StlSet
