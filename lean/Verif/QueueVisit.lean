import Verif.ComTree
import Verif.TourTree
import Verif.GeoAssert

/-!
# Model of `forAll` of the priority queues

`forAll(t)` shows the entries to `t.proceed`, which answers whether to go on. An answer of the visitor may
depend on all that it has been shown, so it is a function of the list of entries shown so far, with the
last one the current. A visitor may also throw; nothing in `forAll` catches it.

The loops compare iterators with `!=`, so they need not end if they start on the wrong side. Each loop is
given a bound on the number of rounds and is undefined when it is exceeded; the properties hold for every
bound that is large enough.
-/

namespace Verif.Visit

open Verif.ComTree Dbg

variable {E : Type}

/-- What `t.proceed` (called in src/mathic/Heap.h:48, src/mathic/TourTree.h:41, 50,
src/mathic/Geobucket.h:159) does: returns true, returns false, throws. -/
inductive Ans where
  | go
  | stop
  | threw
deriving DecidableEq

/-! ## Heap -/

/-- `_tree[it]` (src/mathic/ComTree.h:185-199) in a tree that holds `t`; a node that is not the position of an
entry is undefined. -/
def cell (k : NodeConf) (t : List E) (it : Node) : Option E :=
  if k.fi then
    if it.toNat % k.S.toNat = 0 then rd t (it.toNat / k.S.toNat) else none
  else rd t it.toNat

/-- The loop of `Heap::forAll` (src/mathic/Heap.h:47-49). -/
def heapLoop (k : NodeConf) (t : List E) (ask : List E → Ans) (stop : Node) :
    ℕ → Node → List E → Option (List E × Ans)
  | 0, _, _ => none
  | n + 1, it, got =>
    if it = stop then some (got, .go)
    else
      match cell k t it with
      | none => none
      | some e =>
        match ask (got ++ [e]) with
        | .go => heapLoop k t ask stop n (k.next it) (got ++ [e])
        | .stop => some (got ++ [e], .stop)
        | .threw => some (got ++ [e], .threw)

/-- `Heap::forAll` (src/mathic/Heap.h:44-50); `last` is `_tree.lastLeaf()`. -/
def heapForAll (k : NodeConf) (t : List E) (last : Node) (ask : List E → Ans) (rounds : ℕ) :
    Option (List E × Ans) :=
  heapLoop k t ask (k.next last) rounds k.root []

/-! ## TourTree -/

/-- The loop of `TourTree::forAll` on a constant tree (src/mathic/TourTree.h:39-42). -/
def tourLoop (players : List (E × ℕ)) (ask : List E → Ans) (fin : ℕ) :
    ℕ → ℕ → List E → Option (List E × Ans)
  | 0, _, _ => none
  | n + 1, it, got =>
    if it = fin then some (got, .go)
    else
      match players[it]? with
      | none => none
      | some q =>
        match ask (got ++ [q.1]) with
        | .go => tourLoop players ask fin n (it + 1) (got ++ [q.1])
        | .stop => some (got ++ [q.1], .stop)
        | .threw => some (got ++ [q.1], .threw)

/-- `TourTree::forAll` of a constant tree (src/mathic/TourTree.h:36-43). -/
def tourForAll (s : TourTree.State E) (ask : List E → Ans) (rounds : ℕ) : Option (List E × Ans) :=
  tourLoop s.players ask s.players.length rounds 0 []

/-- The loop of `TourTree::forAll` on a tree that is not constant (src/mathic/TourTree.h:48-51). The visitor is
given a reference to the entry, `edit` is what it leaves there. -/
def tourLoopMut (ask : List E → Ans) (edit : List E → E) (fin : ℕ) :
    ℕ → ℕ → List (E × ℕ) → List E → Option (List (E × ℕ) × List E × Ans)
  | 0, _, _, _ => none
  | n + 1, it, players, got =>
    if it = fin then some (players, got, .go)
    else
      match players[it]? with
      | none => none
      | some q =>
        match TourTree.setEntry players it (edit (got ++ [q.1])) with
        | none => none
        | some players' =>
          match ask (got ++ [q.1]) with
          | .go => tourLoopMut ask edit fin n (it + 1) players' (got ++ [q.1])
          | .stop => some (players', got ++ [q.1], .stop)
          | .threw => some (players', got ++ [q.1], .threw)

/-- `TourTree::forAll` of a tree that is not constant (src/mathic/TourTree.h:45-52). -/
def tourForAllMut (s : TourTree.State E) (ask : List E → Ans) (edit : List E → E) (rounds : ℕ) :
    Option (TourTree.State E × List E × Ans) :=
  (tourLoopMut ask edit s.players.length rounds 0 s.players []).map
    (fun r => ({ s with players := r.1 }, r.2.1, r.2.2))

/-! ## Geobucket -/

/-- The loop over one bucket in `Geobucket::forAll` (src/mathic/Geobucket.h:157-163). -/
def bucketLoop (es : List E) (ask : List E → Ans) (stop : ℕ) : ℕ → ℕ → List E → Option (List E × Ans)
  | 0, _, _ => none
  | n + 1, entry, got =>
    if entry = stop then some (got, .go)
    else
      match es[entry]? with
      | none => none
      | some e =>
        match ask (got ++ [e]) with
        | .go => bucketLoop es ask stop n (entry + 1) (got ++ [e])
        | .stop => some (got ++ [e], .stop)
        | .threw => some (got ++ [e], .threw)

/-- The loop over the buckets in `Geobucket::forAll` (src/mathic/Geobucket.h:156-164). -/
def geoLoop (bs : List (Geobucket.Bucket E)) (ask : List E → Ans) (fin rounds : ℕ) :
    ℕ → ℕ → List E → Option (List E × Ans)
  | 0, _, _ => none
  | n + 1, bucket, got =>
    if bucket = fin then some (got, .go)
    else
      match bs[bucket]? with
      | none => none
      | some b =>
        match bucketLoop b.es ask b.es.length rounds 0 got with
        | none => none
        | some (got, .go) => geoLoop bs ask fin rounds n (bucket + 1) got
        | some (got, .stop) => some (got, .stop)
        | some (got, .threw) => some (got, .threw)

/-- `Geobucket::forAll` (src/mathic/Geobucket.h:154-166) in a release build. -/
def geoForAll (s : Geobucket.State E) (ask : List E → Ans) (rounds : ℕ) : Option (List E × Ans) :=
  geoLoop s.buckets ask s.buckets.length rounds rounds 0 []

/-- The same in a debug build: `isValid()` is asserted at both ends, but not if the visitor throws. -/
def geoForAllD (c : Geobucket.Conf E) (s : Geobucket.State E) (ask : List E → Ans) (rounds : ℕ) :
    Dbg (List E × Ans) := do
  let r ← lift (geoForAll s ask rounds)
  if r.2 = .threw then ok r
  else do
    Geobucket.isValid c s
    ok r

end Verif.Visit
