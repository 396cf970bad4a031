import Verif.PQSpec

/-!
# Model of `mathic::TourTree` (src/mathic/TourTree.h)

A tournament tree: `players` is the vector `_players`, `tree` is the array of `_tree` whose cells
are pointers to players. A pointer is modelled as the index of the player that it points to.
`cap` is the capacity of the tree and `pcap` that of the vector: the code keeps pointers into the vector,
so a `push_back` beyond `pcap` would leave them dangling and is undefined here.

Simplification: `ComTree` is the list of its cells (see `comTree_refines` for that step),
and node numbers are naturals.
-/

namespace Verif.TourTree

variable {E : Type}

/-- The members of a `TourTree` (src/mathic/TourTree.h:65-78); a player is entry and leaf. -/
structure State (E : Type) where
  tree : List ℕ
  players : List (E × ℕ)
  cap : ℕ
  pcap : ℕ

/-- `reallocate` (src/mathic/TourTree.h:221-236) with `ComTree::increaseCapacity`
(src/mathic/ComTree.h:315-326) and `std::vector::reserve`. The pointers are moved to the new
buffer by their offset, so indices stay. -/
def reallocate (s : State E) : State E :=
  let cap := if s.cap = 0 then 16 else s.cap * 2
  { s with cap := cap, pcap := max s.pcap (cap / 2 + 2) }

/-- The constructor (src/mathic/TourTree.h:95-98). -/
def init : State E := reallocate ⟨[], [], 0, 0⟩

/-- `_tree.pushBackWithCapacity(p)` (src/mathic/ComTree.h:209-214). -/
def treePush (s : State E) (p : ℕ) : Option (State E) :=
  if s.tree.length < s.cap then some { s with tree := s.tree ++ [p] } else none

/-- `_players.push_back(Player(e, leaf))`; undefined if the vector would reallocate. -/
def playersPush (s : State E) (e : E) (leaf : ℕ) : Option (State E) :=
  if s.players.length < s.pcap then some { s with players := s.players ++ [(e, leaf)] } else none

/-- `player->entry = e`. -/
def setEntry (players : List (E × ℕ)) (p : ℕ) (e : E) : Option (List (E × ℕ)) :=
  (players[p]?).map (fun q => players.set p (e, q.2))

/-- `player->leaf = leaf`. -/
def setLeaf (players : List (E × ℕ)) (p : ℕ) (leaf : ℕ) : Option (List (E × ℕ)) :=
  (players[p]?).map (fun q => players.set p (q.1, leaf))

/-- The loop of `push` (src/mathic/TourTree.h:131-141). -/
def pushLoop (c : PQConf E) (players : List (E × ℕ)) (tree : List ℕ) (pos posParent : ℕ) :
    Option (List ℕ) :=
  match hp : rd tree posParent with
  | none => none
  | some q =>
    match rd tree pos with
    | none => none
    | some p =>
      match players[q]?, players[p]? with
      | some qe, some pe =>
        if c.lt qe.1 pe.1 = false then some tree
        else
          match wr tree posParent p with
          | none => none
          | some tree' =>
            if posParent = 1 then some tree'
            else pushLoop c players tree' posParent (posParent / 2)
      | _, _ => none
termination_by posParent
decreasing_by
  have := (rd_bounds hp).1
  omega

/-- `push` of one entry (src/mathic/TourTree.h:107-143). -/
def push (c : PQConf E) (s : State E) (e : E) : Option (State E) := do
  let s := if s.cap - s.tree.length ≥ 2 then s else reallocate s
  if s.tree = [] then
    let s ← playersPush s e 1
    treePush s (s.players.length - 1)
  else
    let posParent := (s.tree.length + 1) / 2
    let moveDown ← rd s.tree posParent
    let s ← treePush s moveDown
    let ps ← setLeaf s.players moveDown s.tree.length
    let s := { s with players := ps }
    let s ← playersPush s e (s.tree.length + 1)
    let s ← treePush s (s.players.length - 1)
    let t ← pushLoop c s.players s.tree s.tree.length posParent
    some { s with tree := t }

/-- `push` of a range (src/mathic/TourTree.h:145-150). -/
def pushRange (c : PQConf E) (s : State E) : List E → Option (State E)
  | [] => some s
  | e :: l =>
    match push c s e with
    | none => none
    | some s' => pushRange c s' l

/-- The sibling of a node (src/mathic/ComTree.h:251-254, `node_sibling`). -/
def sibling (i : ℕ) : ℕ := if i % 2 = 0 then i + 1 else i - 1

/-- The loop of `decreaseTop` (src/mathic/TourTree.h:157-162) and of `pop`
(src/mathic/TourTree.h:197-205), which differ only in where `pos` is updated.
`pos = 0` does not occur, it would be an endless loop. -/
def replayLoop (c : PQConf E) (players : List (E × ℕ)) (tree : List ℕ) (pos player : ℕ) :
    Option (List ℕ) :=
  if pos = 1 then some tree
  else if pos = 0 then none
  else
    match rd tree (sibling pos) with
    | none => none
    | some opponent =>
      match players[player]?, players[opponent]? with
      | some pe, some oe =>
        match wr tree (pos / 2) (if c.lt pe.1 oe.1 then opponent else player) with
        | none => none
        | some tree' =>
          replayLoop c players tree' (pos / 2) (if c.lt pe.1 oe.1 then opponent else player)
      | _, _ => none
termination_by pos

/-- `decreaseTop` (src/mathic/TourTree.h:152-164). -/
def decreaseTop (c : PQConf E) (s : State E) (e : E) : Option (State E) := do
  let player ← rd s.tree 1
  let ps ← setEntry s.players player e
  let q ← ps[player]?
  let t ← replayLoop c ps s.tree q.2 player
  some { s with players := ps, tree := t }

/-- The loop of `pop` that puts left where right was (src/mathic/TourTree.h:184-188). -/
def renameLoop (tree : List ℕ) (left right pos : ℕ) : Option (List ℕ) :=
  match hp : rd tree pos with
  | none => none
  | some p =>
    if p ≠ right then some tree
    else
      match wr tree pos left with
      | none => none
      | some tree' => if pos = 1 then some tree' else renameLoop tree' left right (pos / 2)
termination_by pos
decreasing_by
  have := (rd_bounds hp).1
  omega

/-- `std::swap(left->entry, right->entry)` (src/mathic/TourTree.h:183). -/
def swapEntries (players : List (E × ℕ)) (left right : ℕ) : Option (List (E × ℕ)) := do
  let a ← players[left]?
  let b ← players[right]?
  let ps ← setEntry players left b.1
  setEntry ps right a.1

/-- The part of `pop` that makes right the smaller of the two last entries
(src/mathic/TourTree.h:180-189); `par` is `_tree[parentPos]`. -/
def promoteLeft (s : State E) (left right parentPos par : ℕ) :
    Option (List (E × ℕ) × List ℕ) :=
  if right = par then do
    let ps ← swapEntries s.players left right
    let t ← renameLoop s.tree left right parentPos
    some (ps, t)
  else some (s.players, s.tree)

/-- `pop` (src/mathic/TourTree.h:166-208). -/
def pop (c : PQConf E) (s : State E) : Option (E × State E) := do
  let winner ← rd s.tree 1
  let top ← s.players[winner]?
  if s.tree.length = 1 then
    some (top.1, { s with tree := s.tree.dropLast, players := s.players.dropLast })
  else
    let parentPos := s.tree.length / 2
    let left ← rd s.tree (s.tree.length - 1)
    let right ← rd s.tree s.tree.length
    let par ← rd s.tree parentPos
    let (ps, t) ← promoteLeft s left right parentPos par
    let player ← rd t 1
    let r ← ps[right]?
    let ps ← setEntry ps player r.1
    let ps := ps.dropLast
    let ps ← setLeaf ps left parentPos
    let t := t.dropLast.dropLast
    let q ← ps[player]?
    let t ← replayLoop c ps t q.2 player
    some (top.1, { s with tree := t, players := ps })

/-- `top` (src/mathic/TourTree.h:210-214). -/
def top (s : State E) : Option E := do
  let p ← rd s.tree 1
  let q ← s.players[p]?
  some q.1

/-- `clear` (src/mathic/TourTree.h:81-87). -/
def clear (s : State E) : State E := { s with tree := [], players := [] }

/-- What `forAll` visits (src/mathic/TourTree.h:36-52) when never told to stop. -/
def entries (s : State E) : List E := s.players.map Prod.fst

/-- One call. -/
def step (c : PQConf E) (s : State E) : PQOp E → Option (Option E × State E)
  | .push e => (push c s e).map (fun s => (none, s))
  | .pushRange l => (pushRange c s l).map (fun s => (none, s))
  | .top => (top s).map (fun x => (some x, s))
  | .pop => (pop c s).map (fun r => (some r.1, r.2))
  | .decreaseTop e => (decreaseTop c s e).map (fun s => (none, s))
  | .clear => some (none, clear s)

/-- The tournament tree as a priority queue; `empty` is src/mathic/TourTree.h:31. There is no
`size()` in the class, the size given here is that of `_players`. -/
def impl (c : PQConf E) : PQImpl E where
  State := State E
  init := init
  step := step c
  entries := entries
  top := top
  empty s := s.tree.length == 0
  size s := s.players.length

end Verif.TourTree
