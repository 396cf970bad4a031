import Verif.TourTree

/-!
# The comparisons of `mathic::TourTree` (src/mathic/TourTree.h)

The functions of `Verif.TourTree` once more, with the pairs of entries given to `_conf.compare` in the order of the calls.
-/

namespace Verif.TourTree

variable {E : Type}

/-- A result, undefined or not, and the pairs compared on the way. -/
def Tr (E α : Type) : Type := Option α × List (E × E)

/-- A part without comparisons. -/
def Tr.lift {α : Type} (x : Option α) : Tr E α := (x, [])

/-- One part after another. -/
def Tr.bind {α β : Type} (x : Tr E α) (f : α → Tr E β) : Tr E β :=
  match x.1 with
  | none => (none, x.2)
  | some a => ((f a).1, x.2 ++ (f a).2)

/-- The loop of `push` (src/mathic/TourTree.h:131-141). -/
def pushLoopT (c : PQConf E) (players : List (E × ℕ)) (tree : List ℕ) (pos posParent : ℕ) : Tr E (List ℕ) :=
  match hp : rd tree posParent with
  | none => (none, [])
  | some q =>
    match rd tree pos with
    | none => (none, [])
    | some p =>
      match players[q]?, players[p]? with
      | some qe, some pe =>
        if c.lt qe.1 pe.1 = false then (some tree, [(qe.1, pe.1)])
        else
          match wr tree posParent p with
          | none => (none, [(qe.1, pe.1)])
          | some tree' =>
            if posParent = 1 then (some tree', [(qe.1, pe.1)])
            else
              let r := pushLoopT c players tree' posParent (posParent / 2)
              (r.1, (qe.1, pe.1) :: r.2)
      | _, _ => (none, [])
termination_by posParent
decreasing_by
  have := (rd_bounds hp).1
  omega

/-- `push` of one entry (src/mathic/TourTree.h:107-143). -/
def pushT (c : PQConf E) (s : State E) (e : E) : Tr E (State E) :=
  let s := if s.cap - s.tree.length ≥ 2 then s else reallocate s
  if s.tree = [] then
    (Tr.lift (playersPush s e 1)).bind fun s => Tr.lift (treePush s (s.players.length - 1))
  else
    let posParent := (s.tree.length + 1) / 2
    (Tr.lift (rd s.tree posParent)).bind fun moveDown =>
    (Tr.lift (treePush s moveDown)).bind fun s =>
    (Tr.lift (setLeaf s.players moveDown s.tree.length)).bind fun ps =>
    (Tr.lift (playersPush { s with players := ps } e (s.tree.length + 1))).bind fun s =>
    (Tr.lift (treePush s (s.players.length - 1))).bind fun s =>
    (pushLoopT c s.players s.tree s.tree.length posParent).bind fun t =>
    Tr.lift (some { s with tree := t })

/-- `push` of a range (src/mathic/TourTree.h:145-150). -/
def pushRangeT (c : PQConf E) (s : State E) : List E → Tr E (State E)
  | [] => (some s, [])
  | e :: l => (pushT c s e).bind fun s => pushRangeT c s l

/-- The loop of `decreaseTop` (src/mathic/TourTree.h:157-162) and of `pop` (src/mathic/TourTree.h:197-205). The model
asks twice for the result of one comparison. -/
def replayLoopT (c : PQConf E) (players : List (E × ℕ)) (tree : List ℕ) (pos player : ℕ) : Tr E (List ℕ) :=
  if _h1 : pos = 1 then (some tree, [])
  else if _h0 : pos = 0 then (none, [])
  else
    match rd tree (sibling pos) with
    | none => (none, [])
    | some opponent =>
      match players[player]?, players[opponent]? with
      | some pe, some oe =>
        match wr tree (pos / 2) (if c.lt pe.1 oe.1 then opponent else player) with
        | none => (none, [(pe.1, oe.1)])
        | some tree' =>
          let r := replayLoopT c players tree' (pos / 2) (if c.lt pe.1 oe.1 then opponent else player)
          (r.1, (pe.1, oe.1) :: r.2)
      | _, _ => (none, [])
termination_by pos
decreasing_by omega

/-- `decreaseTop` (src/mathic/TourTree.h:152-164). -/
def decreaseTopT (c : PQConf E) (s : State E) (e : E) : Tr E (State E) :=
  (Tr.lift (rd s.tree 1)).bind fun player =>
  (Tr.lift (setEntry s.players player e)).bind fun ps =>
  (Tr.lift (ps[player]?)).bind fun q =>
  (replayLoopT c ps s.tree q.2 player).bind fun t =>
  Tr.lift (some { s with players := ps, tree := t })

/-- `pop` (src/mathic/TourTree.h:166-208). -/
def popT (c : PQConf E) (s : State E) : Tr E (E × State E) :=
  (Tr.lift (rd s.tree 1)).bind fun winner =>
  (Tr.lift (s.players[winner]?)).bind fun top =>
  if s.tree.length = 1 then
    Tr.lift (some (top.1, { s with tree := s.tree.dropLast, players := s.players.dropLast }))
  else
    let parentPos := s.tree.length / 2
    (Tr.lift (rd s.tree (s.tree.length - 1))).bind fun left =>
    (Tr.lift (rd s.tree s.tree.length)).bind fun right =>
    (Tr.lift (rd s.tree parentPos)).bind fun par =>
    (Tr.lift (promoteLeft s left right parentPos par)).bind fun r =>
    (Tr.lift (rd r.2 1)).bind fun player =>
    (Tr.lift (r.1[right]?)).bind fun x =>
    (Tr.lift (setEntry r.1 player x.1)).bind fun ps =>
    (Tr.lift (setLeaf ps.dropLast left parentPos)).bind fun ps =>
    (Tr.lift (ps[player]?)).bind fun q =>
    (replayLoopT c ps r.2.dropLast.dropLast q.2 player).bind fun t =>
    Tr.lift (some (top.1, { s with tree := t, players := ps }))

/-- The pairs that a call compares; `top` and `clear` compare nothing. -/
def compared (c : PQConf E) (s : State E) : PQOp E → List (E × E)
  | .push e => (pushT c s e).2
  | .pushRange l => (pushRangeT c s l).2
  | .top => []
  | .pop => (popT c s).2
  | .decreaseTop e => (decreaseTopT c s e).2
  | .clear => []

end Verif.TourTree
