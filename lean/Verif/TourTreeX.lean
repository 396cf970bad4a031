import Verif.TourTree

/-!
# `mathic::TourTree` with comparisons that may throw or be undefined

The same functions as in `TourTree.lean`, for entries whose comparison is user code: a comparison
gives a value, throws, or is undefined behaviour. After a throw the state is the one that the
exception leaves behind. `TourTreeXProofs.lean` shows that both versions agree wherever the
comparisons have values.
-/

namespace Verif

/-- How a comparison ends. -/
inductive Cmp where
  | val (b : Bool)
  | exn
  | ub

/-- How a call ends: normally, by an exception (with the state left behind), or undefined. -/
inductive Res (σ : Type) where
  | ok (s : σ)
  | exn (s : σ)
  | ub

def Res.ofOption {σ : Type} : Option σ → Res σ
  | some s => .ok s
  | none => .ub

/-- Apply `f` to the state of either ending. -/
def Res.map {σ τ : Type} (f : σ → τ) : Res σ → Res τ
  | .ok s => .ok (f s)
  | .exn s => .exn (f s)
  | .ub => .ub

/-- Carry on after a normal end only. -/
def Res.bind {σ τ : Type} (r : Res σ) (e : σ → τ) (f : σ → Res τ) : Res τ :=
  match r with
  | .ok s => f s
  | .exn s => .exn (e s)
  | .ub => .ub

end Verif

namespace Verif.TourTree

variable {E : Type}

/-- The loop of `push` (src/mathic/TourTree.h:131-141). -/
def pushLoopX (cmp : E → E → Cmp) (players : List (E × ℕ)) (tree : List ℕ) (pos posParent : ℕ) :
    Res (List ℕ) :=
  match hp : rd tree posParent with
  | none => .ub
  | some q =>
    match rd tree pos with
    | none => .ub
    | some p =>
      match players[q]?, players[p]? with
      | some qe, some pe =>
        match cmp qe.1 pe.1 with
        | .ub => .ub
        | .exn => .exn tree
        | .val false => .ok tree
        | .val true =>
          match wr tree posParent p with
          | none => .ub
          | some tree' =>
            if posParent = 1 then .ok tree'
            else pushLoopX cmp players tree' posParent (posParent / 2)
      | _, _ => .ub
termination_by posParent
decreasing_by
  have := (rd_bounds hp).1
  omega

/-- The part of `push` before the loop, for a tree that is not empty
(src/mathic/TourTree.h:118-130). -/
def pushLeaf (s : State E) (e : E) : Option (State E) := do
  let moveDown ← rd s.tree ((s.tree.length + 1) / 2)
  let s ← treePush s moveDown
  let ps ← setLeaf s.players moveDown s.tree.length
  let s := { s with players := ps }
  let s ← playersPush s e (s.tree.length + 1)
  treePush s (s.players.length - 1)

/-- The first push (src/mathic/TourTree.h:112-116). -/
def pushFirst (s : State E) (e : E) : Option (State E) := do
  let s ← playersPush s e 1
  treePush s (s.players.length - 1)

/-- `push` of one entry (src/mathic/TourTree.h:107-143). -/
def pushX (cmp : E → E → Cmp) (s : State E) (e : E) : Res (State E) :=
  let s := if s.cap - s.tree.length ≥ 2 then s else reallocate s
  if s.tree = [] then Res.ofOption (pushFirst s e)
  else
    match pushLeaf s e with
    | none => .ub
    | some s' =>
      (pushLoopX cmp s'.players s'.tree s'.tree.length ((s.tree.length + 1) / 2)).map
        (fun t => { s' with tree := t })

/-- The loop of `decreaseTop` (src/mathic/TourTree.h:157-162) and of `pop`
(src/mathic/TourTree.h:197-205). -/
def replayLoopX (cmp : E → E → Cmp) (players : List (E × ℕ)) (tree : List ℕ) (pos player : ℕ) :
    Res (List ℕ) :=
  if pos = 1 then .ok tree
  else if pos = 0 then .ub
  else
    match rd tree (sibling pos) with
    | none => .ub
    | some opponent =>
      match players[player]?, players[opponent]? with
      | some pe, some oe =>
        match cmp pe.1 oe.1 with
        | .ub => .ub
        | .exn => .exn tree
        | .val b =>
          match wr tree (pos / 2) (if b then opponent else player) with
          | none => .ub
          | some tree' =>
            replayLoopX cmp players tree' (pos / 2) (if b then opponent else player)
      | _, _ => .ub
termination_by pos

/-- The part of `decreaseTop` before the loop (src/mathic/TourTree.h:153-155): the players with
the new entry, the top player and its leaf. -/
def decreaseSet (s : State E) (e : E) : Option (List (E × ℕ) × ℕ × ℕ) := do
  let player ← rd s.tree 1
  let ps ← setEntry s.players player e
  let q ← ps[player]?
  some (ps, player, q.2)

/-- `decreaseTop` (src/mathic/TourTree.h:152-164). -/
def decreaseTopX (cmp : E → E → Cmp) (s : State E) (e : E) : Res (State E) :=
  match decreaseSet s e with
  | none => .ub
  | some (ps, player, leaf) =>
    (replayLoopX cmp ps s.tree leaf player).map (fun t => { s with players := ps, tree := t })

/-- The part of `pop` before the loop for two entries or more (src/mathic/TourTree.h:174-196). -/
def popMove (s : State E) : Option (List (E × ℕ) × List ℕ × ℕ × ℕ) := do
  let parentPos := s.tree.length / 2
  let left ← rd s.tree (s.tree.length - 1)
  let right ← rd s.tree s.tree.length
  let par ← rd s.tree parentPos
  let (ps, t) ← promoteLeft s left right parentPos par
  let player ← rd t 1
  let r ← ps[right]?
  let ps ← setEntry ps player r.1
  let ps := ps.dropLast
  let ps ← setLeaf ps left parentPos
  let t := t.dropLast.dropLast
  let q ← ps[player]?
  some (ps, t, player, q.2)

/-- `pop` (src/mathic/TourTree.h:166-208), without the value returned. -/
def popX (cmp : E → E → Cmp) (s : State E) : Res (State E) :=
  match top s with
  | none => .ub
  | some _ =>
    if s.tree.length = 1 then
      .ok { s with tree := s.tree.dropLast, players := s.players.dropLast }
    else
      match popMove s with
      | none => .ub
      | some (ps, t, player, leaf) =>
        (replayLoopX cmp ps t leaf player).map (fun t => { s with tree := t, players := ps })

end Verif.TourTree
