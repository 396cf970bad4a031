import Verif.TourTreeX
import Verif.QueueThrowSpec

/-!
# Histories of a `mathic::TourTree` whose comparisons are any user code

Built on the calls of `TourTreeX.lean`. Each call of a history comes with its own comparison, so that
comparisons may change from call to call; within one call the same entries are compared the same way.
-/

namespace Verif.TourTree

variable {E : Type}

/-- The end of a call as the client sees it; `none` is undefined behaviour. -/
def seen (o : Option E) : Res (State E) → Option (PQSeen E × State E)
  | .ok s => some (.ret o, s)
  | .exn s => some (.threw, s)
  | .ub => none

/-- `push` of a range (src/mathic/TourTree.h:145-150). -/
def pushRangeX (cmp : E → E → Cmp) (s : State E) : List E → Res (State E)
  | [] => .ok s
  | e :: l =>
    match pushX cmp s e with
    | .ub => .ub
    | .exn s' => .exn s'
    | .ok s' => pushRangeX cmp s' l

/-- One call; `top`, `pop` and `clear` as in `TourTree.lean` (src/mathic/TourTree.h:81-87, 166-214). -/
def stepX (cmp : E → E → Cmp) (s : State E) : PQOp E → Option (PQSeen E × State E)
  | .push e => seen none (pushX cmp s e)
  | .pushRange l => seen none (pushRangeX cmp s l)
  | .top => (top s).map (fun x => (.ret (some x), s))
  | .pop => (top s).bind (fun x => seen (some x) (popX cmp s))
  | .decreaseTop e => seen none (decreaseTopX cmp s e)
  | .clear => some (.ret none, clear s)

/-- A history of calls, each with the comparison of its time. The client catches each exception and
goes on. -/
def runX (s : State E) : List ((E → E → Cmp) × PQOp E) → Option (List (PQSeen E) × State E)
  | [] => some ([], s)
  | (cmp, op) :: calls =>
    match stepX cmp s op with
    | none => none
    | some (o, s') => (runX s' calls).map (fun r => (o :: r.1, r.2))

/-- No comparison is undefined, and comparisons of `pop` and `decreaseTop` do not throw. -/
def OnlyPushThrows (call : (E → E → Cmp) × PQOp E) : Prop :=
  (∀ a b, call.1 a b ≠ .ub) ∧ (call.2.needsTop → ∀ a b, call.1 a b ≠ .exn)

/-- The tournament tree as a priority queue whose comparison may be another one in each call: `cs k` is
the configuration at the time of call `k`. -/
def implAt (cs : ℕ → PQConf E) : PQImpl E where
  State := ℕ × State E
  init := (0, init)
  step s op := (step (cs s.1) s.2 op).map (fun r => (r.1, s.1 + 1, r.2))
  entries s := entries s.2
  top s := top s.2
  empty s := s.2.tree.length == 0
  size s := s.2.players.length

end Verif.TourTree
