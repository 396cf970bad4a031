import Verif.GeoTrace

/-!
# Model of a comparison that throws while `Geobucket::push` looks for the place of an entry

Simplification: of the comparisons that `push` makes, those of the search in the first bucket can throw, not those of merges
(src/mathic/Geobucket.h:347-350) and of the front (lines 354, 363, 397).
-/

namespace Verif.Geobucket

variable {E : Type} (c : Conf E)

/-- `push` (src/mathic/Geobucket.h:343-399) when comparison `i` of the search (lines 369, 385) throws: the state left, `none`
if there is no such comparison. The entry has been counted by then (line 345), nothing else has happened. -/
def pushThrew (s : State E) (e : E) (i : ℕ) : Option (State E) :=
  match s.buckets[0]? with
  | none => none
  | some b =>
    if b.es.length = b.cap ∨ b.es = [] then none
    else if i < (searchT c b.es e).2.length then some { s with count := s.count + 1 }
    else none

/-- A call that returns, or a push whose search throws at comparison `i`; the client catches the exception. -/
inductive XOp (E : Type) where
  | call (op : PQOp E)
  | threw (e : E) (i : ℕ)

/-- One call: what it returns and the new state. -/
def stepX (s : State E) : XOp E → Option (Option E × State E)
  | .call op => step c s op
  | .threw e i => (pushThrew c s e i).map (fun s => (none, s))

/-- A history of calls. -/
def runX (s : State E) : List (XOp E) → Option (List (Option E) × State E)
  | [] => some ([], s)
  | op :: ops =>
    match stepX c s op with
    | none => none
    | some (o, s) =>
      match runX s ops with
      | none => none
      | some (os, s) => some (o :: os, s)

end Verif.Geobucket
