import Verif.Heap

/-!
# The calls of `deduplicate` that `mathic::Heap` makes (src/mathic/Heap.h)

`Verif.Heap` treats `deduplicate` as a function. A configuration may do more: that of the queue
simulator (src/pqsim/Model.h:91-94) also notes the second entry down. So here each function of the
heap returns, besides what it returns in `Verif.Heap`, the arguments of its calls of `deduplicate`, in
order. `moveValueUp` is the only function that calls it.
-/

namespace Verif.Heap

variable {E : Type*}

/-- `moveValueUp` (src/mathic/Heap.h:161-192) with the arguments of
`_conf.deduplicate(_tree[up], value)` (line 172). -/
def moveValueUpL (c : PQConf E) (t : List E) (origPos : ℕ) (value : E) :
    Option (List E × List (E × E)) :=
  match hc : climb c t origPos value with
  | none => none
  | some (.place t' pos) => (wr t' pos value).map (·, [])
  | some (.dup t' pos) =>
    match rd t' (pos / 2) with
    | none => none
    | some u =>
      match hm : mergeUp c t' origPos pos value with
      | none => none
      | some (t₁, last) =>
        if origPos = t₁.length + 1 then some (t₁, [(u, value)])
        else (moveValueUpL c t₁ origPos last).map (fun r => (r.1, (u, value) :: r.2))
termination_by t.length
decreasing_by
  have h1 := mergeUp_length hm
  have h2 := (climb_length hc).2 _ _ rfl
  omega

/-- `push` (src/mathic/Heap.h:97-102). -/
def pushL (c : PQConf E) (t : List E) (e : E) : Option (List E × List (E × E)) :=
  moveValueUpL c (t ++ [e]) (t.length + 1) e

/-- `push` of a range (src/mathic/Heap.h:104-109). -/
def pushRangeL (c : PQConf E) (t : List E) : List E → Option (List E × List (E × E))
  | [] => some (t, [])
  | e :: es =>
    match pushL c t e with
    | none => none
    | some (t', log) => (pushRangeL c t' es).map (fun r => (r.1, log ++ r.2))

/-- `decreaseTop` (src/mathic/Heap.h:111-115). -/
def decreaseTopL (c : PQConf E) (t : List E) (e : E) : Option (List E × List (E × E)) :=
  match moveHoleDown c t 1 with
  | none => none
  | some (t', hole) => moveValueUpL c t' hole e

/-- `pop` (src/mathic/Heap.h:124-133). -/
def popL (c : PQConf E) (t : List E) : Option (E × List E × List (E × E)) :=
  match rd t 1, rd t t.length with
  | some top, some moved =>
    let t₁ := t.dropLast
    if t₁.isEmpty then some (top, t₁, [])
    else
      match moveHoleDown c t₁ 1 with
      | none => none
      | some (t₂, hole) => (moveValueUpL c t₂ hole moved).map (fun r => (top, r.1, r.2))
  | _, _ => none

/-- One call on the heap: the value returned, the new state and the calls of `deduplicate`. -/
def stepL (c : PQConf E) (t : List E) : PQOp E → Option (Option E × List E × List (E × E))
  | .push e => (pushL c t e).map (none, ·)
  | .pushRange l => (pushRangeL c t l).map (none, ·)
  | .top => (top t).map (fun x => (some x, t, []))
  | .pop => (popL c t).map (fun r => (some r.1, r.2))
  | .decreaseTop e => (decreaseTopL c t e).map (none, ·)
  | .clear => some (none, clear t, [])

end Verif.Heap
