import Verif.Heap
import Verif.QueueThrowSpec

/-!
# `mathic::Heap` with comparisons that are any user code

The same functions as in `Heap.lean` for a configuration whose comparison need not be an order: the
answer may depend on how many comparisons were made before, so that the same two entries may be
compared differently at another time, and a comparison or a deduplication may throw. After an
exception the tree is as the exception leaves it. `HeapThrowProofs.lean` shows that where comparisons
have fixed values both versions agree.

Not modelled: exceptions of copying an entry and of the allocation in `ComTree::pushBack`.
-/

namespace Verif.Heap

variable {E : Type*}

/-- How `compare` ends, seen through `cmpLessThan` and `cmpEqual` (the configuration in
src/mathic/Heap.h:13-29). -/
inductive Ans where
  | val (less equal : Bool)
  | exn

/-- A configuration: the `n`-th comparison of two entries, and deduplication, which throws where it is
`none` (src/mathic/Heap.h:13-29). -/
structure ConfX (E : Type*) where
  cmp : ℕ → E → E → Ans
  supportDedup : Bool
  dedup : E → E → Option E

/-- `deduplicate` adds up the weights of what the comparison has called equal. -/
def ConfX.Weight (c : ConfX E) {M : Type*} [AddCommMonoid M] (w : E → M) : Prop :=
  c.supportDedup = true → ∀ n a b d, c.cmp n a b = .val false true → c.dedup a b = some d →
    w d = w a + w b

/-- `deduplicate` makes entries of the kind `P` from such entries. -/
def ConfX.Closed (c : ConfX E) (P : E → Prop) : Prop :=
  ∀ a b d, P a → P b → c.dedup a b = some d → P d

/-- How a function ends: normally with a value, or by an exception; with the number of comparisons
made so far and the tree left behind. -/
inductive Flow (A E : Type*) where
  | on (a : A) (n : ℕ) (t : List E)
  | threw (n : ℕ) (t : List E)

/-- `Heap::moveHoleDown` (src/mathic/Heap.h:140-159), see `moveHoleDown`. Returns the hole. -/
def moveHoleDownX (c : ConfX E) (n : ℕ) (t : List E) (hole : ℕ) : Option (Flow ℕ E) :=
  if _h0 : hole = 0 then none else
  if _hlt : hole < (t.length + 1) / 2 then
    match rd t (2 * hole), rd t (2 * hole + 1) with
    | some a, some b =>
      match c.cmp n a b with
      | .exn => some (.threw (n + 1) t)
      | .val less _ =>
        match rd t (if less then 2 * hole + 1 else 2 * hole) with
        | none => none
        | some v =>
          match hw : wr t hole v with
          | none => none
          | some t' => moveHoleDownX c (n + 1) t' (if less then 2 * hole + 1 else 2 * hole)
    | _, _ => none
  else if hole = (t.length + 1) / 2 ∧ t.length % 2 = 0 then
    match rd t (2 * hole) with
    | none => none
    | some v =>
      match wr t hole v with
      | none => none
      | some t' => some (.on (2 * hole) n t')
  else some (.on hole n t)
termination_by t.length - hole
decreasing_by
  have := wr_length hw
  split <;> omega

/-- The `while` loop of `Heap::moveValueUp` up to the deduplication
(src/mathic/Heap.h:165-171, 187-188). Returns whether it ends below an equal entry, and where. -/
def climbX (c : ConfX E) (n : ℕ) (t : List E) (pos : ℕ) (value : E) : Option (Flow (Bool × ℕ) E) :=
  if _h0 : pos = 0 then none else
  if _h1 : pos = 1 then some (.on (false, pos) n t) else
  match rd t (pos / 2) with
  | none => none
  | some u =>
    match c.cmp n u value with
    | .exn => some (.threw (n + 1) t)
    | .val true _ =>
      match wr t pos u with
      | none => none
      | some t' => climbX c (n + 1) t' (pos / 2) value
    | .val false equal => some (.on (c.supportDedup && equal, pos) (n + 1) t)
termination_by pos
decreasing_by omega

/-- The deduplication branch (src/mathic/Heap.h:172-181), see `mergeUp`. Returns the value of the last
leaf. An exception of `deduplicate` comes before anything is written. -/
def mergeUpX (c : ConfX E) (n : ℕ) (t : List E) (origPos pos : ℕ) (value : E) :
    Option (Flow E E) :=
  match rd t (pos / 2) with
  | none => none
  | some u =>
    match c.dedup u value with
    | none => some (.threw n t)
    | some d =>
      match wr t (pos / 2) d with
      | none => none
      | some t₁ =>
        match restore t₁ origPos pos with
        | none => none
        | some t₂ =>
          match rd t₂ t₂.length with
          | none => none
          | some last => some (.on last n t₂.dropLast)

theorem mergeUpX_length {c : ConfX E} {n n' : ℕ} {t t' : List E} {o pos : ℕ} {value last : E}
    (h : mergeUpX c n t o pos value = some (.on last n' t')) : t'.length + 1 = t.length := by
  unfold mergeUpX at h
  split at h
  · cases h
  · split at h
    · cases h
    · split at h
      · cases h
      · rename_i t₁ hw
        split at h
        · cases h
        · rename_i t₂ hb
          split at h
          · cases h
          · rename_i last' hl
            cases h
            have hb1 := rd_bounds hl
            have : t₂.length = t₁.length := restore_length hb
            rw [List.length_dropLast, this]
            rw [this] at hb1
            have := wr_length hw
            omega

theorem climbX_length {c : ConfX E} {n n' : ℕ} {t t' : List E} {pos : ℕ} {value : E} {r : Bool × ℕ}
    (h : climbX c n t pos value = some (.on r n' t')) : t'.length = t.length := by
  fun_induction climbX c n t pos value with
  | case1 => cases h
  | case2 => cases h; rfl
  | case3 => cases h
  | case4 => cases h
  | case5 => cases h
  | case6 n t pos h0 h1 u hu e hcmp t₁ hw ih => rw [ih h, wr_length hw]
  | case7 => cases h; rfl

/-- `Heap::moveValueUp` (src/mathic/Heap.h:161-192), `goto again` as recursion. -/
def moveValueUpX (c : ConfX E) (n : ℕ) (t : List E) (origPos : ℕ) (value : E) :
    Option (Flow Unit E) :=
  match hc : climbX c n t origPos value with
  | none => none
  | some (.threw n' t') => some (.threw n' t')
  | some (.on (false, pos) n' t') =>
    match wr t' pos value with
    | none => none
    | some t'' => some (.on () n' t'')
  | some (.on (true, pos) n' t') =>
    match hm : mergeUpX c n' t' origPos pos value with
    | none => none
    | some (.threw n₁ t₁) => some (.threw n₁ t₁)
    | some (.on last n₁ t₁) =>
      if origPos = t₁.length + 1 then some (.on () n₁ t₁)
      else moveValueUpX c n₁ t₁ origPos last
termination_by t.length
decreasing_by
  have h1 := mergeUpX_length hm
  have h2 := climbX_length hc
  omega

/-- `Heap::push` (src/mathic/Heap.h:97-102); `ComTree::pushBack` appends a cell. -/
def pushX (c : ConfX E) (n : ℕ) (t : List E) (e : E) : Option (Flow Unit E) :=
  moveValueUpX c n (t ++ [e]) (t.length + 1) e

/-- `Heap::push(It, It)` (src/mathic/Heap.h:104-109). -/
def pushRangeX (c : ConfX E) (n : ℕ) (t : List E) : List E → Option (Flow Unit E)
  | [] => some (.on () n t)
  | e :: es =>
    match pushX c n t e with
    | none => none
    | some (.threw n' t') => some (.threw n' t')
    | some (.on _ n' t') => pushRangeX c n' t' es

/-- `Heap::decreaseTop` (src/mathic/Heap.h:111-115), and the second half of `pop`
(src/mathic/Heap.h:129-130): move the hole from the root down and put `e` there. -/
def decreaseTopX (c : ConfX E) (n : ℕ) (t : List E) (e : E) : Option (Flow Unit E) :=
  match moveHoleDownX c n t 1 with
  | none => none
  | some (.threw n' t') => some (.threw n' t')
  | some (.on hole n' t') => moveValueUpX c n' t' hole e

/-- Give a normal end the value `a`. -/
def Flow.ret {A B E : Type*} (a : B) : Flow A E → Flow B E
  | .on _ n t => .on a n t
  | .threw n t => .threw n t

/-- `Heap::pop` (src/mathic/Heap.h:124-133). -/
def popX (c : ConfX E) (n : ℕ) (t : List E) : Option (Flow E E) :=
  match rd t 1, rd t t.length with
  | some top, some moved =>
    if t.dropLast.isEmpty then some (.on top n t.dropLast)
    else (decreaseTopX c n t.dropLast moved).map (Flow.ret top)
  | _, _ => none

/-- The value that a call returns to the client. -/
def Flow.some {A E : Type*} : Flow A E → Flow (Option A) E
  | .on a n t => .on (.some a) n t
  | .threw n t => .threw n t

/-- One call on the heap; `top` and `clear` as in `Heap.lean` (src/mathic/Heap.h:60, 117-122). -/
def stepX (c : ConfX E) (n : ℕ) (t : List E) : PQOp E → Option (Flow (Option E) E)
  | .push e => (pushX c n t e).map (Flow.ret none)
  | .pushRange l => (pushRangeX c n t l).map (Flow.ret none)
  | .top => (top t).map (fun x => .on (some x) n t)
  | .pop => (popX c n t).map Flow.some
  | .decreaseTop e => (decreaseTopX c n t e).map (Flow.ret none)
  | .clear => some (.on none n (clear t))

/-- A history of calls. The client catches each exception and goes on. -/
def runX (c : ConfX E) (n : ℕ) (t : List E) : List (PQOp E) → Option (List (PQSeen E) × ℕ × List E)
  | [] => some ([], n, t)
  | op :: ops =>
    match stepX c n t op with
    | none => none
    | some (.on o n' t') => (runX c n' t' ops).map (fun r => (.ret o :: r.1, r.2))
    | some (.threw n' t') => (runX c n' t' ops).map (fun r => (.threw :: r.1, r.2))

/-- The configuration whose `n`-th comparison of two entries gives `answer n`, without exceptions:
first whether less, then whether equal. -/
def ConfX.answering (answer : ℕ → E → E → Bool × Bool) (supportDedup : Bool) (dedup : E → E → E) :
    ConfX E where
  cmp n a b := .val (answer n a b).1 (answer n a b).2
  supportDedup := supportDedup
  dedup a b := some (dedup a b)

/-- The configuration of `Heap.lean`: comparisons do not depend on time. -/
def ConfX.ofPure (c : PQConf E) : ConfX E :=
  .answering (fun _ a b => (c.lt a b, c.eq a b)) c.supportDedup c.dedup

/-- The heap as a priority queue whose comparisons give any answers; the state holds the number of
comparisons made. -/
def implX (answer : ℕ → E → E → Bool × Bool) (supportDedup : Bool) (dedup : E → E → E) :
    PQImpl E where
  State := ℕ × List E
  init := (0, [])
  step s op :=
    match stepX (.answering answer supportDedup dedup) s.1 s.2 op with
    | some (.on o n t) => some (o, n, t)
    | _ => none
  entries s := s.2
  top s := top s.2
  empty s := s.2.length == 0
  size s := s.2.length

end Verif.Heap
