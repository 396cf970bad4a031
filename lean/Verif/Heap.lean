import Verif.PQSpec

/-!
# Model of `mathic::Heap` (src/mathic/Heap.h)

The `ComTree` that stores the heap is a list of cells; node `i` (`1 ≤ i ≤ size`) is cell `i` of
`rd`/`wr`. `Verif/ComTree.lean` shows that the array with capacity, and both index
representations, behave like this list. Reads and writes out of `1 .. size` are `none`.
-/

namespace Verif.Heap

variable {E : Type*}

/-- `Heap::moveHoleDown` (src/mathic/Heap.h:140-159). `t.length` is `lastLeaf`,
`(t.length + 1) / 2` is `lastLeaf().next().parent()`, `t.length % 2 = 0` is
`lastLeaf().isLeft()`. Node 0 is no node: reading its children is undefined. -/
def moveHoleDown (c : PQConf E) (t : List E) (hole : ℕ) : Option (List E × ℕ) :=
  if _h0 : hole = 0 then none else
  if _hlt : hole < (t.length + 1) / 2 then
    match rd t (2 * hole), rd t (2 * hole + 1) with
    | some a, some b =>
      let child := if c.lt a b then 2 * hole + 1 else 2 * hole
      match rd t child with
      | none => none
      | some v =>
        match hw : wr t hole v with
        | none => none
        | some t' => moveHoleDown c t' child
    | _, _ => none
  else if hole = (t.length + 1) / 2 ∧ t.length % 2 = 0 then
    match rd t (2 * hole) with
    | none => none
    | some v =>
      match wr t hole v with
      | none => none
      | some t' => some (t', 2 * hole)
  else some (t, hole)
termination_by t.length - hole
decreasing_by
  have := wr_length hw
  split <;> omega

/-- How the inner loop of `moveValueUp` ends: at the place of the value, or below an equal entry. -/
inductive Climb (E : Type*) where
  | place (t : List E) (pos : ℕ)
  | dup (t : List E) (pos : ℕ)

/-- The `while` loop of `Heap::moveValueUp` up to the deduplication
(src/mathic/Heap.h:165-171, 187-188). -/
def climb (c : PQConf E) (t : List E) (pos : ℕ) (value : E) : Option (Climb E) :=
  if _h0 : pos = 0 then none else
  if _h1 : pos = 1 then some (.place t pos) else
  match rd t (pos / 2) with
  | none => none
  | some u =>
    if c.lt u value then
      match wr t pos u with
      | none => none
      | some t' => climb c t' (pos / 2) value
    else if c.supportDedup && c.eq u value then some (.dup t pos)
    else some (.place t pos)
termination_by pos
decreasing_by omega

/-- The loop that moves the elements back (src/mathic/Heap.h:175-177):
`for (p = ..; p != pos; p = p.parent()) swap(tmp, _tree[p])`. -/
def moveBack (t : List E) (tmp : E) (p pos : ℕ) : Option (List E) :=
  if p = pos then some t else
  if _h0 : p = 0 then none else
  match rd t p with
  | none => none
  | some x =>
    match wr t p tmp with
    | none => none
    | some t' => moveBack t' x (p / 2) pos
termination_by p
decreasing_by omega

/-- `if (pos != origPos) { tmp = _tree[origPos]; for ... }` (src/mathic/Heap.h:173-178). -/
def restore (t : List E) (origPos pos : ℕ) : Option (List E) :=
  if pos ≠ origPos then
    match rd t origPos with
    | none => none
    | some tmp => moveBack t tmp (origPos / 2) pos
  else some t

/-- The deduplication branch (src/mathic/Heap.h:172-181): merge the value into the parent of `pos`,
move elements back, take the last leaf off. Returns the tree and the value of the last leaf. -/
def mergeUp (c : PQConf E) (t : List E) (origPos pos : ℕ) (value : E) : Option (List E × E) :=
  match rd t (pos / 2) with
  | none => none
  | some u =>
    match wr t (pos / 2) (c.dedup u value) with
    | none => none
    | some t₁ =>
      match restore t₁ origPos pos with
      | none => none
      | some t₂ =>
        match rd t₂ t₂.length with
        | none => none
        | some last => some (t₂.dropLast, last)

theorem moveBack_length {t t' : List E} {tmp : E} {p pos : ℕ}
    (h : moveBack t tmp p pos = some t') : t'.length = t.length := by
  fun_induction moveBack t tmp p pos with
  | case1 => cases h; rfl
  | case2 => cases h
  | case3 => cases h
  | case4 => cases h
  | case5 t tmp p hp h0 x hx t₁ hw ih => rw [ih h, wr_length hw]

theorem restore_length {t t' : List E} {o pos : ℕ}
    (h : restore t o pos = some t') : t'.length = t.length := by
  unfold restore at h
  split at h
  · split at h
    · cases h
    · exact moveBack_length h
  · cases h; rfl

theorem mergeUp_length {c : PQConf E} {t t' : List E} {o pos : ℕ} {value last : E}
    (h : mergeUp c t o pos value = some (t', last)) : t'.length + 1 = t.length := by
  unfold mergeUp at h
  split at h
  · cases h
  · split at h
    · cases h
    · rename_i t₁ hw
      split at h
      · cases h
      · rename_i t₂ hb
        split at h
        · cases h
        · rename_i last' hl
          cases h
          have hb1 := rd_bounds hl
          have : t₂.length = t₁.length := restore_length hb
          rw [List.length_dropLast, this]
          rw [this] at hb1
          have := wr_length hw
          omega

theorem climb_length {c : PQConf E} {t : List E} {pos : ℕ} {value : E} {r : Climb E}
    (h : climb c t pos value = some r) :
    (∀ t' p, r = .place t' p → t'.length = t.length) ∧
    (∀ t' p, r = .dup t' p → t'.length = t.length) := by
  fun_induction climb c t pos value with
  | case1 => cases h
  | case2 => cases h; simp
  | case3 => cases h
  | case4 => cases h
  | case5 t pos h0 h1 u hu hlt t' hw ih =>
    have := wr_length hw
    have ih := ih h
    constructor
    · intro t₁ p hr; rw [← this]; exact ih.1 t₁ p hr
    · intro t₁ p hr; rw [← this]; exact ih.2 t₁ p hr
  | case6 => cases h; simp
  | case7 => cases h; simp

/-- `Heap::moveValueUp` (src/mathic/Heap.h:161-192), `goto again` as recursion. -/
def moveValueUp (c : PQConf E) (t : List E) (origPos : ℕ) (value : E) : Option (List E) :=
  match hc : climb c t origPos value with
  | none => none
  | some (.place t' pos) => wr t' pos value
  | some (.dup t' pos) =>
    match hm : mergeUp c t' origPos pos value with
    | none => none
    | some (t₁, last) =>
      if origPos = t₁.length + 1 then some t₁
      else moveValueUp c t₁ origPos last
termination_by t.length
decreasing_by
  have h1 := mergeUp_length hm
  have h2 := (climb_length hc).2 _ _ rfl
  omega

theorem moveValueUp_eq (c : PQConf E) (t : List E) (o : ℕ) (v : E) :
    moveValueUp c t o v =
      match climb c t o v with
      | none => none
      | some (.place t' pos) => wr t' pos v
      | some (.dup t' pos) =>
        match mergeUp c t' o pos v with
        | none => none
        | some (t₁, last) =>
          if o = t₁.length + 1 then some t₁ else moveValueUp c t₁ o last := by
  rw [moveValueUp]
  split
  · rename_i h; rw [h]
  · rename_i h; rw [h]
  · rename_i h
    rw [h]
    simp only
    split
    · rename_i h2; rw [h2]
    · rename_i h2; rw [h2]

/-- `Heap::push` (src/mathic/Heap.h:97-102); `ComTree::pushBack` appends a cell. -/
def push (c : PQConf E) (t : List E) (e : E) : Option (List E) :=
  moveValueUp c (t ++ [e]) (t.length + 1) e

/-- `Heap::push(It, It)` (src/mathic/Heap.h:104-109). -/
def pushRange (c : PQConf E) (t : List E) : List E → Option (List E)
  | [] => some t
  | e :: es =>
    match push c t e with
    | none => none
    | some t' => pushRange c t' es

/-- `Heap::decreaseTop` (src/mathic/Heap.h:111-115). -/
def decreaseTop (c : PQConf E) (t : List E) (e : E) : Option (List E) :=
  match moveHoleDown c t 1 with
  | none => none
  | some (t', hole) => moveValueUp c t' hole e

/-- `Heap::pop` (src/mathic/Heap.h:124-133). -/
def pop (c : PQConf E) (t : List E) : Option (E × List E) :=
  match rd t 1, rd t t.length with
  | some top, some moved =>
    let t₁ := t.dropLast
    if t₁.isEmpty then some (top, t₁)
    else
      match moveHoleDown c t₁ 1 with
      | none => none
      | some (t₂, hole) =>
        match moveValueUp c t₂ hole moved with
        | none => none
        | some t₃ => some (top, t₃)
  | _, _ => none

/-- `Heap::top` (src/mathic/Heap.h:60). -/
def top (t : List E) : Option E := rd t 1

/-- `Heap::clear` (src/mathic/Heap.h:117-122). -/
def clear (_t : List E) : List E := []

/-- One call on the heap: the value returned and the new state. -/
def step (c : PQConf E) (t : List E) : PQOp E → Option (Option E × List E)
  | .push e => (push c t e).map (none, ·)
  | .pushRange l => (pushRange c t l).map (none, ·)
  | .top => (top t).map (fun x => (some x, t))
  | .pop => (pop c t).map (fun r => (some r.1, r.2))
  | .decreaseTop e => (decreaseTop c t e).map (none, ·)
  | .clear => some (none, clear t)

/-- The client's view. `forAll` (src/mathic/Heap.h:44-50) visits the cells in order; `empty` and
`size` are those of the tree (src/mathic/Heap.h:61-62, src/mathic/ComTree.h:45-46). -/
def impl (c : PQConf E) : PQImpl E where
  State := List E
  init := []
  step := step c
  entries := fun t => t
  top := top
  empty := fun t => t.length == 0
  size := fun t => t.length

end Verif.Heap
