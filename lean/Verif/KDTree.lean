import Verif.KDEntryArray

/-!
# Model of `mathic::BinaryKDTree`, `mathic::PackedKDTree` and `mathic::KDTree`

Both kinds of trees are modelled with one type. A pointer to a node is the path that leads to it from
the root; nodes never move relative to each other except in a split, after which only new searches
follow pointers. The vector `_tmp` for navigation is a member in the code and in the model, since an
exception that an output object throws leaves it filled. The loops that only build (`reset`) and the
walk of `insert` are recursions here. Destructors of entries and the memory arena are left out.

`KDTree::insert(begin, end)`, `KDTree::clear` and, for binary trees, `removeElement` do not compile when
instantiated (src/mathic/KDTree.h:153-167, 237-241, src/mathic/BinaryKDTree.h:287-299) and are not part of
the model.
-/

namespace Verif.KDTree

open Verif.DivMask (Ext Bits Mask combineAnd canDivide maxMask)

variable {T : Type}

/-- A node. In a binary tree (src/mathic/BinaryKDTree.h:81-145, 148-182): `entries` is a leaf and `split` an
interior node with its mask, variable, exponent, equal-or-less child and strictly-greater child. In a
packed tree (src/mathic/PackedKDTree.h:63-109): a node is the list of its children followed by its entries;
`split` is a child (mask, variable, exponent, node `gt`) followed by the rest `le` of the list. -/
inductive Node (T : Type) where
  | entries (a : Arr T)
  | split (mask : Mask) (var : ℕ) (exp : ℤ) (le gt : Node T)

/-- The number of nodes. -/
def Node.size : Node T → ℕ
  | .entries _ => 1
  | .split _ _ _ le gt => le.size + gt.size + 1

/-- A pointer to a node: `true` goes to `gt`, `false` to `le`. -/
abbrev Path := List Bool

/-- Dereference a pointer to a node. -/
def Node.sub : Node T → Path → Option (Node T)
  | n, [] => some n
  | .entries _, _ :: _ => none
  | .split _ _ _ le gt, b :: p => if b then gt.sub p else le.sub p

/-- The array at a path. -/
def Node.arrAt (n : Node T) (p : Path) : Option (Arr T) :=
  match n.sub p with
  | some (.entries a) => some a
  | _ => none

/-- Write the array at a path. -/
def Node.setArr : Node T → Path → Arr T → Node T
  | .entries _, [], a => .entries a
  | .split m v e le gt, b :: p, a => if b then .split m v e le (gt.setArr p a) else .split m v e (le.setArr p a) gt
  | n, _, _ => n

/-- `_conf.getExponent(monomial, var)` compared to the exponent of a split: `getExponent() < ...` and
`inChild` (src/mathic/BinaryKDTree.h:126, 269-270, 441-442, src/mathic/PackedKDTree.h:75-78). -/
def inChild (c : Conf T) (var : ℕ) (exp : ℤ) (m : T) : Bool := decide (exp < c.dm.getExponent m var)

/-! ## Navigation -/

/-- What one round of a search does before it looks at entries: pointers pushed on `_tmp` before
(`pre`, top first), the entries to look at if any, and pointers pushed afterwards. -/
structure Expansion (T : Type) where
  pre : List (Path × Node T)
  leaf : Option Path
  post : List (Path × Node T)

/-- Search for divisors: src/mathic/BinaryKDTree.h:433-444, 473-482 (the inner loop) and
src/mathic/PackedKDTree.h:404-411, 447-454 (the loop over children). -/
def expandDivisors (c : Conf T) (m : Ext T) (p : Path) (acc : List (Path × Node T)) : Node T → Expansion T
  | .entries _ => ⟨acc, some p, []⟩
  | .split mask var exp le gt =>
    if c.useTreeDivMask && !canDivide mask m.mask then ⟨acc, none, []⟩
    else expandDivisors c m (p ++ [false]) (if inChild c var exp m.t then (p ++ [true], gt) :: acc else acc) le

/-- Search for multiples in a binary tree: src/mathic/BinaryKDTree.h:267-273, 507-513. -/
def expandMultiplesB (c : Conf T) (m : Ext T) (p : Path) (acc : List (Path × Node T)) : Node T → Expansion T
  | .entries _ => ⟨acc, some p, []⟩
  | .split _ var exp le gt =>
    expandMultiplesB c m (p ++ [true]) (if !inChild c var exp m.t then (p ++ [false], le) :: acc else acc) gt

/-- Search for multiples in a packed tree: src/mathic/PackedKDTree.h:226-231, 479-484. -/
def expandMultiplesP (c : Conf T) (m : Ext T) (p : Path) (acc : List (Path × Node T)) : Node T → Expansion T
  | .entries _ => ⟨acc, some p, []⟩
  | .split _ var exp le gt =>
    if inChild c var exp m.t then ⟨(p ++ [true], gt) :: acc, none, []⟩
    else expandMultiplesP c m (p ++ [false]) ((p ++ [true], gt) :: acc) le

/-- The walk through all entries of a binary tree (src/mathic/BinaryKDTree.h:538-542); the same pointers are
pushed in a packed tree, but after the entries of the node have been looked at
(src/mathic/PackedKDTree.h:504-511). -/
def expandAll (p : Path) (acc : List (Path × Node T)) : Node T → Path × List (Path × Node T)
  | .entries _ => (p, acc)
  | .split _ _ _ le gt => expandAll (p ++ [false]) ((p ++ [true], gt) :: acc) le

/-- The kinds of searches. -/
inductive Kind (T : Type) where
  | divisors (m : Ext T)
  | multiples (m : Ext T)
  | all

/-- One round of a search of either kind of tree. -/
def expand (c : Conf T) (p : Path) (n : Node T) : Kind T → Expansion T
  | .divisors m => expandDivisors c m p [] n
  | .multiples m => if c.packed then expandMultiplesP c m p [] n else expandMultiplesB c m p [] n
  | .all =>
    let r := expandAll p [] n
    if c.packed then ⟨[], some r.1, r.2⟩ else ⟨r.2, some r.1, []⟩

/-- The number of nodes below the pointers of a list. -/
def sizes (l : List (Path × Node T)) : ℕ := (l.map (fun x => x.2.size)).sum

theorem expandDivisors_sizes (c : Conf T) (m : Ext T) (n : Node T) : ∀ p acc,
    sizes (expandDivisors c m p acc n).pre + sizes (expandDivisors c m p acc n).post < sizes acc + n.size := by
  induction n with
  | entries a => intro p acc; simp [expandDivisors, sizes, Node.size]
  | split mask var exp le gt ih1 _ =>
    intro p acc
    rw [expandDivisors]
    split
    · simp [sizes, Node.size]
    · refine lt_of_lt_of_le (ih1 _ _) ?_
      split <;> simp [sizes, Node.size] <;> omega

theorem expandMultiplesB_sizes (c : Conf T) (m : Ext T) (n : Node T) : ∀ p acc,
    sizes (expandMultiplesB c m p acc n).pre + sizes (expandMultiplesB c m p acc n).post < sizes acc + n.size := by
  induction n with
  | entries a => intro p acc; simp [expandMultiplesB, sizes, Node.size]
  | split mask var exp le gt _ ih2 =>
    intro p acc
    rw [expandMultiplesB]
    refine lt_of_lt_of_le (ih2 _ _) ?_
    split <;> simp [sizes, Node.size] <;> omega

theorem expandMultiplesP_sizes (c : Conf T) (m : Ext T) (n : Node T) : ∀ p acc,
    sizes (expandMultiplesP c m p acc n).pre + sizes (expandMultiplesP c m p acc n).post < sizes acc + n.size := by
  induction n with
  | entries a => intro p acc; simp [expandMultiplesP, sizes, Node.size]
  | split mask var exp le gt ih1 _ =>
    intro p acc
    rw [expandMultiplesP]
    split
    · simp [sizes, Node.size]; omega
    · refine lt_of_lt_of_le (ih1 _ _) ?_
      simp [sizes, Node.size]; omega

theorem expandAll_sizes (n : Node T) : ∀ p acc, sizes (expandAll p acc n).2 < sizes acc + n.size := by
  induction n with
  | entries a => intro p acc; simp [expandAll, sizes, Node.size]
  | split mask var exp le gt ih1 _ =>
    intro p acc
    rw [expandAll]
    refine lt_of_lt_of_le (ih1 _ _) ?_
    simp [sizes, Node.size]; omega

theorem expand_sizes (c : Conf T) (k : Kind T) (p : Path) (n : Node T) :
    sizes (expand c p n k).pre + sizes (expand c p n k).post < n.size := by
  have h0 : sizes ([] : List (Path × Node T)) = 0 := rfl
  cases k with
  | divisors m => simpa [h0, expand] using expandDivisors_sizes c m n p []
  | multiples m =>
    rw [expand]
    split
    · simpa [h0] using expandMultiplesP_sizes c m n p []
    · simpa [h0] using expandMultiplesB_sizes c m n p []
  | all =>
    have := expandAll_sizes n p []
    rw [expand]
    split <;> simpa [h0] using this

theorem sizes_append (l₁ l₂ : List (Path × Node T)) : sizes (l₁ ++ l₂) = sizes l₁ + sizes l₂ := by
  simp [sizes]

/-- The loop of all searches: expand a node, act on the entries if there are any, take the next pointer
from `_tmp` (src/mathic/BinaryKDTree.h:266-281, 432-461, 472-496, 506-528, 537-555,
src/mathic/PackedKDTree.h:225-239, 402-431, 445-464, 477-494, 503-517). `act` changes the state and says
whether to go on; on `stop` the code clears `_tmp`, an exception leaves it as it is. The result has the
pointers left in `_tmp`. -/
def loop {σ : Type} (c : Conf T) (k : Kind T) (act : Path → σ → Option (σ × Flow)) (s : σ)
    (cur : Path × Node T) (stack : List (Path × Node T)) : Option (σ × Flow × List Path) :=
  match (expand c cur.1 cur.2 k).leaf with
  | none =>
    match _hm : (expand c cur.1 cur.2 k).pre ++ stack with
    | [] => some (s, .go, [])
    | next :: rest => loop c k act s next rest
  | some p =>
    match act p s with
    | none => none
    | some (s', .stop) => some (s', .stop, [])
    | some (s', .threw) => some (s', .threw, ((expand c cur.1 cur.2 k).pre ++ stack).map Prod.fst)
    | some (s', .go) =>
      match _hm : (expand c cur.1 cur.2 k).post ++ ((expand c cur.1 cur.2 k).pre ++ stack) with
      | [] => some (s', .go, [])
      | next :: rest => loop c k act s' next rest
termination_by sizes (cur :: stack)
decreasing_by
  · have h1 := congrArg sizes _hm
    have h2 := expand_sizes c k cur.1 cur.2
    rw [sizes_append] at h1
    rw [← h1]
    simp only [sizes, List.map_cons, List.sum_cons] at *
    omega
  · have h1 := congrArg sizes _hm
    have h2 := expand_sizes c k cur.1 cur.2
    rw [sizes_append, sizes_append] at h1
    rw [← h1]
    simp only [sizes, List.map_cons, List.sum_cons] at *
    omega

/-- A search that starts at the root, with whatever is in `_tmp`. -/
def search {σ : Type} (c : Conf T) (k : Kind T) (act : Path → σ → Option (σ × Flow)) (s : σ)
    (root : Node T) (tmp : List Path) : Option (σ × Flow × List Path) :=
  match tmp.mapM (fun p => (root.sub p).map (p, ·)) with
  | none => none
  | some stack => loop c k act s ([], root) stack

/-! ## The trees -/

/-- The members of `BinaryKDTree` (src/mathic/BinaryKDTree.h:238-241) and `PackedKDTree`
(src/mathic/PackedKDTree.h:166-169). -/
structure Tree (T : Type) where
  root : Option (Node T)
  tmp : List Path

/-- A pointer to an entry: its array and its position there. -/
abbrev Ptr := Path × ℕ

/-- Dereference a pointer to an entry. -/
def Tree.deref (t : Tree T) (p : Ptr) : Option T :=
  match t.root with
  | none => none
  | some n =>
    match n.arrAt p.1 with
    | none => none
    | some a => (a.es[p.2]?).map Ext.t

/-- What `findDivisor` does with the entries of a node (src/mathic/BinaryKDTree.h:447-455,
src/mathic/PackedKDTree.h:414-422). -/
def actDivisor (c : Conf T) (m : Ext T) (root : Node T) (p : Path) (_ : Option Ptr) : Option (Option Ptr × Flow) :=
  match root.arrAt p with
  | none => none
  | some a =>
    match a.findDivisor c m with
    | none => none
    | some none => some (none, .go)
    | some (some i) => some (some (p, i), .stop)

/-- `findDivisor` (src/mathic/BinaryKDTree.h:423-463, src/mathic/PackedKDTree.h:396-434). -/
def Tree.findDivisor (c : Conf T) (t : Tree T) (m : Ext T) : Option (Option Ptr × Tree T) :=
  match t.root with
  | none => some (none, t)
  | some n =>
    match search c (.divisors m) (actDivisor c m n) none n t.tmp with
    | none => none
    | some (r, _, tmp) => some (r, { t with tmp := tmp })

/-- What the enumerations do with the entries of a node. -/
def actVisit (f : List T → Arr T → Option (List T × Flow)) (root : Node T) (p : Path) (got : List T) :
    Option (List T × Flow) :=
  match root.arrAt p with
  | none => none
  | some a => f got a

/-- An enumeration: what the output has received, whether it has thrown, and the tree. -/
def Tree.enumerate (c : Conf T) (t : Tree T) (k : Kind T) (f : List T → Arr T → Option (List T × Flow)) :
    Option (List T × Flow × Tree T) :=
  match t.root with
  | none => some ([], .go, t)
  | some n =>
    match search c k (actVisit f n) [] n t.tmp with
    | none => none
    | some (got, flow, tmp) => some (got, flow, { t with tmp := tmp })

/-- `findAllDivisors` (src/mathic/BinaryKDTree.h:465-498, src/mathic/PackedKDTree.h:436-466). -/
def Tree.findAllDivisors (c : Conf T) (t : Tree T) (m : Ext T) (proceed : List T → Flow) :
    Option (List T × Flow × Tree T) := t.enumerate c (.divisors m) (fun got a => a.findAllDivisors c m proceed got)

/-- `findAllMultiples` (src/mathic/BinaryKDTree.h:500-530, src/mathic/PackedKDTree.h:468-496). -/
def Tree.findAllMultiples (c : Conf T) (t : Tree T) (m : Ext T) (proceed : List T → Flow) :
    Option (List T × Flow × Tree T) := t.enumerate c (.multiples m) (fun got a => a.findAllMultiples c m proceed got)

/-- `forAll` (src/mathic/BinaryKDTree.h:532-557, src/mathic/PackedKDTree.h:498-519). -/
def Tree.forAll (c : Conf T) (t : Tree T) (proceed : List T → Flow) : Option (List T × Flow × Tree T) :=
  t.enumerate c .all (fun got a => a.forAll c proceed got)

/-- What `removeMultiples` does with the entries of a node (src/mathic/BinaryKDTree.h:275,
src/mathic/PackedKDTree.h:232). The state is the tree, what was put out and the count. -/
def actRemove (c : Conf T) (m : Ext T) (p : Path) (s : Node T × List T × ℕ) :
    Option ((Node T × List T × ℕ) × Flow) :=
  match s.1.arrAt p with
  | none => none
  | some a =>
    match a.removeMultiples c m with
    | none => none
    | some (a', out, n) => some ((s.1.setArr p a', s.2.1 ++ out, s.2.2 + n), .go)

/-- `removeMultiples` (src/mathic/BinaryKDTree.h:257-285, src/mathic/PackedKDTree.h:213-243). The shape of the
tree does not change, so that the pointers on the way stay right. -/
def Tree.removeMultiples (c : Conf T) (t : Tree T) (m : Ext T) : Option (List T × ℕ × Tree T) :=
  match t.root with
  | none => some ([], 0, t)
  | some n =>
    match search c (.multiples m) (actRemove c m) (n, [], 0) n t.tmp with
    | none => none
    | some ((n', out, k), _, tmp) => some (out, k, ⟨some n', tmp⟩)

/-- The walk of `PackedKDTree::removeElement` and what it does with the entries that it ends at
(src/mathic/PackedKDTree.h:252-260). -/
def removeElementNode (c : Conf T) (m : T) : Node T → Option (Bool × Node T)
  | .entries a => (a.removeElement c m).map (fun r => (r.1, .entries r.2))
  | .split mask var exp le gt =>
    if inChild c var exp m then (removeElementNode c m gt).map (fun r => (r.1, .split mask var exp le r.2))
    else (removeElementNode c m le).map (fun r => (r.1, .split mask var exp r.2 gt))

/-- `PackedKDTree::removeElement` (src/mathic/PackedKDTree.h:245-263). -/
def Tree.removeElement (c : Conf T) (t : Tree T) (m : T) : Option (Bool × Tree T) :=
  match t.root with
  | none => some (false, t)
  | some n => (removeElementNode c m n).map (fun r => (r.1, { t with root := some r.2 }))

/-- `BinaryKDTree::Leaf::splitInsert` from the split on (src/mathic/BinaryKDTree.h:749-777): the new interior node. -/
def splitInsertB (c : Conf T) (x : Ext T) (r : Split (Ext T)) : Option (Node T) :=
  match Arr.ofRange c r.gt with
  | none => none
  | some other =>
    -- the mask of the left part is the one recalculated, or absent
    let this := Arr.recalculate c ⟨sortEntries c r.le, maxMask⟩
    let mask := lower c (lower c (lower c maxMask this.mask) other.mask) x.mask
    if inChild c r.var r.exp x.t then (other.insert c x).map (fun o => .split mask r.var r.exp (.entries this) (.entries o))
    else (this.insert c x).map (fun t => .split mask r.var r.exp (.entries t) (.entries other))

/-- `PackedKDTree::Node::splitInsert` from the split on (src/mathic/PackedKDTree.h:701-734): `a` is the array
before the split. The new node `copied` has the smaller entries and `this` as its last child. -/
def splitInsertP (c : Conf T) (x : Ext T) (a : Arr T) (r : Split (Ext T)) : Option (Node T) :=
  match Arr.ofRange c r.le with
  | none => none
  | some copied =>
    let mask := lower c (lower c maxMask a.mask) x.mask
    -- `std::copy(middle, end, begin)` copies onto itself if `middle` is `begin`
    if c.selfCopyUndefined && r.le.isEmpty then none
    else
      let this := Arr.recalculate c ⟨sortEntries c r.gt, maxMask⟩
      if inChild c r.var r.exp x.t then (this.insert c x).map (fun t => .split mask r.var r.exp (.entries copied) (.entries t))
      else (copied.insert c x).map (fun o => .split mask r.var r.exp (.entries o) (.entries this))

/-- The walk of `insert` down the tree and the insertion (src/mathic/BinaryKDTree.h:306-326, 743-744 and
src/mathic/PackedKDTree.h:271-294, 680-686). `hint` is the variable of the node above: for a packed tree of the
last child if there is one and else of the child that leads to the node. The flag tells that `split`
has thrown. -/
def insertNode (c : Conf T) (x : Ext T) (hint : Option ℕ) : Node T → Option (Bool × Node T)
  | .entries a =>
    if a.es.length = c.leafSize then
      match split c Ext.t a.es (some x) hint with
      | none => none
      | some none => some (true, .entries a)
      | some (some r) => (if c.packed then splitInsertP c x a r else splitInsertB c x r).map (false, ·)
    else (a.insert c x).map (fun a' => (false, .entries a'))
  | .split mask var exp le gt =>
    if inChild c var exp x.t then
      (insertNode c x (some var) gt).map (fun r => (r.1, .split (lower c mask x.mask) var exp le r.2))
    else (insertNode c x (some var) le).map (fun r => (r.1, .split (lower c mask x.mask) var exp r.2 gt))

/-- `insert` (src/mathic/BinaryKDTree.h:301-327, src/mathic/PackedKDTree.h:265-296). -/
def Tree.insert (c : Conf T) (t : Tree T) (x : Ext T) : Option (Bool × Tree T) :=
  (insertNode c x none (t.root.getD (.entries Arr.empty))).map (fun r => (r.1, { t with root := some r.2 }))

/-- The mask that a parent takes over from a node: of the interior node or of the entries in a binary
tree (src/mathic/BinaryKDTree.h:134-142), of the first child or of the entries in a packed tree
(src/mathic/PackedKDTree.h:378-386). -/
def Node.mask : Node T → Mask
  | .entries a => a.mask
  | .split mask _ _ _ _ => mask

/-- The construction in `reset` (src/mathic/BinaryKDTree.h:342-396, src/mathic/PackedKDTree.h:317-355) and the
masks computed at its end (src/mathic/BinaryKDTree.h:398-419, src/mathic/PackedKDTree.h:358-392), for the range
`l` and the variable of the split that led to it. A split that leaves one side empty would make the
code go on forever; that is `none` as well. The inner `none` is the exception of `split`. -/
def build (c : Conf T) (bits : Bits) (l : List T) (hint : Option ℕ) : Option (Option (Node T)) :=
  if l.length ≤ c.leafSize then
    (Arr.ofRange c (l.map (Ext.make c.dm bits))).map (fun a => some (.entries a))
  else
    match split c id l none hint with
    | none => none
    | some none => some none
    | some (some r) =>
      if _h : r.le.length < l.length ∧ r.gt.length < l.length then
        match build c bits r.le (some r.var), build c bits r.gt (some r.var) with
        | some (some le), some (some gt) =>
          some (some (.split (lower c (lower c maxMask le.mask) gt.mask) r.var r.exp le gt))
        | none, _ => none
        | _, none => none
        | _, _ => some none
      else none
termination_by l.length

/-- `reset` (src/mathic/BinaryKDTree.h:329-421, src/mathic/PackedKDTree.h:298-394), which starts with `clear`
(src/mathic/BinaryKDTree.h:559-577, src/mathic/PackedKDTree.h:521-537). -/
def Tree.reset (c : Conf T) (bits : Bits) (l : List T) : Option (Option (Tree T)) :=
  if l = [] then some (some ⟨none, []⟩)
  else
    match build c bits l none with
    | none => none
    | some none => some none
    | some (some n) => some (some ⟨some n, []⟩)

/-! ## `KDTree` -/

/-- The members of `KDTree` (src/mathic/KDTree.h:296-303). -/
structure State (T : Type) where
  tree : Tree T
  bits : Bits
  changes : ℕ
  cache : Option Ptr
  size : ℕ

/-- The result of a call: the value and the new state; an exception that leaves a half built tree
(`broken`); undefined. -/
inductive Res (α : Type) where
  | ok (a : α)
  | broken
  | ub

/-- `resetNumberOfChangesTillRebuild` (src/mathic/KDTree.h:328-339). -/
def resetChanges (c : Conf T) (s : State T) : State T :=
  let s := if c.useDivisorCache then { s with cache := none } else s
  if !c.doAutomaticRebuilds then s
  else { s with changes := max (c.rebuildSize s.size) c.rebuildMin }

/-- The calculator's constructor; `Calculator<C,false>` has no data (src/mathic/DivMask.h:174, 344-352). -/
def calcInit (c : Conf T) : Option Bits := if c.useDivMask then DivMask.rebuildDefault c.dm else some []

/-- `rebuild` of the calculator; `Calculator<C,false>` does nothing. -/
def calcRebuild (c : Conf T) (l : List T) : Option Bits :=
  if c.useDivMask then DivMask.rebuild c.dm c.sortVars l else some []

/-- The constructor (src/mathic/KDTree.h:62-69). Members that are not initialized are 0 or null here. -/
def init (c : Conf T) : Option (State T) :=
  match calcInit c with
  | none => none
  | some bits => some (resetChanges c ⟨⟨none, []⟩, bits, 0, none, 0⟩)

/-- `ExtEntry(entry, calc, conf)` and `ExtMonoRef(monomial, calc, conf)`. -/
def ext (c : Conf T) (s : State T) (t : T) : Ext T := Ext.make c.dm s.bits t

/-- `rebuild` (src/mathic/KDTree.h:244-251). The recorder always says go on. -/
def rebuild (c : Conf T) (s : State T) : Res (State T) :=
  match s.tree.forAll c (fun _ => .go) with
  | none => .ub
  | some (l, _, _) =>
    match calcRebuild c l with
    | none => .ub
    | some bits =>
      match Tree.reset c bits l with
      | none => .ub
      | some none => .broken
      | some (some t) => .ok (resetChanges c { s with tree := t, bits := bits })

/-- `reportChanges` with `reportChangesRebuild` (src/mathic/KDTree.h:341-363). The size never gets negative. -/
def reportChanges (c : Conf T) (s : State T) (additions removals : ℕ) : Res (State T) :=
  let s := if c.useDivisorCache && (additions + removals != 0) then { s with cache := none } else s
  let s := { s with size := s.size + additions - removals }
  if !c.doAutomaticRebuilds then .ok s
  else if s.changes > additions + removals then .ok { s with changes := s.changes - (additions + removals) }
  else rebuild c s

/-- The calls. -/
inductive Op (T : Type) where
  | insert (e : T)
  | removeMultiples (m : T)
  | removeElement (m : T)
  | findDivisor (m : T)
  | findAllDivisors (m : T) (proceed : List T → Flow)
  | findAllMultiples (m : T) (proceed : List T → Flow)
  | forAll (proceed : List T → Flow)
  | rebuild
  | size

/-- What a call gives back: values returned and what was put out, or an exception. `got l true` is an
exception thrown by the output object. -/
inductive Ret (T : Type) where
  | unit
  | threw
  | removed (out : List T) (b : Bool)
  | flag (b : Bool)
  | entry (e : Option T)
  | got (l : List T) (threw : Bool)
  | num (n : ℕ)
  deriving DecidableEq

/-- Attach a value to a state. -/
def Res.with {α β : Type} (r : Res α) (b : β) : Res (β × α) :=
  match r with
  | .ok a => .ok (b, a)
  | .broken => .broken
  | .ub => .ub

/-- `insert` (src/mathic/KDTree.h:140-144). -/
def insert (c : Conf T) (s : State T) (e : T) : Res (Ret T × State T) :=
  match s.tree.insert c (ext c s e) with
  | none => .ub
  | some (true, t) => .ok (.threw, { s with tree := t })
  | some (false, t) => (reportChanges c { s with tree := t } 1 0).with .unit

/-- `removeMultiples` (src/mathic/KDTree.h:97-117). -/
def removeMultiples (c : Conf T) (s : State T) (m : T) : Res (Ret T × State T) :=
  if !c.allowRemovals then .ok (.threw, s)
  else
    match s.tree.removeMultiples c (ext c s m) with
    | none => .ub
    | some (out, n, t) => (reportChanges c { s with tree := t } 0 n).with (.removed out (decide (n > 0)))

/-- `removeElement` (src/mathic/KDTree.h:171-176). For binary trees it does not compile, `ub` here. -/
def removeElement (c : Conf T) (s : State T) (m : T) : Res (Ret T × State T) :=
  if !c.packed then .ub
  else if !c.allowRemovals then .ok (.threw, s)
  else
    match s.tree.removeElement c m with
    | none => .ub
    | some (b, t) => .ok (.flag b, { s with tree := t })

/-- The part of `findDivisor` after the cache (src/mathic/KDTree.h:188-192). -/
def findDivisorTree (c : Conf T) (s : State T) (m : T) : Res (Ret T × State T) :=
  match s.tree.findDivisor c (ext c s m) with
  | none => .ub
  | some (none, t) => .ok (.entry none, { s with tree := t })
  | some (some p, t) =>
    match t.deref p with
    | none => .ub
    | some e => .ok (.entry (some e), { s with tree := t, cache := if c.useDivisorCache then some p else s.cache })

/-- `findDivisor` (src/mathic/KDTree.h:180-193). The value is the entry that the pointer returned points to. -/
def findDivisor (c : Conf T) (s : State T) (m : T) : Res (Ret T × State T) :=
  match c.useDivisorCache, s.cache with
  | true, some p =>
    match s.tree.deref p with
    | none => .ub
    | some e => if c.dm.divides e m then .ok (.entry (some e), s) else findDivisorTree c s m
  | _, _ => findDivisorTree c s m

/-- The result of an enumeration as the result of a call. -/
def gotRes (s : State T) : Option (List T × Flow × Tree T) → Res (Ret T × State T)
  | none => .ub
  | some (l, flow, t) => .ok (.got l (decide (flow = .threw)), { s with tree := t })

/-- One call. -/
def step (c : Conf T) (s : State T) : Op T → Res (Ret T × State T)
  | .insert e => insert c s e
  | .removeMultiples m => removeMultiples c s m
  | .removeElement m => removeElement c s m
  | .findDivisor m => findDivisor c s m
  | .findAllDivisors m p => gotRes s (s.tree.findAllDivisors c (ext c s m) p)
  | .findAllMultiples m p => gotRes s (s.tree.findAllMultiples c (ext c s m) p)
  | .forAll p => gotRes s (s.tree.forAll c p)
  | .rebuild => (rebuild c s).with .unit
  | .size => .ok (.num s.size, s)

/-- A history of calls. -/
def run (c : Conf T) (s : State T) : List (Op T) → Res (List (Ret T) × State T)
  | [] => .ok ([], s)
  | op :: ops =>
    match step c s op with
    | .ub => .ub
    | .broken => .broken
    | .ok (r, s') =>
      match run c s' ops with
      | .ub => .ub
      | .broken => .broken
      | .ok (rs, s'') => .ok (r :: rs, s'')

end Verif.KDTree
