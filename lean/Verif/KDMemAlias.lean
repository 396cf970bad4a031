import Verif.KDMem

/-!
# `removeMultiples` of KD trees with an entry of the tree itself

The monomial is taken by reference and `ExtMonoRef` keeps that reference with the mask of the monomial
(src/mathic/KDTree.h:113, src/mathic/DivMask.h:394-438). If `Entry` is `Monomial` then it may refer to an entry of the tree.
Here it is a pointer to an entry, which is read again whenever the code reads the monomial.

The other calls with a monomial or an entry read it for the last time before they change the tree (`insert` copies it
first, src/mathic/KDTree.h:141).
-/

namespace Verif.KDMem

open Verif.DivMask (Ext Mask canDivide)
open Verif.KDTree (Conf Ret)

variable {T N : Type}

/-- `monomial.divides(e, conf)` with a monomial that can be read as `m`, `none` if it is not there any more. It is not read
if its mask says no (src/mathic/DivMask.h:405-423). -/
def dividesRef (c : Conf T) (mask : Mask) (m : Option T) (e : Ext T) : Option Bool :=
  if c.useDivMask && !canDivide mask e.mask then some false
  else
    match m with
    | none => none
    | some t => some (c.dm.divides t e.t)

/-- The first loop of `removeMultiples` (src/mathic/KDEntryArray.h:299-304): the position of the first multiple. -/
def scanRef (c : Conf T) (mask : Mask) (m : Option T) : List (Ext T) → Option (Option ℕ)
  | [] => some none
  | e :: l =>
    match dividesRef c mask m e with
    | none => none
    | some true => some (some 0)
    | some false => (scanRef c mask m l).map (·.map (· + 1))

/-- The second loop of `removeMultiples` (src/mathic/KDEntryArray.h:308-314); `arg` is the monomial, given the memory as it
is now. -/
def compactRef (c : Conf T) (mask : Mask) (arg : Slots T → Option T) (s : Slots T) (it newEnd : ℕ) (out : List T) :
    ℕ → Option (Slots T × ℕ × List T)
  | 0 => some (s, newEnd, out)
  | n + 1 => do
    let e ← read s it
    let b ← dividesRef c mask (arg s) e
    if !b then do
      let s ← assign s newEnd e
      compactRef c mask arg s (it + 1) (newEnd + 1) out n
    else compactRef c mask arg s (it + 1) newEnd (out ++ [e.t]) n

/-- `removeMultiples` of an array (src/mathic/KDEntryArray.h:284-325). -/
def RArr.removeMultiplesRef (c : Conf T) (mask : Mask) (arg : Slots T → Option T) (r : RArr T) :
    Option (RArr T × List T × ℕ) :=
  if c.leafSize = 1 then
    if r.len = 0 then some (r, [], 0) else do
      let e ← read r.slots 0
      let b ← dividesRef c mask (arg r.slots) e
      if !b then some (r, [], 0) else do
        let r ← r.popBack
        some (r, [e.t], 1)
  else do
    let l ← r.view
    let first ← scanRef c mask (arg r.slots) l
    match first with
    | none => some (r, [], 0)
    | some it => do
      let e ← read r.slots it
      let (s, newEnd, out) ← compactRef c mask arg r.slots (it + 1) it [e.t] (r.len - (it + 1))
      let r' ← RArr.popLoop { r with slots := s } newEnd
      some (r', out, r.len - newEnd)

/-- The monomial while the entries of node `a` are looked at: `p` points into them or elsewhere. -/
def argIn (I : Impl T N) (h : Heap N) (p : Ptr) (a : Addr) (s : Slots T) : Option T :=
  if p.1 = a then (read s p.2).map Ext.t else deref I ⟨h, none, []⟩ p

/-- `removeMultiples` on the entries of a node (src/mathic/BinaryKDTree.h:276, src/mathic/PackedKDTree.h:232). -/
def actRemoveRef (I : Impl T N) (c : Conf T) (mask : Mask) (p : Ptr) (a : Addr) (s : Heap N × List T × ℕ) :
    Option (Heap N × List T × ℕ) := do
  let r ← I.getArr s.1 a
  let (r, out, n) ← r.removeMultiplesRef c mask (argIn I s.1 p a)
  let h ← I.putArr s.1 a r
  some (h, s.2.1 ++ out, s.2.2 + n)

/-- The way down to the next entries (src/mathic/BinaryKDTree.h:268-274, src/mathic/PackedKDTree.h:227-232), which reads
exponents of the monomial but changes no entries; `bare` tells that there is nothing on the way to compare with. -/
def expandRef (I : Impl T N) (bare : Heap N → Addr → Bool) (c : Conf T) (mask : Mask) (p : Ptr) (h : Heap N) (node : Addr)
    (tmp : List Addr) : Option (Option Addr × List Addr) :=
  if bare h node then some (some node, tmp)
  else
    match deref I ⟨h, none, []⟩ p with
    | none => none
    | some t => I.expand c (.multiples ⟨mask, t⟩) h node tmp

/-- The loop (src/mathic/BinaryKDTree.h:267-281, src/mathic/PackedKDTree.h:225-239). -/
def loopRef (I : Impl T N) (bare : Heap N → Addr → Bool) (c : Conf T) (mask : Mask) (p : Ptr) (s : Heap N × List T × ℕ)
    (node : Addr) (tmp : List Addr) : Option (Heap N × List T × ℕ) := do
  let (look, tmp) ← expandRef I bare c mask p s.1 node tmp
  match look with
  | none =>
    match tmp with
    | [] => some s
    | a :: tmp => loopRef I bare c mask p s a tmp
  | some a => do
    let s ← actRemoveRef I c mask p a s
    match tmp with
    | [] => some s
    | a :: tmp => loopRef I bare c mask p s a tmp
partial_fixpoint

/-- `removeMultiples` (src/mathic/BinaryKDTree.h:259-285, src/mathic/PackedKDTree.h:213-243). -/
def removeMultiplesRef (I : Impl T N) (bare : Heap N → Addr → Bool) (c : Conf T) (t : MTree N) (mask : Mask) (p : Ptr) :
    Option (List T × ℕ × MTree N) :=
  match t.root with
  | none => some ([], 0, t)
  | some a => do
    let s ← loopRef I bare c mask p (t.heap, [], 0) a t.tmp
    some (s.2.1, s.2.2, ⟨s.1, t.root, []⟩)

/-- `removeMultiples` (src/mathic/KDTree.h:97-117) with a reference to the entry that `p` points to. -/
def removeRef (I : Impl T N) (bare : Heap N → Addr → Bool) (c : Conf T) (s : State N) (p : Ptr) : Res N (Ret T × State N) :=
  if !c.allowRemovals then .ok (.threw, s)
  else
    match deref I s.tree p with
    | none => .ub
    | some m =>
      match removeMultiplesRef I bare c s.tree (Ext.make c.dm s.bits m).mask p with
      | none => .ub
      | some (out, n, t) => (reportChanges I c { s with tree := t } 0 n).with (.removed out (decide (n > 0)))

/-- A leaf has nothing to compare with (src/mathic/BinaryKDTree.h:268). -/
def Binary.bare (h : Heap (BNode T)) (a : Addr) : Bool :=
  match get h a with
  | some (.leaf _) => true
  | _ => false

/-- Nor has a node without children (src/mathic/PackedKDTree.h:227). -/
def Packed.bare (h : Heap (PNode T)) (a : Addr) : Bool :=
  match get h a with
  | some n => n.count == 0
  | none => false

end Verif.KDMem
