import Verif.DivList

/-!
# `DivList::removeMultiples` with an entry of the list itself (src/mathic/DivList.h)

The monomial is taken by reference, `ExtMonoRef` keeps that reference and the mask of the monomial (src/mathic/DivMask.h:394-438,
src/mathic/DivList.h:431). If `Entry` is `Monomial` then the reference may be to an entry of the list, and what it refers
to may change or be destructed during the call. Here the argument is the position of that entry when the call begins.

The other calls with a monomial (`insert`, `removeElement`, `findDivisor`, `findDivisorIterator`, `findAllDivisors`,
`findAllMultiples`) read it for the last time before they change the list (`insert` copies it first,
src/mathic/DivList.h:401), so that for them an entry of the list is as good as a copy.
-/

namespace Verif.DivList

open Verif.DivMask (Ext Mask canDivide)

variable {T : Type}

/-- `monomial.divides(e, conf)` where the monomial has this mask and refers to position `i` of a vector, which is now `l`
(src/mathic/DivMask.h:405-423). A reference into a vector that is not reallocated stays valid. -/
def dividesRef (c : Conf T) (mask : Mask) (i : ℕ) (l : List (Ext T)) (e : Ext T) : Option Bool :=
  match l[i]? with
  | none => none
  | some a => some (divides c ⟨mask, a.t⟩ e)

/-- The second loop of `removeMultiples` on a vector (src/mathic/DivList.h:239-245), as `compactLoop`. -/
def compactLoopRef (c : Conf T) (mask : Mask) (i : ℕ) (l : List (Ext T)) (it newEnd : ℕ) (out : List T) :
    ℕ → Option (List (Ext T) × ℕ × List T)
  | 0 => some (l, newEnd, out)
  | n + 1 =>
    match l[it]? with
    | none => none
    | some e =>
      match dividesRef c mask i l e with
      | none => none
      | some b =>
        if !b then
          if newEnd < l.length then compactLoopRef c mask i (l.set newEnd e) (it + 1) (newEnd + 1) out n else none
        else compactLoopRef c mask i l (it + 1) newEnd (out ++ [e.t]) n

/-- `removeMultiples` on a vector (src/mathic/DivList.h:224-251). The first loop writes nothing, so that in it the monomial
is what it was before the call. -/
def removeMultiplesVectorRef (c : Conf T) (mask : Mask) (i : ℕ) (l : List (Ext T)) :
    Option (List (Ext T) × List T × ℕ) :=
  match l[i]? with
  | none => none
  | some a =>
    match l.findIdx? (fun e => divides c ⟨mask, a.t⟩ e) with
    | none => some (l, [], 0)
    | some it =>
      match l[it]? with
      | none => none
      | some e =>
        match compactLoopRef c mask i l (it + 1) it [e.t] (l.length - (it + 1)) with
        | none => none
        | some (l', newEnd, out) => some (l'.take newEnd, out, l.length - newEnd)

/-- `monomial.divides(e, conf)` where the monomial refers to the entry of a node, `none` if the node has been erased. The
mask is looked at first, and then the monomial is not read if the mask says no (src/mathic/DivMask.h:407-416). -/
def dividesNode (c : Conf T) (mask : Mask) (m : Option T) (e : Ext T) : Option Bool :=
  if c.useDivMask && !canDivide mask e.mask then some false
  else
    match m with
    | none => none
    | some t => some (c.dm.divides t e.t)

/-- `removeMultiples` on a linked list (src/mathic/DivList.h:253-275) from position `pos` on: nodes do not move, and the
entry referred to ends when its node is erased. -/
def removeMultiplesListRef (c : Conf T) (mask : Mask) (i : ℕ) (m : Option T) (pos : ℕ) :
    List (Ext T) → Option (List (Ext T) × List T × ℕ)
  | [] => some ([], [], 0)
  | e :: l =>
    match dividesNode c mask m e with
    | none => none
    | some true =>
      match removeMultiplesListRef c mask i (if pos = i then none else m) (pos + 1) l with
      | none => none
      | some r => some (r.1, e.t :: r.2.1, r.2.2 + 1)
    | some false =>
      match removeMultiplesListRef c mask i m (pos + 1) l with
      | none => none
      | some r => some (e :: r.1, r.2.1, r.2.2)

/-- `removeMultiples` (src/mathic/DivList.h:429-447) with a reference to the entry at position `i`. -/
def removeMultiplesRef (c : Conf T) (s : State T) (i : ℕ) : Option (List T × Bool × State T) :=
  match s.list[i]? with
  | none => none
  | some a =>
    match (if c.useLinkedList then removeMultiplesListRef c (ext c s a.t).mask i (some a.t) 0 s.list
        else removeMultiplesVectorRef c (ext c s a.t).mask i s.list) with
    | none => none
    | some (l, out, n) =>
      match reportChanges c { s with list := l } n with
      | none => none
      | some s' => some (out, decide (n > 0), s')

end Verif.DivList
