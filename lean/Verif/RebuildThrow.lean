import Verif.DivList

/-!
# Model of rebuilds of a `DivList` that are left by an exception

`getExponent` of the configuration may throw (or an allocation). The functions here give the state that an exception at a
given place leaves, and `none` if the call does not get to that place or if it is undefined. The exception leaves the call,
the client catches it. Simplification: copying entries does not throw.
-/

namespace Verif.DivList

open Verif.DivMask (Bits Ext)

variable {T : Type}

/-- Where an exception comes from: from the loop that collects data about the variables (src/mathic/DivMask.h:220-241), from
the loop that makes the tests, at a variable (src/mathic/DivMask.h:255-309), or from the calculation of the mask of an entry,
given by its position (src/mathic/DivList.h:422-423, 583-584). -/
inductive RebuildFault where
  | collect
  | tests (var : ℕ)
  | masks (k : ℕ)

/-- The tests left by an exception in `Calculator<C,true>::rebuild` (src/mathic/DivMask.h:204-310). The old ones are gone by
then (line 214). With no entries no exponent is read. A variable without bits is skipped (lines 257-258). -/
def calcThrew (c : Conf T) (entries : List T) : RebuildFault → Option Bits
  | .collect => if entries.isEmpty || c.dm.varCount == 0 then none else some []
  | .tests var =>
    match entries with
    | [] => none
    | first :: _ =>
      match (List.range c.dm.varCount).mapM (DivMask.varData c.dm first entries) with
      | none => none
      | some datas =>
        match DivMask.distribute c.dm.varCount (c.sortVars datas) 0 (List.replicate c.dm.varCount 0) with
        | none => none
        | some bs => if bs.getD var 0 = 0 then none else DivMask.allBits c.dm first entries (bs.take var) 0
  | .masks _ => none

/-- `rebuild` of `DivList` (src/mathic/DivList.h:574-586). Without masks, and without tests, no exponent is read. -/
def rebuildThrew (c : Conf T) (s : State T) : RebuildFault → Option (State T)
  | .masks k =>
    if !c.useDivMask then none
    else
      match DivMask.rebuild c.dm c.sortVars s.contents with
      | none => none
      | some bits =>
        if k < s.list.length && !bits.isEmpty then
          some { s with bits := bits, list := (s.list.take k).map (fun x => Ext.make c.dm bits x.t) ++ s.list.drop k }
        else none
  | f => if !c.useDivMask then none else (calcThrew c s.contents f).map (fun bits => { s with bits := bits })

/-- `insert` of one entry (src/mathic/DivList.h:399-408) when the automatic rebuild (lines 598-608) throws. -/
def insertThrew (c : Conf T) (s : State T) (e : T) (f : RebuildFault) : Option (State T) :=
  match (if !c.sortOnInsert then some (s.list ++ [ext c s e]) else insertSort c (ext c s e) s.list) with
  | none => none
  | some l => if !c.doAutomaticRebuilds || decide (s.changes > 1) then none else rebuildThrew c { s with list := l } f

/-- `insert` of a range into an empty list (src/mathic/DivList.h:417-426). -/
def insertRangeThrew (c : Conf T) (s : State T) (es : List T) : RebuildFault → Option (State T)
  | .masks k =>
    if !c.useDivMask || !s.list.isEmpty then none
    else
      match DivMask.rebuild c.dm c.sortVars es with
      | none => none
      | some bits =>
        if k < es.length && !bits.isEmpty then
          some { s with bits := bits, list := s.list ++ (es.take k).map (Ext.make c.dm bits) }
        else none
  | f =>
    if !c.useDivMask || !s.list.isEmpty then none else (calcThrew c es f).map (fun bits => { s with bits := bits })

end Verif.DivList
