import Verif.DivList
import Verif.KDTree

/-!
# Model of the insertion with minimization of the divisor simulation

`DivListModel` (src/divsim/DivListModel.h) and `KDTreeModel` (src/divsim/KDTreeModel.h) over the models of
`DivList` and `KDTree`. The two overloads of `insert` differ only in whether what is removed is put out;
here it always is. A constructor with `ASSERT` only (release build) does nothing else than to build the finder.
-/

namespace Verif.Minimize

variable {T : Type}

/-! ## `DivListModel` -/

/-- The members of `DivListModel` besides the finder (src/divsim/DivListModel.h:151-152) and the configuration
of the finder. -/
structure ListConf (T : Type) where
  finder : DivList.Conf T
  minimizeOnInsert : Bool
  moveDivisorToFront : Bool

/-- `DivListModel::findDivisor` (src/divsim/DivListModel.h:108-115), the inner `none` is the null pointer. -/
def ListConf.findDivisor (c : ListConf T) (s : DivList.State T) (m : T) : Option (Option T × DivList.State T) :=
  match DivList.findDivisorIterator c.finder s m with
  | none => none
  | some it =>
    match (if c.moveDivisorToFront && it != s.list.length then (DivList.moveToFront c.finder s it).map (0, ·)
        else some (it, s)) with
    | none => none
    | some (it, s) =>
      if it = s.list.length then some (none, s)
      else
        match s.list[it]? with
        | none => none
        | some e => some (some e.t, s)

/-- `DivListModel::insert` (src/divsim/DivListModel.h:155-169, 171-186): what is put out. -/
def ListConf.insert (c : ListConf T) (s : DivList.State T) (e : T) : Option (List T × DivList.State T) :=
  if !c.minimizeOnInsert then (DivList.insert c.finder s e).map ([], ·)
  else
    match c.findDivisor s e with
    | none => none
    | some (some _, s) => some ([], s)
    | some (none, s) =>
      match DivList.removeMultiples c.finder s e with
      | none => none
      | some (out, hasMultiples, s) =>
        match DivList.insert c.finder s e with
        | none => none
        | some s =>
          if c.moveDivisorToFront && hasMultiples then
            -- `--it` on `end()`
            if s.list.length = 0 then none else (DivList.moveToFront c.finder s (s.list.length - 1)).map (out, ·)
          else some (out, s)

/-! ## `KDTreeModel` -/

/-- The members of `KDTreeModel` besides the finder (src/divsim/KDTreeModel.h:158) and the configuration of the
finder. -/
structure TreeConf (T : Type) where
  finder : KDTree.Conf T
  minimizeOnInsert : Bool

/-- `KDTreeModel::insert` (src/divsim/KDTreeModel.h:161-171, 173-185). An exception ends it. -/
def TreeConf.insert (c : TreeConf T) (s : KDTree.State T) (e : T) : KDTree.Res (KDTree.Ret T × KDTree.State T) :=
  if !c.minimizeOnInsert then
    match KDTree.insert c.finder s e with
    | .ok (.unit, s) => .ok (.removed [] false, s)
    | r => r
  else
    match KDTree.findDivisor c.finder s e with
    | .ok (.entry none, s) =>
      match KDTree.removeMultiples c.finder s e with
      | .ok (.removed out b, s) =>
        match KDTree.insert c.finder s e with
        | .ok (.unit, s) => .ok (.removed out b, s)
        | r => r
      | r => r
    | .ok (.entry (some _), s) => .ok (.removed [] false, s)
    | r => r

/-! ## Histories -/

/-- The calls. -/
inductive Op (T : Type) where
  | insert (e : T)
  | findDivisor (m : T)
  | size

/-- What a call gives back: what `insert` has put out, the entry that the pointer points to, the size. -/
inductive Ret (T : Type) where
  | removed (out : List T)
  | entry (e : Option T)
  | num (n : ℕ)
  deriving DecidableEq

/-- One call of `DivListModel`; `size` is src/divsim/DivListModel.h:143. -/
def ListConf.step (c : ListConf T) (s : DivList.State T) : Op T → Option (Ret T × DivList.State T)
  | .insert e => (c.insert s e).map (fun r => (.removed r.1, r.2))
  | .findDivisor m => (c.findDivisor s m).map (fun r => (.entry r.1, r.2))
  | .size => some (.num s.list.length, s)

/-- A history of calls of `DivListModel`. -/
def ListConf.run (c : ListConf T) (s : DivList.State T) : List (Op T) → Option (List (Ret T) × DivList.State T)
  | [] => some ([], s)
  | op :: ops =>
    match c.step s op with
    | none => none
    | some (r, s) =>
      match c.run s ops with
      | none => none
      | some (rs, s) => some (r :: rs, s)

/-- One call of `KDTreeModel` (`findDivisor` is src/divsim/KDTreeModel.h:124-126, `size` is :148). `none` is an
exception or undefined. -/
def TreeConf.step (c : TreeConf T) (s : KDTree.State T) : Op T → Option (Ret T × KDTree.State T)
  | .insert e =>
    match c.insert s e with
    | .ok (.removed out _, s) => some (.removed out, s)
    | _ => none
  | .findDivisor m =>
    match KDTree.findDivisor c.finder s m with
    | .ok (.entry r, s) => some (.entry r, s)
    | _ => none
  | .size => some (.num s.size, s)

/-- A history of calls of `KDTreeModel`. -/
def TreeConf.run (c : TreeConf T) (s : KDTree.State T) : List (Op T) → Option (List (Ret T) × KDTree.State T)
  | [] => some ([], s)
  | op :: ops =>
    match c.step s op with
    | none => none
    | some (r, s) =>
      match c.run s ops with
      | none => none
      | some (rs, s) => some (r :: rs, s)

end Verif.Minimize
