import Verif.Minimize
import Mathlib.Data.List.Range

/-!
# Model of the simulation of divisor finders

`Simulation` (src/divsim/Simulation.h, src/divsim/Simulation.cpp), which makes random events, has one finder after
the other carry them out and checks that all finders give the same answers, together with the configurations of
`DivListModel` and `KDTreeModel` and with `main` (src/divsim/divMain.cpp).

It is the release build, in which answers are compared by how many monomials there are. Left out are the events of
type `StateUnknown` and `StateKnown`, which no code makes (src/divsim/Simulation.cpp:23-25 has them in a comment),
the counting of exponent queries, times, names and what is printed.
-/

namespace Verif.DivSim

/-- The vectors of `n` exponents that `makeRandom` can make (src/divsim/Simulation.cpp:9-12); `int`s below 1000.
A `Monomial` (src/divsim/Monomial.h:7-38) points to such a vector, which never changes. -/
abbrev Mono (n : ℕ) := {m : List ℕ // m.length = n ∧ ∀ e ∈ m, e < 1000}

/-- `Simulation::EventType` (src/divsim/Simulation.h:52-60) without the two types of states. -/
inductive EventType where
  | insertUnknown
  | insertKnown
  | queryNoDivisor
  | queryHasDivisor
  | queryUnknown
  deriving DecidableEq, Repr

/-- `Simulation::Event` (src/divsim/Simulation.h:61-70). `none` is a `_monomialCount` without a value. -/
structure Event (n : ℕ) where
  type : EventType
  monomial : Mono n
  count : Option ℕ
  deriving DecidableEq

/-! ## Events -/

/-- `makeRandom` (src/divsim/Simulation.cpp:9-12), `R` are the values of `rand()`, of which `pos` were used. -/
def makeRandom (R : ℕ → ℕ) (n pos : ℕ) : Mono n :=
  ⟨(List.range n).map (fun v => R (pos + v) % 1000), by simp, by
    intro e he
    obtain ⟨v, _, rfl⟩ := List.mem_map.mp he
    exact Nat.mod_lt _ (by decide)⟩

/-- `Simulation::makeStandard` (src/divsim/Simulation.cpp:15-34): the events. `srand` is called first, so that `R`
starts at its first value. `inserts + queries` is taken not to overflow. -/
def makeStandard (R : ℕ → ℕ) (n inserts queries : ℕ) : List (Event n) :=
  (List.range (inserts + queries)).map (fun i =>
    ⟨if i ≤ inserts then .insertUnknown else .queryUnknown, makeRandom R n (i * n), none⟩)

/-! ## Finders -/

/-- What `run` needs of a finder over monomials `T`: the constructor, `insert` with what it puts out, `findDivisor`
and `findAllDivisors` with an output that always goes on. `none` is undefined or an exception, which nobody catches. -/
structure Finder (T : Type) where
  State : Type
  init : Option State
  insert : State → T → Option (List T × State)
  findDivisor : State → T → Option (Option T × State)
  findAllDivisors : State → T → Option (List T × State)

/-- `DivListModel` (src/divsim/DivListModel.h:81-186). -/
def listFinder {T : Type} (c : Minimize.ListConf T) : Finder T where
  State := DivList.State T
  init := DivList.init c.finder
  insert := c.insert
  findDivisor := c.findDivisor
  findAllDivisors s m := (DivList.findAllDivisors c.finder s m (fun _ => true)).map (·, s)

/-- What `KDTreeModel::insert` has put out (src/divsim/KDTreeModel.h:173-185). -/
def removedOf {T : Type} : KDTree.Res (KDTree.Ret T × KDTree.State T) → Option (List T × KDTree.State T)
  | .ok (.removed out _, s) => some (out, s)
  | _ => none

/-- The pointer that `KDTreeModel::findDivisor` gives (src/divsim/KDTreeModel.h:124-126). -/
def entryOf {T : Type} : KDTree.Res (KDTree.Ret T × KDTree.State T) → Option (Option T × KDTree.State T)
  | .ok (.entry r, s) => some (r, s)
  | _ => none

/-- What `KDTreeModel::findAllDivisors` has put out (src/divsim/KDTreeModel.h:137-140). -/
def gotOf {T : Type} : KDTree.Res (KDTree.Ret T × KDTree.State T) → Option (List T × KDTree.State T)
  | .ok (.got out false, s) => some (out, s)
  | _ => none

/-- `KDTreeModel` (src/divsim/KDTreeModel.h:91-185). -/
def treeFinder {T : Type} (c : Minimize.TreeConf T) : Finder T where
  State := KDTree.State T
  init := KDTree.init c.finder
  insert s e := removedOf (c.insert s e)
  findDivisor s m := entryOf (KDTree.findDivisor c.finder s m)
  findAllDivisors s m := gotOf (KDTree.step c.finder s (.findAllDivisors m (fun _ => .go)))

/-! ## The run -/

/-- `std::exit(1)` after a message that the finder is wrong, or what goes on. -/
inductive Out (α : Type) where
  | ok (a : α)
  | accused
  deriving DecidableEq

/-- `MonomialStore::checkInsert` (src/divsim/Simulation.h:151-180): the event afterwards, `none` for reading a count
without a value. -/
def checkInsert {n : ℕ} (e : Event n) (k : ℕ) : Option (Out (Event n)) :=
  if e.type = .insertUnknown then some (.ok { e with count := some k, type := .insertKnown })
  else
    match e.count with
    | none => none
    | some k' => if k ≠ k' then some .accused else some (.ok e)

/-- `MonomialStore::checkQuery` (src/divsim/Simulation.h:182-219). -/
def checkQuery {n : ℕ} (e : Event n) (k : ℕ) : Option (Out (Event n)) :=
  if e.type = .queryUnknown then
    some (.ok { e with count := some k, type := if k = 0 then .queryNoDivisor else .queryHasDivisor })
  else
    match e.count with
    | none => none
    | some k' => if k ≠ k' then some .accused else some (.ok e)

/-- The check of `findDivisor` (src/divsim/Simulation.h:274-296); `found` tells whether the pointer is not null. -/
def checkFound {n : ℕ} (e : Event n) (found : Bool) : Out (Event n) :=
  if !found then
    if e.type = .queryHasDivisor then .accused else .ok { e with type := .queryNoDivisor }
  else if e.type = .queryNoDivisor then .accused
  else .ok { e with type := .queryHasDivisor }

/-- The event belongs to the first branch (src/divsim/Simulation.h:250). -/
def Event.isInsert {n : ℕ} (e : Event n) : Bool := e.type = .insertKnown || e.type = .insertUnknown

/-- The conversion of the exponents to a `Monomial` takes the address of the first one
(src/divsim/Monomial.h:12). -/
def toMonomial {n : ℕ} (m : Mono n) : Option (Mono n) := if n = 0 then none else some m

/-- What is left after an event: the event and the finder. -/
def keep {σ : Type} {n : ℕ} (s : σ) : Out (Event n) → Out (Event n × σ)
  | .ok e => .ok (e, s)
  | .accused => .accused

/-- The body of the inner loop of `run` (src/divsim/Simulation.h:249-304). -/
def runEvent {n : ℕ} (F : Finder (Mono n)) (findAll : Bool) (s : F.State) (e : Event n) :
    Option (Out (Event n × F.State)) :=
  match toMonomial e.monomial with
  | none => none
  | some m =>
    if e.isInsert then
      match F.insert s m with
      | none => none
      | some (out, s) => (checkInsert e out.length).map (keep s)
    else if !findAll then
      match F.findDivisor s m with
      | none => none
      | some (r, s) => some (keep s (checkFound e r.isSome))
    else
      match F.findAllDivisors s m with
      | none => none
      | some (out, s) => (checkQuery e out.length).map (keep s)

/-- The inner loop of `run` (src/divsim/Simulation.h:248-305), the events change. -/
def runEvents {n : ℕ} (F : Finder (Mono n)) (findAll : Bool) (s : F.State) :
    List (Event n) → Option (Out (List (Event n) × F.State))
  | [] => some (.ok ([], s))
  | e :: es =>
    match runEvent F findAll s e with
    | none => none
    | some .accused => some .accused
    | some (.ok (e, s)) =>
      match runEvents F findAll s es with
      | none => none
      | some .accused => some .accused
      | some (.ok (es, s)) => some (.ok (e :: es, s))

/-- The outer loop of `run` (src/divsim/Simulation.h:247-306), the finder is kept. -/
def repeatEvents {n : ℕ} (F : Finder (Mono n)) (findAll : Bool) : ℕ → F.State → List (Event n) →
    Option (Out (List (Event n) × F.State))
  | 0, s, es => some (.ok (es, s))
  | k + 1, s, es =>
    match runEvents F findAll s es with
    | none => none
    | some .accused => some .accused
    | some (.ok (es, s)) => repeatEvents F findAll k s es

/-- `Simulation::run` with a finder type (src/divsim/Simulation.h:84-127, 242-316): the events afterwards. -/
def runFinder {n : ℕ} (repeats : ℕ) (findAll : Bool) (F : Finder (Mono n)) (es : List (Event n)) :
    Option (Out (List (Event n))) :=
  match F.init with
  | none => none
  | some s =>
    match repeatEvents F findAll repeats s es with
    | none => none
    | some .accused => some .accused
    | some (.ok (es, _)) => some (.ok es)

/-- Several runs in a row, as in `main` (src/divsim/divMain.cpp:25-27). -/
def simulate {n : ℕ} (repeats : ℕ) (findAll : Bool) : List (Finder (Mono n)) → List (Event n) →
    Option (Out (List (Event n)))
  | [], es => some (.ok es)
  | F :: Fs, es =>
    match runFinder repeats findAll F es with
    | none => none
    | some .accused => some .accused
    | some (.ok es) => simulate repeats findAll Fs es

/-! ## The configurations -/

/-- `getExponent` (src/divsim/DivListModel.h:43-47, src/divsim/KDTreeModel.h:45-49). -/
def exponent {n : ℕ} (m : Mono n) (v : ℕ) : ℤ := (m.1.getD v 0 : ℕ)

/-- `divides` (src/divsim/DivListModel.h:49-54, src/divsim/KDTreeModel.h:51-56), the variables still to look at. -/
def dividesLoop {n : ℕ} (a b : Mono n) : List ℕ → Bool
  | [] => true
  | v :: vs => if exponent b v < exponent a v then false else dividesLoop a b vs

/-- `isLessThan` (src/divsim/DivListModel.h:56-64, src/divsim/KDTreeModel.h:58-66). -/
def lessLoop {n : ℕ} (a b : Mono n) : List ℕ → Bool
  | [] => false
  | v :: vs =>
    if exponent a v < exponent b v then true
    else if exponent b v < exponent a v then false
    else lessLoop a b vs

/-- The part of the configurations that masks need (src/divsim/DivListModel.h:16, 41-54). -/
def monoDm (n : ℕ) : DivMask.Conf (Mono n) where
  ty := .signed 32
  varCount := n
  getExponent := exponent
  divides a b := dividesLoop a b (List.range n)

/-- What the standard library is free to choose: `std::sort` in `DivMask`, sorting of entries and
`std::partition`. -/
structure Lib where
  sortVars : List DivMask.VarData → List DivMask.VarData
  sort : {α : Type} → (α → α → Bool) → List α → List α
  partition : {α : Type} → (α → Bool) → List α → List α × List α

/-- `rebuildRatio` and `minRebuild`: whether the ratio is positive, `static_cast<size_t>(size * ratio)`, and the
minimum. -/
structure Ratio where
  positive : Bool
  times : ℕ → ℕ
  min : ℕ

/-- `DivListModel<ull, udm>(n, mini, front, sortOnInsert, ratio, min)` (src/divsim/DivListModel.h:19-40, 93-103). -/
def listModel (lib : Lib) (n : ℕ) (ull udm mini front sortOnInsert : Bool) (ratio : Ratio) :
    Minimize.ListConf (Mono n) where
  finder := {
    dm := monoDm n
    useLinkedList := ull
    useDivMask := udm
    sortOnInsert := sortOnInsert
    isLessThan := fun a b => lessLoop a b (List.range n)
    doAutomaticRebuilds := (ratio.positive || decide (0 < ratio.min)) && udm
    rebuildSize := ratio.times
    rebuildMin := ratio.min
    sortVars := lib.sortVars
    sort := lib.sort }
  minimizeOnInsert := mini
  moveDivisorToFront := front

/-- `KDTreeModel<udm, utdm, packed, leafSize, removals>(n, mini, sortOnInsert, cache, ratio, min)`
(src/divsim/KDTreeModel.h:26-43, 68-79, 103-112). -/
def treeModel (lib : Lib) (n : ℕ) (udm utdm packed : Bool) (leafSize : ℕ) (removals mini sortOnInsert cache : Bool)
    (ratio : Ratio) : Minimize.TreeConf (Mono n) where
  finder := {
    dm := monoDm n
    packed := packed
    leafSize := leafSize
    useDivMask := udm
    useTreeDivMask := utdm
    sortOnInsert := sortOnInsert
    allowRemovals := removals
    useDivisorCache := cache
    isLessThan := fun a b => lessLoop a b (List.range n)
    doAutomaticRebuilds := (ratio.positive || decide (0 < ratio.min)) && udm
    rebuildSize := ratio.times
    rebuildMin := ratio.min
    sortVars := lib.sortVars
    sort := lib.sort
    partition := lib.partition
    selfCopyUndefined := false }
  minimizeOnInsert := mini

/-- `main` up to its first `return` (src/divsim/divMain.cpp:9-28). -/
def main (lib : Lib) (R : ℕ → ℕ) : Option (Out (List (Event 10))) :=
  simulate 1 true [treeFinder (treeModel lib 10 true true true 1 true false false false ⟨true, id, 1000⟩),
    treeFinder (treeModel lib 10 true true true 1 false false false false ⟨true, id, 1000⟩)]
    (makeStandard R 10 5000 2000000)

end Verif.DivSim
