import Verif.DivList
import Verif.KDEntryArray
import Verif.Geobucket
import Verif.Minimize
import Verif.Text

/-!
# Model of the names of data structures

`getName` of the queues and divisor finders and of the models that the simulators run. Text is a list of
characters. Simplification: the text that `out << getRebuildRatio()` writes for a `double` is a parameter.
-/

namespace Verif.Name

open Verif.Text (decimal)

variable {T E : Type}

/-- `b ? s : ""`. -/
def opt (b : Bool) (s : List Char) : List Char := if b then s else []

/-- `Heap::getName` (src/mathic/Heap.h:89-95). -/
def heap (fastIndex : Bool) (c : PQConf E) : List Char :=
  "heap(".toList ++ (if fastIndex then "fi".toList else "si".toList) ++ opt c.supportDedup " dedup".toList ++ [')']

/-- `TourTree::getName` (src/mathic/TourTree.h:100-105). -/
def tourTree (fastIndex : Bool) : List Char :=
  "t-tree (".toList ++ (if fastIndex then "fi".toList else "si".toList) ++ [')']

/-- `StlSet::getName` (src/mathic/StlSet.h:21). -/
def stlSet : List Char := "stlset".toList

/-- The flags in the name of a geobucket (src/mathic/Geobucket.h:332-339). -/
def geoFlags (binarySearch trackFront dedup premerge collectMax : Bool) (storage : Geobucket.Storage) : List Char :=
  opt binarySearch " mbin".toList ++ opt trackFront " tf".toList ++ opt dedup " dedup".toList ++
    opt premerge " prem".toList ++ opt collectMax " col".toList ++ opt (storage = .doubleBuffer) " db".toList ++
    opt (storage = .sameSize) " ss".toList ++ [')']

/-- `Geobucket::getName` (src/mathic/Geobucket.h:325-341). -/
def geobucket (c : Geobucket.Conf E) : List Char :=
  "Geobucket(b".toList ++ decimal c.geoBase ++ ['m'] ++ decimal c.minBucketSize ++ ['i'] ++ decimal c.insertFactor ++
    geoFlags c.binarySearch c.trackFront c.supportDedup c.premerge c.collectMax c.storage

/-- `PairQueue::name` (src/mathic/PairQueue.h:617-620) with the name of its queue of columns. -/
def pairQueue (columnQueue : List Char) : List Char := "PairQueue-".toList ++ columnQueue

/-- `" autob:" << ratio << '/' << min`, if automatic rebuilds are shown (src/mathic/DivList.h:561-564,
src/mathic/KDTree.h:316-319). -/
def autob (shown : Bool) (ratio : List Char) (min : ℕ) : List Char :=
  if shown then " autob:".toList ++ ratio ++ ['/'] ++ decimal min else []

/-- The flags in the name of a list (src/mathic/DivList.h:565-566). -/
def listFlags (sort mask : Bool) : List Char := opt sort " sort".toList ++ opt mask " dmask".toList

/-- `DivList::getName` (src/mathic/DivList.h:556-568). -/
def divList (ratio : List Char) (c : DivList.Conf T) : List Char :=
  "DivList".toList ++ (if c.useLinkedList then " linked".toList else " array".toList) ++
    autob (c.useDivMask && c.doAutomaticRebuilds) ratio c.rebuildMin ++ listFlags c.sortOnInsert c.useDivMask

/-- The flags in the name of a tree (src/mathic/KDTree.h:320-324). -/
def treeFlags (mask tree sort cache removals : Bool) : List Char :=
  opt (mask && !tree) " dmask".toList ++ opt tree " tree-dmask".toList ++ opt sort " sort".toList ++
    opt cache " cache".toList ++ opt (!removals) " no-removals".toList

/-- `KDTree::getName` (src/mathic/KDTree.h:310-326). -/
def kdTree (ratio : List Char) (c : KDTree.Conf T) : List Char :=
  "KDTree(".toList ++ (if c.packed then "packed".toList else "binary".toList) ++ [')'] ++ " leaf:".toList ++
    decimal c.leafSize ++ autob (c.useDivMask && c.doAutomaticRebuilds) ratio c.rebuildMin ++
    treeFlags c.useDivMask c.useTreeDivMask c.sortOnInsert c.useDivisorCache c.allowRemovals

/-- `Model::getName` (src/pqsim/Model.h:44-48) with the name of its queue. -/
def model (queue : List Char) (useDecreaseTop onSpans : Bool) : List Char :=
  queue ++ opt useDecreaseTop " dectop".toList ++ if onSpans then " on spans".toList else " on elements".toList

/-- `DivListModel::getName` (src/divsim/DivListModel.h:188-193). -/
def divListModel (ratio : List Char) (c : Minimize.ListConf T) : List Char :=
  divList ratio c.finder ++ (if c.minimizeOnInsert then " remin".toList else " nomin".toList) ++
    opt c.moveDivisorToFront " toFront".toList

/-- `KDTreeModel::getName` (src/divsim/KDTreeModel.h:187-191). -/
def kdTreeModel (ratio : List Char) (c : Minimize.TreeConf T) : List Char :=
  kdTree ratio c.finder ++ if c.minimizeOnInsert then " remin".toList else " nomin".toList

end Verif.Name
