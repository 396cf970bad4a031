import Verif.Names
import Verif.TourTree

/-!
# Model of `print` of the priority queues

Text is a list of characters. Simplification: what `out <<` writes for an entry is the function `sh`, for a
pointer to a player of a tournament tree it is the function `addr`.
-/

namespace Verif.Print

open Verif.Text (decimal)

variable {E : Type}

/-- The loop of `ComTree::print` (src/mathic/ComTree.h:278-283) from node number `i` on. `unit` is what `next` adds to
an index: `sizeof(Entry)` with fast indices, else 1 (src/mathic/ComTree.h:60, 263). -/
def treeLoop (sh : E → List Char) (unit : ℕ) : ℕ → List E → List Char
  | _, [] => []
  | i, e :: es =>
    (if (unit * i) &&& (unit * i - 1) = 0 then "\n ".toList ++ decimal (unit * i) ++ [':'] else []) ++
      (' ' :: sh e) ++ treeLoop sh unit (i + 1) es

/-- `ComTree::print` (src/mathic/ComTree.h:276-285). -/
def comTree (sh : E → List Char) (unit : ℕ) (t : List E) : List Char := treeLoop sh unit 1 t ++ "}\n".toList

/-- `Heap::print` (src/mathic/Heap.h:135-138). -/
def heap (sh : E → List Char) (fastIndex : Bool) (size : ℕ) (c : PQConf E) (t : List E) : List Char :=
  Name.heap fastIndex c ++ ": {".toList ++ comTree sh (if fastIndex then size else 1) t ++ "}\n".toList

/-- `TourTree::print` (src/mathic/TourTree.h:216-219). The tree is one of pointers, and its indices are not fast
(src/mathic/TourTree.h:59-63). -/
def tourTree (addr : ℕ → List Char) (fastIndex : Bool) (s : TourTree.State E) : List Char :=
  Name.tourTree fastIndex ++ ": {\n".toList ++ comTree addr 1 s.tree ++ "}\n".toList

/-- `StlSet::print` (src/mathic/StlSet.h:36-42). -/
def stlSet (sh : E → List Char) (s : List E) : List Char :=
  Name.stlSet ++ ":\n".toList ++ s.flatMap (fun e => ' ' :: sh e) ++ ['\n']

/-- The entries of a bucket in `Geobucket::print` (src/mathic/Geobucket.h:491-497); undefined if they are not there. -/
def bucketEntries (sh : E → List Char) (b : List E) : Option (List Char) :=
  if b.length > 4 then do
    let x₀ ← b[0]?
    let x₁ ← b[1]?
    let y₀ ← b[b.length - 2]?
    let y₁ ← b[b.length - 1]?
    some ((' ' :: sh x₀) ++ (' ' :: sh x₁) ++ " ... ".toList ++ sh y₀ ++ (' ' :: sh y₁))
  else some (b.flatMap (fun e => ' ' :: sh e))

/-- The loop of `Geobucket::print` (src/mathic/Geobucket.h:489-499) from bucket `i` on. -/
def bucketLoop (sh : E → List Char) : ℕ → List (Geobucket.Bucket E) → Option (List Char)
  | _, [] => some []
  | i, b :: bs => do
    let es ← bucketEntries sh b.es
    let rest ← bucketLoop sh (i + 1) bs
    some ((' ' :: decimal i) ++ [':'] ++ es ++ " [".toList ++ decimal b.es.length ++ ['/'] ++ decimal b.cap ++
      "]\n".toList ++ rest)

/-- `Geobucket::print` (src/mathic/Geobucket.h:486-501). -/
def geobucket (sh : E → List Char) (c : Geobucket.Conf E) (s : Geobucket.State E) : Option (List Char) := do
  let l ← bucketLoop sh 0 s.buckets
  some (Name.geobucket c ++ ": {\n".toList ++ l ++ "}\n".toList)

end Verif.Print
