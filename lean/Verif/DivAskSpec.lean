import Verif.DivList
import Verif.KDTreeSpec

/-!
# Asking about each entry at most once

And the same configuration with another `divides`.
-/

namespace Verif

/-- The same configuration with `d` for `divides`. -/
def DivList.Conf.withDivides {T : Type} (c : DivList.Conf T) (d : T → T → Bool) : DivList.Conf T :=
  { c with dm := { c.dm with divides := d } }

/-- The same configuration with `d` for `divides`. -/
def KDTree.Conf.withDivides {T : Type} (c : KDTree.Conf T) (d : T → T → Bool) : KDTree.Conf T :=
  { c with dm := { c.dm with divides := d } }

/-- A list of entries of a tree with pointers to them: no pointer is there twice, each points to the entry beside it,
and so no entry is there more often than in the tree. -/
structure KDTree.Once {T : Type} (t : KDTree.Tree T) (l : List (DivMask.Ext T × KDTree.Ptr)) : Prop where
  nodup : (l.map Prod.snd).Nodup
  deref : ∀ x ∈ l, ∃ n a, t.root = some n ∧ n.arrAt x.2.1 = some a ∧ a.es[x.2.2]? = some x.1
  subperm : (l.map (fun x => x.1.t)).Subperm t.contents

/-- The entries with `p` on a list of questions. -/
def Ask.hits {T X : Type} (p : T → Bool) (l : List (DivMask.Ext T × X)) : List T :=
  (l.map (fun x => x.1.t)).filter p

/-- There is no question after the output has said that it wants no more: after each entry with `p` that is not the
last of the list, `go` holds of the entries with `p` up to there, after those of `got`. -/
def Ask.Heeds {T X : Type} (p : T → Bool) (go : List T → Bool) (got : List T) (l : List (DivMask.Ext T × X)) : Prop :=
  ∀ l₁ x l₂, l = l₁ ++ x :: l₂ → l₂ ≠ [] → p x.1.t = true → go (got ++ Ask.hits p (l₁ ++ [x])) = true

end Verif
