import Verif.PQSort
import Verif.PropHeap
import Verif.PropTourTree
import Verif.PropStlSet
import Verif.PropGeobucket

/-!
# All priority queues sort alike: C08
-/

namespace Verif

variable {E : Type}

/-- What it means for a queue to sort: filled with `l` and popped as often, it never runs into
undefined behaviour, ends up empty, and the entries popped are a permutation of `l` in which no
entry is followed by a larger one. -/
def Sorts (I : PQImpl E) (lt : E → E → Bool) : Prop :=
  ∀ l : List E, ∃ m s, I.run I.init (sortOps l) = some (List.replicate l.length none ++ m.map some, s) ∧
    m.Perm l ∧ Descending lt m ∧ I.entries s = [] ∧ I.empty s = true

/-- C08: `Heap` sorts. -/
theorem heap_sorts (c : PQConf E) (hc : c.Lawful) (hd : c.supportDedup = false) :
    Sorts (Heap.impl c) c.lt := fun l =>
  (Heap.heap_multiset c hc hd).sorts (fun _ => trivial) trivial l

/-- C08: `TourTree` sorts. -/
theorem tourTree_sorts (c : PQConf E) (hc : StrictWeak c.lt) : Sorts (TourTree.impl c) c.lt :=
  fun l => (TourTree.tourTree_multiset c hc).sorts (fun _ => trivial) trivial l

/-- C08: `StlSet` sorts. -/
theorem stlSet_sorts (c : PQConf E) (hc : StrictWeak c.lt) : Sorts (StlSet.impl c) c.lt :=
  fun l => (StlSet.stlSet_multiset c hc).sorts (fun _ => trivial) trivial l

/-- C08: any two queues that sort return equivalent entries at each position. -/
theorem sorts_alike {lt : E → E → Bool} (hw : StrictWeak lt) {I J : PQImpl E} (hI : Sorts I lt)
    (hJ : Sorts J lt) (l : List E) :
    ∃ (m m' : List E) (s : I.State) (s' : J.State), I.run I.init (sortOps l) = some (List.replicate l.length none ++ m.map some, s) ∧
      J.run J.init (sortOps l) = some (List.replicate l.length none ++ m'.map some, s') ∧
      m.length = l.length ∧ m'.length = l.length ∧
      ∀ i (hi : i < m.length) (hi' : i < m'.length), lt m[i] m'[i] = false ∧ lt m'[i] m[i] = false := by
  obtain ⟨m, s, h1, h2, h3, _⟩ := hI l
  obtain ⟨m', s', h1', h2', h3', _⟩ := hJ l
  exact ⟨m, m', s, s', h1, h1', h2.length_eq, h2'.length_eq, fun i hi hi' =>
    sorted_perms_equiv hw (h2.trans h2'.symm) h3 h3' i hi hi'⟩

/-- C08: `Geobucket` sorts, in every configuration. -/
theorem geobucket_sorts (c : Geobucket.Conf E) (hs : Geobucket.Sane c) (hc : c.Lawful)
    (hd : c.supportDedup = false) : Sorts (Geobucket.impl c) c.lt :=
  fun l => (Geobucket.geobucket_multiset c hs hc hd).sorts (fun _ => trivial) trivial l

/-- C08: all queues sort, so by `sorts_alike` any two of them return equivalent entries at each
position. -/
theorem queues_sort_alike (c : Geobucket.Conf E) (hs : Geobucket.Sane c) (hc : c.Lawful)
    (hd : c.supportDedup = false) (I J : PQImpl E)
    (hI : I = Heap.impl c.toPQConf ∨ I = TourTree.impl c.toPQConf ∨ I = StlSet.impl c.toPQConf ∨ I = Geobucket.impl c)
    (hJ : J = Heap.impl c.toPQConf ∨ J = TourTree.impl c.toPQConf ∨ J = StlSet.impl c.toPQConf ∨ J = Geobucket.impl c)
    (l : List E) :
    ∃ (m m' : List E) (s : I.State) (s' : J.State),
      I.run I.init (sortOps l) = some (List.replicate l.length none ++ m.map some, s) ∧
      J.run J.init (sortOps l) = some (List.replicate l.length none ++ m'.map some, s') ∧
      m.Perm l ∧ m'.Perm l ∧ I.empty s = true ∧ J.empty s' = true ∧
      ∀ i (hi : i < m.length) (hi' : i < m'.length), c.lt m[i] m'[i] = false ∧ c.lt m'[i] m[i] = false := by
  have hall : ∀ K : PQImpl E, (K = Heap.impl c.toPQConf ∨ K = TourTree.impl c.toPQConf ∨
      K = StlSet.impl c.toPQConf ∨ K = Geobucket.impl c) → Sorts K c.lt := by
    rintro K (rfl | rfl | rfl | rfl)
    · exact heap_sorts _ hc hd
    · exact tourTree_sorts _ hc.weak
    · exact stlSet_sorts _ hc.weak
    · exact geobucket_sorts c hs hc hd
  obtain ⟨m, s, h1, h2, h3, _, h4⟩ := hall I hI l
  obtain ⟨m', s', h1', h2', h3', _, h4'⟩ := hall J hJ l
  exact ⟨m, m', s, s', h1, h1', h2, h2', h4, h4', fun i hi hi' =>
    sorted_perms_equiv hc.weak (h2.trans h2'.symm) h3 h3' i hi hi'⟩

/-- The hypotheses are met by terms ordered by exponent. -/
example : Sorts (Heap.impl (Heap.termConf false)) (Heap.termConf false).lt :=
  heap_sorts _ (Heap.termConf_lawful false) rfl

example : Sorts (Geobucket.impl (Geobucket.termConf true false)) (Geobucket.termConf true false).lt :=
  geobucket_sorts _ (Geobucket.termConf_sane _ _) (Geobucket.termConf_lawful _ _) rfl

#guard ((TourTree.impl (Heap.termConf false)).run (TourTree.impl (Heap.termConf false)).init
    (sortOps [(1, 1), (4, 2), (2, 3), (4, 4)])).map (·.1)
  == some [none, none, none, none, some (4, 2), some (4, 4), some (2, 3), some (1, 1)]

end Verif
