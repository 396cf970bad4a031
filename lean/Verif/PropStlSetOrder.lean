import Verif.StlSetOrderProofs

/-!
# C105: `StlSet` hands out equivalent entries in the order of their pushes
-/

namespace Verif.StlSet

variable {E : Type*}

/-- C105: of the entries equivalent to `a`, those popped and then those held are, in this order, those pushed, in the order of
the pushes. -/
theorem stlSet_fifo (c : PQConf E) (hc : StrictWeak c.lt) (a : E) (ops : List (PQOp E)) (outs : List (Option E)) (s : List E)
    (h : (impl c).run (impl c).init ops = some (outs, s)) :
    (ops.flatMap PQOp.pushed).filter (equivalent c.lt a) =
      (popped ops outs).filter (equivalent c.lt a) ++ ((impl c).entries s).filter (equivalent c.lt a) :=
  run_filter hc a ops [] s outs List.Pairwise.nil h

/-- C105, for one pop: it returns the entry that was pushed first among those held that are equivalent to it. -/
theorem stlSet_pop_oldest (c : PQConf E) (hc : StrictWeak c.lt) (ops : List (PQOp E)) (outs : List (Option E)) (s s' : List E)
    (x : E) (h : (impl c).run (impl c).init ops = some (outs, s)) (hp : (impl c).step s .pop = some (some x, s')) :
    ∃ l, (ops.flatMap PQOp.pushed).filter (equivalent c.lt x) =
        (popped ops outs).filter (equivalent c.lt x) ++ x :: l ∧
      l = ((impl c).entries s').filter (equivalent c.lt x) := by
  refine ⟨_, ?_, rfl⟩
  rw [stlSet_fifo c hc x ops outs s h]
  change (pop s).map _ = _ at hp
  cases s with
  | nil => cases hp
  | cons y l =>
    obtain ⟨rfl, rfl⟩ : y = x ∧ l = s' := by
      have := Option.some.inj hp
      exact ⟨Option.some.inj (congrArg Prod.fst this), congrArg Prod.snd this⟩
    show _ ++ (y :: l).filter _ = _
    rw [List.filter_cons_of_pos (by simp [equivalent, hc.irrefl])]
    rfl

/-- Terms ordered by exponent: three terms of exponent 5, pushed in the order 1, 2, 3, one of them popped in between. -/
def exTerms : List (PQOp (ℕ × ℕ)) :=
  [.push (5, 1), .pushRange [(7, 0), (5, 2)], .top, .pop, .pop, .push (2, 9), .push (5, 3), .pop]

example : ∃ outs s, (impl (Heap.termConf false)).run (impl (Heap.termConf false)).init exTerms = some (outs, s) ∧
    popped exTerms outs = [(7, 0), (5, 1), (5, 2)] ∧ s = [(5, 3), (2, 9)] ∧
    (exTerms.flatMap PQOp.pushed).filter (equivalent (Heap.termConf false).lt (5, 0)) =
      (popped exTerms outs).filter (equivalent (Heap.termConf false).lt (5, 0)) ++
        ((impl (Heap.termConf false)).entries s).filter (equivalent (Heap.termConf false).lt (5, 0)) := by
  refine ⟨[none, none, some (7, 0), some (7, 0), some (5, 1), none, none, some (5, 2)], [(5, 3), (2, 9)], by rfl,
    by decide, rfl, ?_⟩
  exact stlSet_fifo _ (Heap.termConf_lawful false).weak (5, 0) exTerms _ _ (by rfl)

end Verif.StlSet
