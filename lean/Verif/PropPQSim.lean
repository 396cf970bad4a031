import Verif.PQSimQueues

/-!
# Properties of the queues of the simulator: C77
-/

namespace Verif.PQSim

/-- C77 for `TourTreeModel`. -/
theorem tourTreeModel_correct (onSpans : Bool) : (tourTreeModel onSpans).Correct := by
  cases onSpans
  · exact tourTree_elem.correct
  · exact tourTree_span.correct

/-- C77 for `StlSetModel`. -/
theorem stlSetModel_correct (onSpans : Bool) : (stlSetModel onSpans).Correct := by
  cases onSpans
  · exact stlSet_elem.correct
  · exact stlSet_span.correct

/-- C77 for `HeapModel`. -/
theorem heapModel_correct (onSpans dedup : Bool) : (heapModel onSpans dedup).Correct := by
  cases onSpans
  · exact (heap_elem dedup).correct
  · exact (heap_span dedup).correct

/-- C77 for `GeobucketModel` on elements. -/
theorem geobucketModel_correct (dedup : Bool) (g : GeoParams) (hg : g.Sane) :
    (geobucketModel dedup g).Correct :=
  (geo_elem dedup g hg).correct

/-- C77 for `GeobucketModel` on spans without deduplication. -/
theorem geobucketSpanModel_correct (g : GeoParams) (hg : g.Sane) : (geobucketSpanModel g).Correct :=
  (geo_span g hg).correct

/-- C77: all the models that `main` runs do what a set of values does. -/
theorem mainModels_correct : ∀ Q ∈ mainModels, Q.Correct := by
  intro Q hQ
  have h32 : ∀ b, 2 ≤ b → GeoParams.Sane { geoBase := b, minBucketSize := 32 } :=
    fun b hb => ⟨Nat.le_of_ble_eq_true rfl, hb, le_refl _⟩
  simp only [mainModels, List.mem_cons, List.not_mem_nil, or_false] at hQ
  rcases hQ with rfl | rfl | rfl | rfl | rfl | rfl | rfl | rfl | rfl | rfl | rfl
  · exact tourTreeModel_correct true
  · exact tourTreeModel_correct false
  · exact geobucketModel_correct false _ (h32 4 (by decide))
  · exact geobucketModel_correct false _ (h32 2 (by decide))
  · exact geobucketModel_correct true _ (h32 4 (by decide))
  · exact stlSetModel_correct true
  · exact stlSetModel_correct false
  · exact heapModel_correct false false
  · exact heapModel_correct true false
  · exact heapModel_correct false true
  · exact heapModel_correct true true

/-! ## Samples -/

/-- Three ranges that share values, popped one value at a time. -/
def sample : List SimOp :=
  [.push [9, 7, 7, 2], .push [9, 7, 1], .pop, .push [8, 7], .pop, .pop, .pop]

/-- The values come out once each, largest first. -/
example : (Spec.run ∅ sample).map Prod.fst = some [none, none, some 9, none, some 8, some 7, some 2] := by
  decide +kernel

/-- The history is one that the theorems speak of. -/
theorem sample_allowed : ∀ op ∈ sample, op.Allowed := by
  intro op hop
  simp only [sample, List.mem_cons, List.not_mem_nil, or_false] at hop
  rcases hop with rfl | rfl | rfl | rfl | rfl | rfl | rfl <;>
    simp [SimOp.Allowed]

/-- So it does with a heap on spans that merges equal values. -/
example : ((heapModel true true).run (heapModel true true).init sample).map (fun r => (r.1, (heapModel true true).empty r.2)) =
    some ([none, none, some 9, none, some 8, some 7, some 2], false) := by
  rw [heapModel_correct true true sample sample_allowed]
  decide +kernel

/-- Popping an empty queue is undefined, as the specification says. -/
example : (tourTreeModel true).run (tourTreeModel true).init [.push [3, 3], .pop, .pop] = none := by
  have h := tourTreeModel_correct true [.push [3, 3], .pop, .pop] (by
    intro op hop
    simp only [List.mem_cons, List.not_mem_nil, or_false] at hop
    rcases hop with rfl | rfl | rfl <;> simp [SimOp.Allowed])
  rw [show Spec.run ∅ [.push [3, 3], .pop, .pop] = none by decide +kernel] at h
  exact Option.map_eq_none_iff.mp h

-- tests of the model itself
#guard ((heapModel true true).run (heapModel true true).init sample).map Prod.fst ==
  some [none, none, some 9, none, some 8, some 7, some 2]
#guard ((heapModel false true).run (heapModel false true).init sample).map Prod.fst ==
  some [none, none, some 9, none, some 8, some 7, some 2]
#guard ((tourTreeModel true).run (tourTreeModel true).init sample).map Prod.fst ==
  some [none, none, some 9, none, some 8, some 7, some 2]
#guard ((stlSetModel true).run (stlSetModel true).init sample).map Prod.fst ==
  some [none, none, some 9, none, some 8, some 7, some 2]
#guard ((geobucketModel true ⟨2, 1, true, false, true, true, .plain, 1⟩).run
  (geobucketModel true ⟨2, 1, true, false, true, true, .plain, 1⟩).init sample).map Prod.fst ==
  some [none, none, some 9, none, some 8, some 7, some 2]
-- an empty range puts an item into a queue of spans that has no value to look at
#guard ((stlSetModel true).run (stlSetModel true).init [.push [], .pop]).isNone
-- a range that is not sorted is not popped largest value first
#guard ((stlSetModel true).run (stlSetModel true).init [.push [3, 5], .pop]).isNone

end Verif.PQSim
