import Verif.GeoAssertProofs
import Verif.PropGeobucket
import Verif.PropQueueAssert

/-!
# C85: the assertions of `Geobucket` and `GeoFront`

With the calls of `AllowedD` a debug build does what the release build does. The calls left out of
`AllowedD` are those that an assertion stops.
-/

namespace Verif.Geobucket

open Dbg

variable {E : Type}

theorem runFromD_eq {c : Conf E} (hs : Sane c) (hc : c.Lawful) :
    ∀ (ops : List (PQOp E)) (s : State E),
    Inv c (fun _ : E => (0 : ℕ)) (wsum (fun _ : E => (0 : ℕ)) (flat s.buckets)) s → (∀ op ∈ ops, AllowedD c op) →
    runFromD c s ops = caught ((impl c).run s ops) := by
  intro ops
  induction ops with
  | nil => intro s _ _; rfl
  | cons op ops ih =>
    intro s h ha
    have ho := ha op List.mem_cons_self
    have hw : c.Weight (fun _ : E => (0 : ℕ)) := fun _ _ _ _ => rfl
    have he := stepD_eq hs hc hw h op ho
    rw [runFromD, he]
    cases hst : step c s op with
    | none =>
      rw [run_none (I := impl c) hst]
      rfl
    | some r =>
      have hinv : Inv c (fun _ : E => (0 : ℕ)) (wsum (fun _ : E => (0 : ℕ)) (flat r.2.buckets)) r.2 := by
        refine reach hs hc hw [op] s [r.1] r.2 h ?_ ?_
        · intro o hm
          rw [List.mem_singleton] at hm
          rw [hm]
          exact ho.allowed hc
        · rw [run_some (I := impl c) (o := r.1) (s' := r.2) hst]
          rfl
      rw [run_some (I := impl c) (o := r.1) (s' := r.2) hst]
      simp only [caught, ok_bind]
      rw [ih r.2 hinv (fun o hm => ha o (List.mem_cons_of_mem _ hm))]
      cases (impl c).run r.2 ops <;> rfl

/-- C85: on every history of allowed calls, in every configuration, the debug build of `Geobucket` does what
the release build does. Where that is undefined, at `top`, `pop` or `decreaseTop` on an empty geobucket,
an assertion fails; no other assertion fails. -/
theorem geobucket_assertions_partial (c : Conf E) (hs : Sane c) (hc : c.Lawful) (ops : List (PQOp E))
    (ha : ∀ op ∈ ops, AllowedD c op) : runD c ops = caught ((impl c).run (impl c).init ops) := by
  rw [runD, mkD_ok hs]
  exact runFromD_eq hs hc ops _ (init_ok hs _).1 ha

/-- C85: after such a history `size`, `empty` and `forAll` pass their checks. -/
theorem geobucket_queries_assertions (c : Conf E) (hs : Sane c) (hc : c.Lawful) (ops : List (PQOp E))
    (outs : List (Option E)) (s : State E) (ha : ∀ op ∈ ops, Allowed c op)
    (h : (impl c).run (impl c).init ops = some (outs, s)) :
    sizeD s = ok (entries s).length ∧ emptyD s = ok (entries s).isEmpty ∧ forAllD c s = ok (entries s) ∧
      isValid c s = ok () := by
  have hi := reach hs hc (w := fun _ => (0 : ℕ)) (fun _ _ _ _ => rfl) ops _ outs s (init_ok hs _).1 ha h
  have hv := isValid_ok hs hi
  have hcount := hi.good.data.count
  simp only [List.length_nil, Nat.add_zero] at hcount
  refine ⟨?_, ?_, ?_, hv⟩
  · rw [sizeD, assert_of (by rw [beq_iff_eq, sum_flat, hcount]), ok_bind, hcount]
    rfl
  · rw [emptyD_ok hi]
    show ok (decide (entries s = [])) = _
    cases entries s <;> rfl
  · rw [forAllD, hv, ok_bind]

/-- C85 does not hold of `clear` with `trackFront`: after every history of allowed calls it fails an assertion
unless the geobucket is empty. -/
theorem geobucket_clear_assertion (c : Conf E) (hs : Sane c) (hc : c.Lawful) (ht : c.trackFront = true)
    (ops : List (PQOp E)) (outs : List (Option E)) (s : State E) (ha : ∀ op ∈ ops, Allowed c op)
    (h : (impl c).run (impl c).init ops = some (outs, s)) :
    clearD c s = if entries s = [] then ok (clear c s) else failed := by
  have hi := reach hs hc (w := fun _ => (0 : ℕ)) (fun _ _ _ _ => rfl) ops _ outs s (init_ok hs _).1 ha h
  exact clearD_tracked hs ht hi

/-- C85 does not hold of ranges without entries: after every history of allowed calls such a range fails
an assertion, unless there is `premerge`, no `trackFront` and nothing in the first bucket. -/
theorem geobucket_empty_range_assertion (c : Conf E) (hs : Sane c) (hc : c.Lawful) (ops : List (PQOp E))
    (outs : List (Option E)) (s : State E) (ha : ∀ op ∈ ops, Allowed c op)
    (h : (impl c).run (impl c).init ops = some (outs, s))
    (hx : c.premerge = false ∨ c.trackFront = true ∨ s.buckets.head?.map Bucket.es ≠ some []) :
    pushRangeD c s [] = failed := by
  have hi := reach hs hc (w := fun _ => (0 : ℕ)) (fun _ _ _ _ => rfl) ops _ outs s (init_ok hs _).1 ha h
  refine pushRangeD_nil hi ?_
  rcases hx with hx | hx | hx
  · exact Or.inl hx
  · exact Or.inr (Or.inl hx)
  · refine Or.inr (Or.inr ?_)
    intro he
    apply hx
    obtain ⟨b, hb⟩ : ∃ b, s.buckets[0]? = some b := ⟨_, List.getElem?_eq_getElem hi.good.data.length_pos⟩
    rw [esAt_some hb] at he
    rw [List.head?_eq_getElem?, hb, Option.map_some, he]

/-- C85: ranges with equal entries are not allowed if there is deduplication (src/mathic/Geobucket.h:140-142), and
the debug build says so, whatever the geobucket holds. -/
theorem geobucket_equal_range_assertion (c : Conf E) (hc : c.Lawful) (hd : c.supportDedup = true) (s : State E)
    (l₁ l₂ : List E) (x y : E) (hxy : c.eq x y = true) :
    pushRangeD c s (l₁ ++ x :: y :: l₂) = failed := by
  have hf : rangeSorted c (l₁ ++ x :: y :: l₂) = false := by
    have hlt : c.lt y x = false := by
      have := hc.eq_iff x y
      rw [hxy] at this
      simp only [Bool.true_eq, Bool.and_eq_true, Bool.not_eq_true'] at this
      exact this.2
    induction l₁ with
    | nil => simp only [List.nil_append, rangeSorted, hd, if_true, hlt, Bool.false_and]
    | cons z l₁ ih =>
      cases l₁ with
      | nil => simp only [List.cons_append, List.nil_append, rangeSorted, hd, if_true, hlt, Bool.false_and,
          Bool.and_false]
      | cons z' l₁ =>
        simp only [List.cons_append] at ih ⊢
        rw [rangeSorted, ih, Bool.and_false]
  rw [pushRangeD, hf]
  rfl

/-! ## Concrete cases -/

/-- The values that a history returns in a debug build. -/
def debugOuts (c : Conf E) (ops : List (PQOp E)) : Dbg (List (Option E)) := do
  let r ← runD c ops
  ok r.1

/-- Did an assertion fail? -/
def hasFailed {α : Type} : Dbg α → Bool
  | failed => true
  | _ => false

theorem failed_of {c : Conf E} {ops : List (PQOp E)} (h : hasFailed (debugOuts c ops) = true) : runD c ops = failed := by
  unfold debugOuts at h
  cases hr : runD c ops with
  | ok r => rw [hr] at h; cases h
  | failed => rfl
  | ub => rw [hr] at h; cases h

/-- A history that goes through merges, moves and new buckets. -/
def sampleOps : List (PQOp ℕ) :=
  [.push 3, .push 5, .push 1, .push 4, .pushRange [9, 7, 2], .top, .pop, .push 8, .decreaseTop 6, .pop, .pop]

example : ∀ track collect, ∀ op ∈ sampleOps, AllowedD (natConf track collect) op := by
  intro track collect op hop
  simp only [sampleOps, List.mem_cons, List.not_mem_nil, or_false] at hop
  rcases hop with rfl | rfl | rfl | rfl | rfl | rfl | rfl | rfl | rfl | rfl | rfl <;> try trivial
  exact ⟨by simp, by simp [natConf, Descending]⟩

#guard match debugOuts (natConf true false) sampleOps with
  | .ok l => l == [none, none, none, none, none, some 9, some 9, none, none, some 7, some 6]
  | _ => false
#guard match debugOuts (natConf false true) sampleOps with
  | .ok l => l == [none, none, none, none, none, some 9, some 9, none, none, some 7, some 6]
  | _ => false
#guard match debugOuts (termConf true true) [.push (1, 2), .push (1, 3), .push (2, 1), .pushRange [(3, 1), (1, 1)], .pop, .pop] with
  | .ok l => l == [none, none, none, none, some (3, 1), some (2, 1)]
  | _ => false
#guard match debugOuts { natConf false true with premerge := false } sampleOps with
  | .ok l => l == [none, none, none, none, none, some 9, some 9, none, none, some 7, some 6]
  | _ => false
#guard hasFailed (debugOuts (natConf true false) [.pop])

/-- C85, counterexample: one entry and `clear` (F19). -/
theorem geobucket_clear_assertions_refuted :
    Sane (natConf true false) ∧ (natConf true false).Lawful ∧
      runD (natConf true false) [.push 1, .clear] = failed ∧
      (impl (natConf true false)).run (impl (natConf true false)).init [.push 1, .clear] ≠ none :=
  ⟨natConf_sane _ _, natConf_lawful _ _, failed_of (by decide +kernel), by
    intro h
    have : (outsOf (natConf true false) [.push 1, .clear]).isNone = true := by simp [outsOf, h]
    revert this
    decide +kernel⟩

/-- C85, counterexample: an empty range (F20), also where the release build goes on without a fault. -/
theorem geobucket_empty_range_assertions_refuted :
    Sane (natConf false false) ∧ (natConf false false).Lawful ∧
      runD (natConf false false) [.push 1, .pushRange []] = failed ∧
      outsOf (natConf false false) [.push 1, .pushRange [], .pop] = some [none, none, some 1] :=
  ⟨natConf_sane _ _, natConf_lawful _ _, failed_of (by decide +kernel), by decide +kernel⟩

/-- A descending range with two equal entries and deduplication: stopped in a debug build only. -/
example :
    Sane (termConf false true) ∧ (termConf false true).Lawful ∧
      runD (termConf false true) [.pushRange [(1, 2), (1, 3)]] = failed ∧
      Descending (termConf false true).lt [(1, 2), (1, 3)] ∧
      (outsOf (termConf false true) [.pushRange [(1, 2), (1, 3)], .top]).isSome = true :=
  ⟨termConf_sane _ _, termConf_lawful _ _, failed_of (by decide +kernel),
    by simp [Descending, termConf, Heap.termConf], by decide +kernel⟩

end Verif.Geobucket
