import Verif.GeoThrowProofs

/-!
# C104: comparisons that throw in pushes of `Geobucket`
-/

namespace Verif.Geobucket

variable {E M : Type} [AddCommMonoid M]

/-- A push throws at comparison `i` only if it compares that often, and it compares the new entry with one held. The entry is
not in afterwards, what is held is as before, in the same order, and `size` is one more. -/
theorem push_threw (c : Conf E) (s s' : State E) (e : E) (i : ℕ) (h : pushThrew c s e i = some s') :
    (∃ x ∈ (impl c).entries s, (pushT c s e).2[i]? = some (e, x)) ∧ (impl c).entries s' = (impl c).entries s ∧
      (impl c).size s' = (impl c).size s + 1 := by
  unfold pushThrew at h
  split at h
  · cases h
  · rename_i b hb
    split at h
    · cases h
    · rename_i h1
      simp only [not_or] at h1
      split at h
      · rename_i h2
        obtain rfl := Option.some.inj h
        refine ⟨?_, rfl, rfl⟩
        obtain ⟨rest, hr⟩ := pushT_search (c := c) (e := e) hb h1.1 h1.2
        have hp := searchT_pairs (List.getElem_mem h2)
        refine ⟨_, List.mem_flatMap.mpr ⟨b, List.mem_of_getElem? hb, hp.2⟩, ?_⟩
        rw [hr, List.getElem?_append_left h2, List.getElem?_eq_getElem h2]
        exact congrArg some (Prod.ext hp.1 rfl)
      · cases h

/-- Whenever the first bucket has entries and room for more, the first comparison can throw. -/
theorem push_can_throw (c : Conf E) (s : State E) (e : E) (b : Bucket E) (hb : s.buckets[0]? = some b)
    (hl : b.es.length < b.cap) (hne : b.es ≠ []) : ∃ s', pushThrew c s e 0 = some s' := by
  refine ⟨{ s with count := s.count + 1 }, ?_⟩
  unfold pushThrew
  rw [hb]
  simp only
  rw [if_neg (by rintro (h | h); exacts [by omega, hne h]), if_pos (searchT_asks e hne)]

/-- C104, the part that holds: pushes that throw in the search are as if they had not been made. The calls that return do what a
priority queue does with the entries of the pushes that returned, and a call that needs an entry is undefined only if there is
none. The number of entries is never too small, and too large by at most the number of pushes that threw since the last
`clear`. -/
theorem push_exception_partial (c : Conf E) (hs : Sane c) (hc : c.Lawful) (w : E → M) (hw : c.Weight w)
    (ops : List (XOp E)) (outs : List (Option E)) (s : State E) (ha : ∀ op ∈ XOp.returned ops, Allowed c op)
    (h : runX c (impl c).init ops = some (outs, s)) :
    PQTraceBy (geoMem c) c.lt w [] (XOp.returned ops) (XOp.values ops outs) ((impl c).entries s) ∧
      (∀ op, Allowed c op → ((impl c).step s op = none ↔ op.needsTop ∧ (impl c).entries s = [])) ∧
      ((impl c).entries s).length ≤ (impl c).size s ∧
      (impl c).size s ≤ ((impl c).entries s).length + XOp.pending 0 ops := by
  obtain ⟨t, ht, hl⟩ := runX_like ops 0 (s := (impl c).init) (Like.mk (Nat.le_refl _) (Nat.le_refl _)) h
  have hcor := geobucket_correct c hs hc w hw
  have he : (impl c).entries s = (impl c).entries t := by cases hl; rfl
  rw [he]
  refine ⟨hcor.trace _ _ t ha ht, ?_, ?_⟩
  · intro op hop
    rw [← hcor.defined _ _ t op ha ht hop]
    have hb := step_like (c := c) hl op
    show step c s op = none ↔ step c t op = none
    revert hb
    generalize step c s op = x
    generalize step c t op = y
    intro hb
    cases hb <;> simp
  · have hz := hcor.size_eq _ _ t ha ht
    rw [← hz]
    cases hl with
    | mk g g' => exact ⟨g, g'⟩

/-- `clear` makes the number of entries right again. -/
theorem clear_after_exception (c : Conf E) (hs : Sane c) (hc : c.Lawful) (w : E → M) (hw : c.Weight w)
    (ops : List (XOp E)) (outs : List (Option E)) (s : State E) (ha : ∀ op ∈ XOp.returned ops, Allowed c op)
    (hp : XOp.pending 0 ops = 0) (h : runX c (impl c).init ops = some (outs, s)) :
    (impl c).size s = ((impl c).entries s).length ∧ ((impl c).empty s = true ↔ (impl c).entries s = []) := by
  obtain ⟨-, -, h1, h2⟩ := push_exception_partial c hs hc w hw ops outs s ha h
  rw [hp] at h2
  have hz : (impl c).size s = ((impl c).entries s).length := Nat.le_antisymm h2 h1
  refine ⟨hz, ?_⟩
  show (s.count == 0) = true ↔ _
  rw [beq_iff_eq, show s.count = _ from hz, List.length_eq_zero_iff]

/-- Numbers, with a first bucket for four. -/
def wideConf (track binary : Bool) : Conf ℕ := { natConf track false with minBucketSize := 4, binarySearch := binary }

theorem wideConf_lawful (track binary : Bool) : (wideConf track binary).Lawful := natConf_lawful track false

theorem wideConf_sane (track binary : Bool) : Sane (wideConf track binary) :=
  ⟨by simp [wideConf], by simp [wideConf, natConf], by simp [wideConf, natConf]⟩

/-- C104 is violated: after a push that threw and a pop nothing is held, `empty` says that there is something, `size` is one, and
the next pop is undefined. So a client that pops until `empty` has undefined behaviour. -/
theorem push_exception_refuted (track binary : Bool) : ∃ outs s, Sane (wideConf track binary) ∧ (wideConf track binary).Lawful ∧
    runX (wideConf track binary) (impl (wideConf track binary)).init [.call (.push 5), .threw 7 0, .call .pop] =
      some (outs, s) ∧ outs = [none, none, some 5] ∧
    (impl (wideConf track binary)).entries s = [] ∧ (impl (wideConf track binary)).size s = 1 ∧
    (impl (wideConf track binary)).empty s = false ∧ (impl (wideConf track binary)).step s .pop = none := by
  have h : (runX (wideConf track binary) (impl (wideConf track binary)).init
      [.call (.push 5), .threw 7 0, .call .pop]).map (fun r => (r.1, (impl (wideConf track binary)).entries r.2,
        (impl (wideConf track binary)).size r.2, ((impl (wideConf track binary)).step r.2 .pop).isNone)) =
      some ([none, none, some 5], [], 1, true) := by
    cases track <;> cases binary <;> decide +kernel
  obtain ⟨⟨outs, s⟩, h1, h2⟩ := Option.map_eq_some_iff.mp h
  simp only [Prod.mk.injEq, Option.isNone_iff_eq_none] at h2
  refine ⟨outs, s, wideConf_sane _ _, wideConf_lawful _ _, h1, h2.1, h2.2.1, h2.2.2.1, ?_, h2.2.2.2⟩
  show (s.count == 0) = false
  rw [show s.count = 1 from h2.2.2.1]
  rfl

/-! ## Examples: the hypotheses are met -/

/-- Two pushes that throw, one at the second comparison, among calls that return. -/
def exThrows : List (XOp ℕ) :=
  [.call (.push 5), .call (.push 8), .threw 9 0, .call .top, .threw 3 1, .call (.push 6), .call .pop]

/-- What a history returns, what is held at its end, and `size`. -/
def seenX (c : Conf ℕ) (ops : List (XOp ℕ)) : Option (List (Option ℕ) × List ℕ × ℕ) :=
  (runX c (impl c).init ops).map (fun r => (r.1, (impl c).entries r.2, (impl c).size r.2))

/-- `push_exception_partial` for that history: two entries are held, `size` is four. -/
example : ∃ outs s, runX (wideConf true true) (impl (wideConf true true)).init exThrows = some (outs, s) ∧
    (impl (wideConf true true)).entries s = [5, 6] ∧ (impl (wideConf true true)).size s = 4 ∧
    XOp.pending 0 exThrows = 2 ∧ XOp.values exThrows outs = [none, none, some 8, none, some 8] ∧
    PQTraceBy (geoMem (wideConf true true)) (wideConf true true).lt (fun e => ({e} : Multiset ℕ)) []
      (XOp.returned exThrows) (XOp.values exThrows outs) ((impl (wideConf true true)).entries s) := by
  have h : seenX (wideConf true true) exThrows = some ([none, none, none, some 8, none, none, some 8], [5, 6], 4) := by
    decide +kernel
  obtain ⟨⟨outs, s⟩, h1, h2⟩ := Option.map_eq_some_iff.mp h
  simp only [Prod.mk.injEq] at h2
  refine ⟨outs, s, h1, h2.2.1, h2.2.2, rfl, by rw [h2.1]; rfl, ?_⟩
  refine (push_exception_partial (wideConf true true) (wideConf_sane _ _) (wideConf_lawful _ _)
    (fun e => ({e} : Multiset ℕ)) (fun h => by cases h) exThrows outs s ?_ h1).1
  intro op hop
  simp only [exThrows, XOp.returned, List.mem_cons, List.not_mem_nil, or_false] at hop
  rcases hop with rfl | rfl | rfl | rfl | rfl <;> trivial

/-- `clear_after_exception` for a history with a push that throws. -/
example : ∃ outs s, runX (wideConf false true) (impl (wideConf false true)).init
    [.call (.push 5), .threw 8 0, .call .clear, .call (.push 2)] = some (outs, s) ∧ (impl (wideConf false true)).size s = 1 := by
  have h : seenX (wideConf false true) [.call (.push 5), .threw 8 0, .call .clear, .call (.push 2)] =
      some ([none, none, none, none], [2], 1) := by decide +kernel
  obtain ⟨⟨outs, s⟩, h1, h2⟩ := Option.map_eq_some_iff.mp h
  simp only [Prod.mk.injEq] at h2
  refine ⟨outs, s, h1, ?_⟩
  have := (clear_after_exception (wideConf false true) (wideConf_sane _ _) (wideConf_lawful _ _)
    (fun e => ({e} : Multiset ℕ)) (fun h => by cases h) _ outs s ?_ rfl h1).1
  · rw [this, h2.2.1]
    rfl
  · intro op hop
    simp only [XOp.returned, List.mem_cons, List.not_mem_nil, or_false] at hop
    rcases hop with rfl | rfl | rfl <;> trivial

-- A push into an empty or full first bucket makes no search; the linear search makes one comparison here.
#guard seenX (wideConf true true) [.threw 1 0] == none
#guard seenX (wideConf true false) [.call (.push 5), .call (.push 8), .threw 3 1] == none
#guard seenX (wideConf true true) [.call (.push 5), .call (.push 8), .threw 3 1] == some ([none, none, none], [5, 8], 3)
#guard seenX (wideConf true true) [.call (.push 1), .call (.push 2), .call (.push 3), .call (.push 4), .threw 3 0] == none
#guard seenX (wideConf false true) [.call (.push 5), .threw 8 0, .call .clear, .call (.push 2)]
  == some ([none, none, none, none], [2], 1)

end Verif.Geobucket
