import Verif.GeoStepCostProofs
import Verif.HeapTraceProofs
import Verif.PropGeobucket

/-!
# C87: the number of comparisons of the geobucket

`compared` lists the pairs of entries that a call compares, in order. Nothing is left out of this list, since a configuration
that answers these comparisons alike makes the call do the same (`compared_enough`). A single `push` may compare as many pairs
as there are entries; over a history of calls the comparisons stay below the sum of the charges of its calls.
-/

namespace Verif.Geobucket

variable {E : Type}

/-- What a call of the geobucket does depends on the order only through the comparisons listed. -/
theorem compared_enough (c : Conf E) (o : PQConf E) (s : State E) (op : PQOp E)
    (h : c.toPQConf.Agree o (compared c s op)) : step { c with toPQConf := o } s op = step c s op := step_agree s op h

/-- What a history of calls of the geobucket does depends on the order only through the comparisons listed. -/
theorem history_compared_enough (c : Conf E) (o : PQConf E) (ops : List (PQOp E)) : ∀ s : State E,
    c.toPQConf.Agree o ((impl c).runCompared (compared c) s ops) →
    (impl { c with toPQConf := o }).run s ops = (impl c).run s ops := by
  induction ops with
  | nil => intro s _; rfl
  | cons op ops ih =>
    intro s h
    simp only [PQImpl.runCompared] at h
    have e : (impl { c with toPQConf := o }).step s op = (impl c).step s op := step_agree s op h.left
    simp only [PQImpl.run, e]
    have hr := h.right
    rcases hs : (impl c).step s op with - | ⟨x, s₁⟩
    · rfl
    · rw [hs] at hr
      have := ih s₁ hr
      simp only [this]
      cases (impl c).run s₁ ops <;> rfl

/-- A `top` or a `pop` compares fewer pairs than there are buckets. -/
theorem top_pop_compared (c : Conf E) (hs : Sane c) (hc : c.Lawful) (ops : List (PQOp E)) (ha : ∀ op ∈ ops, Allowed c op)
    {outs : List (Option E)} {s : State E} (h : (impl c).run (impl c).init ops = some (outs, s)) {op : PQOp E}
    (hop : op = .top ∨ op = .pop) {o : Option E} {s' : State E} (h' : step c s op = some (o, s')) :
    (compared c s op).length + 1 ≤ s.buckets.length := by
  have hw : c.Weight (fun _ => (0 : ℕ)) := fun _ _ _ _ => rfl
  have hi := reach hs hc hw ops _ _ _ (init_ok hs _).1 ha h
  obtain ⟨-, hsl, -⟩ := run_costs hs hc hw ops _ _ _ (init_ok hs _).1 init_start.1 ha h
  have hpos := hi.good.data.length_pos
  rw [step_eq] at h'
  have key : (compared c s op).length ≤ s.buckets.length - 1 := by
    rcases hop with rfl | rfl
    · exact topStep_costs s _ h'
    · exact popStep_costs s hsl _ h'
  omega

/-- The number of buckets after a history from the empty geobucket is logarithmic in the number of entries ever pushed. -/
theorem buckets_bound (c : Conf E) (hs : Sane c) (hc : c.Lawful) (ops : List (PQOp E)) (ha : ∀ op ∈ ops, Allowed c op)
    {outs : List (Option E)} {s : State E} (h : (impl c).run (impl c).init ops = some (outs, s)) :
    s.buckets.length ≤ Nat.log c.geoBase (c.insertFactor * PQOp.pushes ops / c.minBucketSize) + 2 := by
  have hw : c.Weight (fun _ => (0 : ℕ)) := fun _ _ _ _ => rfl
  obtain ⟨h1, h2, h3, h4⟩ := init_start (c := c)
  obtain ⟨-, -, k2, -⟩ := run_costs hs hc hw ops _ _ _ (init_ok hs _).1 h1 ha h
  have k := k2 (c.insertFactor * PQOp.pushes ops) (h2 _) (by rw [h4, Nat.zero_add])
  by_contra hlt
  have hk := k (s.buckets.length - 2) (by omega)
  have h5 : c.geoBase ^ (s.buckets.length - 2) ≤ c.insertFactor * PQOp.pushes ops / c.minBucketSize := by
    rw [Nat.le_div_iff_mul_le hs.min, Nat.mul_comm]
    exact hk.le
  have h6 := Nat.le_log_of_pow_le hs.base h5
  omega

/-- The comparisons of a history from the empty geobucket are at most the charges of its calls, with `K` the number of buckets
in the end. -/
theorem history_compared_buckets (c : Conf E) (hs : Sane c) (hc : c.Lawful) (ops : List (PQOp E))
    (ha : ∀ op ∈ ops, Allowed c op)
    {outs : List (Option E)} {s : State E} (h : (impl c).run (impl c).init ops = some (outs, s)) :
    ((impl c).runCompared (compared c) (impl c).init ops).length ≤ charges c s.buckets.length ops := by
  have hw : c.Weight (fun _ => (0 : ℕ)) := fun _ _ _ _ => rfl
  obtain ⟨h1, h2, h3, h4⟩ := init_start (c := c)
  obtain ⟨-, -, -, k3⟩ := run_costs hs hc hw ops _ _ _ (init_ok hs _).1 h1 ha h
  have := k3 _ le_rfl
  rw [h3] at this
  omega

/-- The same with the number of buckets replaced by its bound: with `N` entries ever pushed, each entry is charged a number of
comparisons that is logarithmic in `N`. -/
theorem history_compared (c : Conf E) (hs : Sane c) (hc : c.Lawful) (ops : List (PQOp E)) (ha : ∀ op ∈ ops, Allowed c op)
    {outs : List (Option E)} {s : State E} (h : (impl c).run (impl c).init ops = some (outs, s)) :
    ((impl c).runCompared (compared c) (impl c).init ops).length ≤
      charges c (Nat.log c.geoBase (c.insertFactor * PQOp.pushes ops / c.minBucketSize) + 2) ops :=
  (history_compared_buckets c hs hc ops ha h).trans (charges_mono (buckets_bound c hs hc ops ha h) ops)

/-! Concrete cases. -/

/-- The hypotheses of the theorems on histories are met, with deduplication and a tracked front. -/
example : ∃ outs s s' o, Sane (termConf true true) ∧ (termConf true true).Lawful ∧
    (∀ op ∈ ([.push (1, 0), .pushRange [(5, 1), (5, 2), (3, 1)]] : List (PQOp (ℕ × ℕ))), Allowed (termConf true true) op) ∧
    (impl (termConf true true)).run (impl (termConf true true)).init [.push (1, 0), .pushRange [(5, 1), (5, 2), (3, 1)]] =
      some (outs, s) ∧ step (termConf true true) s .pop = some (o, s') := by
  have hc := termConf_lawful true true
  have hs := termConf_sane true true
  have hw : (termConf true true).Weight (fun e => e.2) := by
    intro _ a b _
    simp [termConf, Heap.termConf]
  have ha : Descending (termConf true true).lt [(5, 1), (5, 2), (3, 1)] := by decide
  obtain ⟨s1, h1, h2⟩ := push_ok hs hc hw (init_ok hs _).1 (1, 0)
  obtain ⟨s2, g1, g2⟩ := pushRange_ok hs hc hw h2 ha (by simp)
  have hne : flat s2.buckets ≠ [] := by
    intro he
    have := g2.total
    rw [he] at this
    simp [wsum] at this
  obtain ⟨x, s3, s4, T', q1, -⟩ := pop_ok hc hw g2 hne
  refine ⟨[none, none], s2, s3, some x, hs, hc, ?_, ?_, ?_⟩
  · intro op hop
    simp only [List.mem_cons, List.not_mem_nil, or_false] at hop
    rcases hop with rfl | rfl
    · trivial
    · exact ⟨ha, by simp⟩
  · have e1 : step (termConf true true) (impl (termConf true true)).init (.push (1, 0)) = some (none, s1) := by
      simp only [step, h1]
      rfl
    have e2 : step (termConf true true) s1 (.pushRange [(5, 1), (5, 2), (3, 1)]) = some (none, s2) := by
      simp only [step, g1]
      rfl
    have e : (impl (termConf true true)).step = step (termConf true true) := rfl
    simp only [PQImpl.run, e, e1, e2]
  · simp only [step, q1]
    rfl

/-- A state of two buckets that hold `1` and `5, 2`. -/
def twoBuckets : State ℕ := ⟨[⟨1, [1], none⟩, ⟨2, [2, 5], none⟩], 3, ⟨none, [], 0, []⟩⟩

/-- The hypothesis of `compared_enough` is met by a configuration with another order: the call of `top` compares `5` with `1`
alone, so an order that puts `2` first makes it do the same. -/
example : (natConf false false).toPQConf.Agree
    { (natConf false false).toPQConf with lt := fun a b => b == 2 || decide (a < b) }
    (compared (natConf false false) twoBuckets .top) := by
  refine ⟨rfl, rfl, ?_⟩
  have e : compared (natConf false false) twoBuckets .top = [(5, 1)] := by decide +kernel
  rw [e]
  simp [natConf]

/-- The numbers of buckets and of comparisons of one more call, after a history from the empty geobucket. -/
def lengthsOf (c : Conf ℕ) (ops : List (PQOp ℕ)) (op : PQOp ℕ) : Option (ℕ × ℕ) :=
  ((impl c).run (impl c).init ops).map fun r => (r.2.buckets.length, (compared c r.2 op).length)

/-- The comparisons of a history from the empty geobucket. -/
def totalOf (c : Conf ℕ) (ops : List (PQOp ℕ)) : ℕ := ((impl c).runCompared (compared c) (impl c).init ops).length

-- The bound on `pop` is attained: 4 comparisons with 5 buckets.
#guard lengthsOf (natConf false false) ((List.range 16).map .push) .pop == some (5, 4)
-- A tracked front has compared before.
#guard lengthsOf (natConf true false) ((List.range 16).map .push) .pop == some (5, 0)
-- A single push may compare as many pairs as there are entries: it moves 15 entries through the buckets.
#guard lengthsOf { natConf false false with premerge := false } ((List.range 15).map .push) (.push 3) == some (4, 18)
-- The comparisons of a whole history, and the bound on them.
#guard totalOf (natConf false false) ((List.range 16).map .push) == 17
#guard totalOf (natConf true false) ((List.range 16).map .push) == 59
#guard charges (natConf true false) (Nat.log 2 16 + 2) ((List.range 16).map .push) == 480

/-- C87: a merge compares nothing with an empty list, else less than the number of entries, and each time an entry of the first
list with one of the second. -/
theorem merge_compared (c : Conf E) (l₁ l₂ : List E) :
    (l₁ = [] ∨ l₂ = [] → (mergeT c l₁ l₂).2 = []) ∧
    (l₁ ≠ [] → l₂ ≠ [] → (mergeT c l₁ l₂).2.length < l₁.length + l₂.length) ∧
    ∀ p ∈ (mergeT c l₁ l₂).2, p.1 ∈ l₁ ∧ p.2 ∈ l₂ := mergeT_pairs l₁ l₂

#guard (mergeT (termConf true true) [] [(5, 1), (3, 1)]).2 = []
#guard (mergeT (termConf true true) [(1, 0), (4, 0)] [(5, 1), (3, 1)]).2.length < 4

end Verif.Geobucket
