import Verif.HeapTraceProofs
import Verif.TourTreeTraceProofs
import Verif.PropTourTree

/-!
# C75: the number of comparisons of the heap and the tournament tree

`compared` lists the pairs of entries that a call compares, in order. Nothing is left out of this list, since a
configuration that answers these comparisons alike makes the call do the same (`compared_enough`). The bounds need
nothing of the order: they hold even if `compare` is no order at all, as long as the calls are defined.
-/

namespace Verif.Heap

variable {E : Type*}

/-- What a call of the heap does depends on the order only through the comparisons listed. -/
theorem compared_enough (c c' : PQConf E) (t : List E) (op : PQOp E) (h : c.Agree c' (compared c t op)) :
    step c' t op = step c t op := step_agree t op h

/-- What a history of calls of the heap does depends on the order only through the comparisons listed. -/
theorem history_compared_enough (c c' : PQConf E) (ops : List (PQOp E)) : ∀ t : List E,
    c.Agree c' ((impl c).runCompared (compared c) t ops) → (impl c').run t ops = (impl c).run t ops := by
  induction ops with
  | nil => intro t _; rfl
  | cons op ops ih =>
    intro t h
    simp only [PQImpl.runCompared] at h
    have e : (impl c').step t op = (impl c).step t op := step_agree t op h.left
    simp only [PQImpl.run, e]
    have hr := h.right
    rcases hs : (impl c).step t op with - | ⟨o, t₁⟩
    · rfl
    · rw [hs] at hr
      have := ih t₁ hr
      simp only [this]
      cases (impl c).run t₁ ops <;> rfl

/-- A push into a heap of `n` entries compares at most `log2 (n + 1)` pairs. -/
theorem push_compared (c : PQConf E) (t t' : List E) (e : E) (o : Option E) (h : step c t (.push e) = some (o, t')) :
    (compared c t (.push e)).length ≤ Nat.log 2 (t.length + 1) := by
  rw [step, push_agree t e (.refl c _)] at h
  rcases hp : (pushT c t e).1 with - | t₁
  · rw [hp] at h; cases h
  · exact (pushT_length c t e hp).1

/-- A pop from a heap of `n` entries compares at most `log2 (n - 1)` pairs on the way down, as many on the way up, and as
many again for every entry that it merges into another one. -/
theorem pop_compared (c : PQConf E) (t t' : List E) (o : Option E) (h : step c t .pop = some (o, t')) :
    (compared c t .pop).length ≤ Nat.log 2 (t.length - 1) * (2 + (t.length - 1 - t'.length)) := by
  rw [step, pop_agree t (.refl c _)] at h
  rcases hp : (popT c t).1 with - | ⟨x, t₁⟩
  · rw [hp] at h; cases h
  · rw [hp] at h
    cases h
    obtain ⟨h1, h2⟩ := popT_length c t hp
    have e1 : t.length + 1 = (2 + (t.length - 1 - t₁.length)) + t₁.length := by omega
    rw [e1, Nat.mul_add] at h2
    exact Nat.le_of_add_le_add_right h2

/-- The same for `decreaseTop`. -/
theorem decreaseTop_compared (c : PQConf E) (t t' : List E) (e : E) (o : Option E)
    (h : step c t (.decreaseTop e) = some (o, t')) :
    (compared c t (.decreaseTop e)).length ≤ Nat.log 2 t.length * (2 + (t.length - t'.length)) := by
  rw [step, decreaseTop_agree t e (.refl c _)] at h
  rcases hp : (decreaseTopT c t e).1 with - | t₁
  · rw [hp] at h; cases h
  · rw [hp] at h
    cases h
    obtain ⟨h1, h2⟩ := decreaseTopT_length c t e hp
    have e1 : t.length + 2 = (2 + (t.length - t'.length)) + t'.length := by omega
    rw [e1, Nat.mul_add] at h2
    exact Nat.le_of_add_le_add_right h2

/-- `top` and `clear` compare nothing. -/
theorem top_clear_compared (c : PQConf E) (t : List E) : compared c t .top = [] ∧ compared c t .clear = [] := ⟨rfl, rfl⟩

/-- A history from the empty heap makes at most `2 * log2 N` comparisons for each entry pushed and each entry popped or
replaced, merging included, where `N` is the number of entries ever pushed. -/
theorem history_compared (c : PQConf E) (ops : List (PQOp E)) {outs : List (Option E)} {t : List E}
    (h : (impl c).run (impl c).init ops = some (outs, t)) :
    ((impl c).runCompared (compared c) (impl c).init ops).length ≤
      2 * Nat.log 2 (PQOp.pushes ops) * PQOp.weights ops := by
  have := runCompared_length c (N := PQOp.pushes ops) ops [] h (by simp)
  simp only [List.length_nil, Nat.mul_zero, Nat.zero_add] at this
  exact this

/-! Concrete cases. -/

/-- The hypotheses of `history_compared`, `push_compared` and `pop_compared` are met, with deduplication on. -/
example : ∃ outs t t' t'' o, (impl (termConf true)).run [] [.push (1, 0), .push (5, 1)] = some (outs, t) ∧
    step (termConf true) t (.push (5, 7)) = some (none, t') ∧ step (termConf true) t' .pop = some (o, t'') := by
  have hc := termConf_lawful true
  have hw : (termConf true).Weight (fun e => e.2) := by
    intro _ a b _
    simp [termConf]
  obtain ⟨t1, h1, h2, h3⟩ := push_spec hc hw isHeap_nil (1, 0)
  obtain ⟨t2, g1, g2, g3⟩ := push_spec hc hw h2 (5, 1)
  obtain ⟨t3, f1, f2, f3⟩ := push_spec hc hw g2 (5, 7)
  have e1 : (impl (termConf true)).run (impl (termConf true)).init [.push (1, 0), .push (5, 1), .push (5, 7)] =
      some ([none, none, none], t3) := by
    simp [PQImpl.run, impl, step, h1, g1, f1]
  have hd := (heap_correct (termConf true) hc (fun e => e.2) hw).defined _ _ _ .pop (fun _ _ => trivial) e1 trivial
  have hne : t3 ≠ [] := by
    rintro rfl
    simp only [wsum, List.map_nil, List.sum_nil] at f3
    omega
  rcases hp : step (termConf true) t3 .pop with - | ⟨o, t4⟩
  · exact (hne (hd.mp hp).2).elim
  refine ⟨[none, none], t2, t3, t4, o, ?_, ?_, hp⟩
  · simp [PQImpl.run, impl, step, h1, g1]
  · simp [step, f1]

/-- The hypothesis of `compared_enough` is met by a configuration with another order: the push below compares `3` with
`7` alone, so an order that puts `1` first makes it do the same. -/
example : (termConf false).Agree { termConf false with lt := fun a b => b.1 == 1 || decide (a.1 < b.1) }
    (compared (termConf false) [(7, 0), (1, 0)] (.push (3, 0))) := by
  refine ⟨rfl, rfl, ?_⟩
  have e : compared (termConf false) [(7, 0), (1, 0)] (.push (3, 0)) = [((7, 0), (3, 0))] := by
    show (moveValueUpT _ _ _ _).2 = _
    rw [moveValueUpT_eq]
    simp [climbT, rd, termConf]
  rw [e]
  simp [termConf]

-- The bounds are attained: a push of the largest entry into a heap of 7 climbs 3 levels, a pop from a heap of 13
-- entries goes down 3 levels and compares the last entry with 3 others on the way up.
#guard (compared (termConf false) ([7, 6, 5, 4, 3, 2, 1].map fun n => (n, 0)) (.push (8, 0))).length == 3
#guard (compared (termConf false) ([20, 19, 18, 5, 4, 17, 3, 2, 1, 0, 0, 1, 16].map fun n => (n, 0)) .pop).length == 6
-- A push that merges: the pair found equal is the last one compared.
#guard compared (termConf true) [(7, 0), (6, 0), (5, 0)] (.push (6, 1)) == [((6, 0), (6, 1))]

end Verif.Heap

namespace Verif.TourTree

variable {E : Type}

/-- What a call of the tournament tree does depends on the order only through the comparisons listed. -/
theorem compared_enough (c c' : PQConf E) (s : State E) (op : PQOp E) (h : c.Agree c' (compared c s op)) :
    step c' s op = step c s op := step_agree s op h

/-- What a history of calls of the tournament tree does depends on the order only through the comparisons listed. -/
theorem history_compared_enough (c c' : PQConf E) (ops : List (PQOp E)) : ∀ s : State E,
    c.Agree c' ((impl c).runCompared (compared c) s ops) → (impl c').run s ops = (impl c).run s ops := by
  induction ops with
  | nil => intro s _; rfl
  | cons op ops ih =>
    intro s h
    simp only [PQImpl.runCompared] at h
    have e : (impl c').step s op = (impl c).step s op := step_agree s op h.left
    simp only [PQImpl.run, e]
    have hr := h.right
    rcases hs : (impl c).step s op with - | ⟨o, s₁⟩
    · rfl
    · rw [hs] at hr
      have := ih s₁ hr
      simp only [this]
      cases (impl c).run s₁ ops <;> rfl

/-- In every state that a history from the empty tournament tree can lead to, a call compares at most `log2 N + 1` pairs
for each entry pushed, popped or replaced, where `N` is the number of entries present before the call and entries
pushed by it. -/
theorem call_compared (c : PQConf E) (ops : List (PQOp E)) {outs : List (Option E)} {s : State E}
    (h : (impl c).run (impl c).init ops = some (outs, s)) (op : PQOp E) {o : Option E} {s' : State E}
    (h' : step c s op = some (o, s')) :
    (compared c s op).length ≤ (Nat.log 2 ((impl c).size s + op.pushed.length) + 1) * op.weight := by
  have hs : Shape s := shape_run c ops _ outs s shape_init h
  have := (compared_length c (N := (impl c).size s + op.pushed.length) hs op h' ?_).2.2
  · exact this
  · exact le_refl _

/-- A history from the empty tournament tree makes at most `log2 N + 1` comparisons for each entry pushed and each entry
popped or replaced, where `N` is the number of entries ever pushed. -/
theorem history_compared (c : PQConf E) (ops : List (PQOp E)) {outs : List (Option E)} {s : State E}
    (h : (impl c).run (impl c).init ops = some (outs, s)) :
    ((impl c).runCompared (compared c) (impl c).init ops).length ≤
      (Nat.log 2 (PQOp.pushes ops) + 1) * PQOp.weights ops := by
  have h0 : Shape (init : State E) := shape_init
  refine runCompared_length c (N := PQOp.pushes ops) ops h0 h ?_
  show (init : State E).players.length + _ ≤ _
  simp [init, reallocate]

/-! Concrete cases. -/

/-- The hypotheses of `history_compared` and `call_compared` are met: three pushes, then a pop. -/
example : ∃ outs s s' o, (impl (Heap.termConf false)).run init [.push (1, 0), .push (5, 1), .push (3, 2)] =
    some (outs, s) ∧ step (Heap.termConf false) s .pop = some (o, s') := by
  obtain ⟨s1, h1, h2, h3, _⟩ := push_spec (Heap.termConf false) shape_init (1, 0)
  obtain ⟨s2, g1, g2, g3, _⟩ := push_spec (Heap.termConf false) h2 (5, 1)
  obtain ⟨s3, f1, f2, f3, _⟩ := push_spec (Heap.termConf false) g2 (3, 2)
  obtain ⟨x, s4, _, e1, _⟩ := pop_spec (Heap.termConf false) f2 (by rw [f3]; simp)
  refine ⟨[none, none, none], s3, s4, some x, ?_, ?_⟩
  · simp [PQImpl.run, impl, step, h1, g1, f1]
  · simp [step, e1]

-- Seven pushes compare 14 pairs, four pops 7 more; the bounds are (log2 7 + 1) * 7 = 21 and (log2 7 + 1) * 11 = 33.
#guard ((impl (Heap.termConf false)).runCompared (compared (Heap.termConf false)) init
  ([1, 2, 3, 4, 5, 6, 7].map fun n => .push (n, 0))).length == 14
#guard ((impl (Heap.termConf false)).runCompared (compared (Heap.termConf false)) init
  (([1, 2, 3, 4, 5, 6, 7].map fun n => .push (n, 0)) ++ [.pop, .pop, .pop, .pop])).length == 21
-- The first entry is compared with none, the second with the first, the third with both: it wins twice.
#guard (impl (Heap.termConf false)).runCompared (compared (Heap.termConf false)) init
  ([1, 2, 3].map fun n => .push (n, 0)) == [((1, 0), (2, 0)), ((1, 0), (3, 0)), ((2, 0), (3, 0))]

end Verif.TourTree
