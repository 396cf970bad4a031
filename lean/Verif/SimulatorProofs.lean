import Verif.SimulatorSpec

/-!
# Lemmas on the simulator of queues
-/

namespace Verif.PQSim

theorem Spec.run_append (a b : List SimOp) : ∀ S : Finset ℕ,
    Spec.run S (a ++ b) = (Spec.run S a).bind (fun r => (Spec.run r.2 b).map (fun q => (r.1 ++ q.1, q.2))) := by
  induction a with
  | nil =>
    intro S
    simp [Spec.run]
  | cons op a ih =>
    intro S
    simp only [List.cons_append, Spec.run]
    cases Spec.step S op with
    | none => rfl
    | some r =>
      obtain ⟨o, S'⟩ := r
      simp only [ih S']
      cases Spec.run S' a with
      | none => rfl
      | some q =>
        simp only [Option.bind_some, Option.map_some, Option.map_map]
        cases Spec.run q.2 b <;> rfl

namespace Sim

/-- The call that an event makes. -/
def opOf (mem : List ℕ) (e : Event) : SimOp :=
  if e.size = 0 then .pop else .push ((mem.drop (e.begin.getD 0)).take e.size)

/-- The value that an event expects. -/
def expected (e : Event) : Option ℕ := if e.size = 0 then e.popValue else none

/-- All that the event reads has been assigned and is within bounds. -/
def EventOk (mem : List ℕ) (e : Event) : Prop :=
  if e.size = 0 then e.popValue.isSome = true else ∃ b, e.begin = some b ∧ b + e.size ≤ mem.length

/-! ## Running -/

theorem runEvents_of_run (Q : Queue) (mem : List ℕ) (es : List Event) : ∀ (s s' : Q.State) (rest : List SimOp)
    (outs : List (Option ℕ)), (∀ e ∈ es, EventOk mem e) →
    Q.run s (es.map (opOf mem) ++ rest) = some (es.map expected ++ outs, s') →
    ∃ s₁, runEvents Q mem es s = some (.pass s₁) ∧ Q.run s₁ rest = some (outs, s') := by
  induction es with
  | nil =>
    intro s s' rest outs _ h
    exact ⟨s, rfl, h⟩
  | cons e es ih =>
    intro s s' rest outs hok h
    have he := hok e (by simp)
    have hes := fun e he => hok e (List.mem_cons_of_mem _ he)
    simp only [List.map_cons, List.cons_append, Queue.run] at h
    split at h
    · cases h
    · rename_i o s₂ hstep
      simp only [Option.map_eq_some_iff, Prod.mk.injEq, List.cons.injEq] at h
      obtain ⟨⟨q1, q2⟩, hq, ⟨ho, hq1⟩, hq2⟩ := h
      simp only at hq1 hq2
      subst hq1 hq2
      obtain ⟨s₁, h1, h2⟩ := ih s₂ q2 rest outs hes hq
      refine ⟨s₁, ?_, h2⟩
      have hev : runEvent Q mem e s = some (.pass s₂) := by
        unfold EventOk at he
        unfold opOf at hstep
        unfold expected at ho
        unfold runEvent
        by_cases hz : e.size = 0
        · rw [if_pos hz] at he hstep ho ⊢
          simp only [Queue.step, Option.map_eq_some_iff, Prod.mk.injEq] at hstep
          obtain ⟨⟨item, s₃⟩, hp, hi, hs⟩ := hstep
          simp only at hi hs
          subst hs
          rw [hp]
          rw [ho] at hi
          simp only [← hi, if_true]
        · rw [if_neg hz] at he hstep ho ⊢
          obtain ⟨b, hb, hle⟩ := he
          simp only [Queue.step, Option.map_eq_some_iff, Prod.mk.injEq, hb, Option.getD_some] at hstep
          obtain ⟨s₃, hp, _, hs⟩ := hstep
          subst hs
          simp only [hb, if_pos hle, hp, Option.map_some]
      simp only [runEvents, hev, h1]

theorem run_of_run (Q : Queue) (sim : Simulation) (hok : ∀ e ∈ sim.events, EventOk sim.mem e) (n : ℕ) :
    ∀ s s' : Q.State, Q.run s (List.replicate n (sim.events.map (opOf sim.mem))).flatten =
      some ((List.replicate n (sim.events.map expected)).flatten, s') →
    run Q sim n s = some (.pass s') := by
  induction n with
  | zero =>
    intro s s' h
    simp only [List.replicate_zero, List.flatten_nil, Queue.run, Option.some.injEq, Prod.mk.injEq, true_and] at h
    simp only [run, h]
  | succ n ih =>
    intro s s' h
    simp only [List.replicate_succ, List.flatten_cons] at h
    obtain ⟨s₁, h1, h2⟩ := runEvents_of_run Q sim.mem sim.events s s' _ _ hok h
    simp only [run, h1, ih s₁ s' h2]

theorem spec_replicate {ops : List SimOp} {outs : List (Option ℕ)} (h : Spec.run ∅ ops = some (outs, ∅)) (n : ℕ) :
    Spec.run ∅ (List.replicate n ops).flatten = some ((List.replicate n outs).flatten, ∅) := by
  induction n with
  | zero => rfl
  | succ n ih =>
    simp only [List.replicate_succ, List.flatten_cons, Spec.run_append, h, Option.bind_some, ih, Option.map_some]

theorem fair_of {sim : Simulation} (hok : ∀ e ∈ sim.events, EventOk sim.mem e)
    (hal : ∀ e ∈ sim.events, (opOf sim.mem e).Allowed)
    (hrun : Spec.run ∅ (sim.events.map (opOf sim.mem)) = some (sim.events.map expected, ∅)) : sim.Fair := by
  intro Q hQ n
  have h := hQ (List.replicate n (sim.events.map (opOf sim.mem))).flatten (by
    intro op hop
    simp only [List.mem_flatten, List.mem_replicate] at hop
    obtain ⟨l, ⟨_, rfl⟩, hop⟩ := hop
    simp only [List.mem_map] at hop
    obtain ⟨e, he, rfl⟩ := hop
    exact hal e he)
  rw [spec_replicate hrun, Option.map_some] at h
  simp only [Option.map_eq_some_iff, Prod.mk.injEq, decide_true] at h
  obtain ⟨⟨o, s⟩, hs, ho, he⟩ := h
  simp only at ho he
  subst ho
  exact ⟨s, run_of_run Q sim hok n _ _ hs, he⟩

/-! ## Building -/

/-- What a builder has made so far, where `P` holds of the ranges it has pushed. -/
structure Inv (P : List ℕ → Prop) (b : Builder) : Prop where
  dups : b.popDuplicates = true
  push : b.push = []
  sorted : b.queue.Pairwise (· ≤ ·)
  ok : ∀ e ∈ b.events, EventOk b.mem e
  allowed : ∀ e ∈ b.events, (opOf b.mem e).Allowed
  run : Spec.run ∅ (b.events.map (opOf b.mem)) = some (b.events.map expected, b.queue.toFinset)
  count : b.pushCount = (Simulation.mk b.mem b.events).pushed.length
  sum : b.pushSum = (Simulation.mk b.mem b.events).traffic
  good : ∀ l ∈ (Simulation.mk b.mem b.events).pushed, P l

theorem Inv.init (P : List ℕ → Prop) : Inv P (.init true) :=
  ⟨rfl, rfl, List.Pairwise.nil, by simp [Builder.init], by simp [Builder.init], rfl, rfl, rfl,
    by simp [Builder.init, Simulation.pushed]⟩

theorem popLoop_eq (top : ℕ) (l : List ℕ) : ∀ x, Builder.popLoop true top (x :: l) = l.dropWhile (· == top) := by
  induction l with
  | nil =>
    intro x
    rfl
  | cons v l ih =>
    intro x
    rw [Builder.popLoop]
    by_cases hv : v = top
    · simp only [hv, Bool.true_and, beq_self_eq_true, if_true]
      rw [ih, List.dropWhile_cons_of_pos (by simp)]
    · rw [List.dropWhile_cons_of_neg (by simpa using hv)]
      simp [hv]

theorem mem_dropWhile {top : ℕ} {l : List ℕ} (hs : l.Pairwise (fun a b => b ≤ a)) (hle : ∀ x ∈ l, x ≤ top) (v : ℕ) :
    v ∈ l.dropWhile (· == top) ↔ v ≠ top ∧ v ∈ l := by
  induction l with
  | nil => simp
  | cons x l ih =>
    rw [List.pairwise_cons] at hs
    by_cases hx : x = top
    · rw [List.dropWhile_cons_of_pos (by simpa using hx), ih hs.2 (fun y hy => hle y (List.mem_cons_of_mem _ hy))]
      simp only [List.mem_cons, hx]
      tauto
    · rw [List.dropWhile_cons_of_neg (by simpa using hx)]
      constructor
      · intro hv
        refine ⟨?_, hv⟩
        rintro rfl
        rcases List.mem_cons.mp hv with h | h
        · exact hx h.symm
        · have h1 := hs.1 _ h
          have h2 := hle x (by simp)
          omega
      · exact And.right

theorem Inv.pop {P : List ℕ → Prop} {b : Builder} (h : Inv P b) (hne : b.queue ≠ []) :
    ∃ b', b.pop = some (.ok b') ∧ Inv P b' ∧ b'.pushCount = b.pushCount ∧ b'.pushSum = b.pushSum := by
  obtain ⟨q, top, hq⟩ : ∃ q top, b.queue = q ++ [top] :=
    ⟨_, _, (List.dropLast_concat_getLast hne).symm⟩
  have hlast : b.queue.getLast? = some top := by rw [hq]; simp
  have hsort := h.sorted
  rw [hq, List.pairwise_append] at hsort
  have hle : ∀ x ∈ q, x ≤ top := fun x hx => hsort.2.2 x hx top (by simp)
  have hrev : q.reverse.Pairwise (fun a b => b ≤ a) := List.pairwise_reverse.mpr hsort.1
  have hloop : Builder.popLoop b.popDuplicates top b.queue.reverse = q.reverse.dropWhile (· == top) := by
    rw [h.dups, hq, List.reverse_append, List.reverse_singleton, List.singleton_append, popLoop_eq]
  have hmem : ∀ v, v ∈ (q.reverse.dropWhile (· == top)) ↔ v ≠ top ∧ v ∈ q := by
    intro v
    rw [mem_dropWhile hrev (fun x hx => hle x (List.mem_reverse.mp hx)), List.mem_reverse]
  have hpop : b.pop = some (.ok { b with
      liveCountSum := b.liveCountSum + b.liveCount
      popCount := b.popCount + 1
      queue := (Builder.popLoop b.popDuplicates top b.queue.reverse).reverse
      events := b.events ++ [⟨none, 0, some top⟩] }) := by
    simp only [Builder.pop, hlast]
  refine ⟨_, hpop, ?_, rfl, rfl⟩
  rw [hloop]
  have hpush : (Simulation.mk b.mem (b.events ++ [⟨none, 0, some top⟩])).pushed = (Simulation.mk b.mem b.events).pushed := by
    simp [Simulation.pushed]
  refine ⟨h.dups, h.push, ?_, ?_, ?_, ?_, ?_, ?_, ?_⟩
  · exact List.pairwise_reverse.mpr (hrev.sublist (List.dropWhile_sublist _))
  · intro e he
    rcases List.mem_append.mp he with he | he
    · exact h.ok e he
    · rw [List.mem_singleton] at he
      subst he
      simp [EventOk]
  · intro e he
    rcases List.mem_append.mp he with he | he
    · exact h.allowed e he
    · rw [List.mem_singleton] at he
      subst he
      simp [opOf, SimOp.Allowed]
  · show Spec.run ∅ ((b.events ++ [Event.mk none 0 (some top)]).map (opOf b.mem)) = _
    have hfin : b.queue.toFinset.Nonempty := ⟨top, by rw [hq]; simp⟩
    have hmax : b.queue.toFinset.max' hfin = top := by
      apply le_antisymm
      · apply Finset.max'_le
        intro y hy
        rw [List.mem_toFinset, hq, List.mem_append, List.mem_singleton] at hy
        rcases hy with hy | rfl
        · exact hle y hy
        · exact le_refl _
      · apply Finset.le_max'
        rw [List.mem_toFinset, hq]
        simp
    rw [List.map_append, Spec.run_append, h.run, Option.bind_some]
    have hop : opOf b.mem ⟨none, 0, some top⟩ = .pop := rfl
    simp only [List.map_cons, List.map_nil, hop, Spec.run, Spec.step, dif_pos hfin, hmax, Option.map_some,
      List.map_append, expected, if_true]
    congr 2
    ext v
    rw [Finset.mem_erase, List.mem_toFinset, List.mem_toFinset, List.mem_reverse, hmem, hq]
    simp only [List.mem_append, List.mem_singleton]
    tauto
  · show b.pushCount = (Simulation.mk b.mem (b.events ++ [⟨none, 0, some top⟩])).pushed.length
    rw [hpush]
    exact h.count
  · show b.pushSum = (Simulation.mk b.mem (b.events ++ [⟨none, 0, some top⟩])).traffic
    rw [Simulation.traffic, hpush]
    exact h.sum
  · show ∀ l ∈ (Simulation.mk b.mem (b.events ++ [⟨none, 0, some top⟩])).pushed, P l
    rw [hpush]
    exact h.good

/-- The state between `beginPush` and `endPush`, with the values `l` added. -/
structure Adding (b₀ : Builder) (l : List ℕ) (b : Builder) : Prop where
  dups : b.popDuplicates = b₀.popDuplicates
  push : ∀ v, v ∈ b.push ↔ v ∈ l
  nodup : l.Nodup
  sorted : b.queue.Pairwise (· ≤ ·)
  queue : ∀ v, v ∈ b.queue ↔ v ∈ b₀.queue ∨ v ∈ l
  mem : b.mem = b₀.mem ++ l
  events : b.events = b₀.events ++ [⟨some b₀.mem.length, 0, none⟩]
  count : b.pushCount = b₀.pushCount
  sum : b.pushSum = b₀.pushSum

theorem Adding.begin {P : List ℕ → Prop} {b : Builder} (h : Inv P b) : Adding b [] b.beginPush :=
  ⟨rfl, by simp [Builder.beginPush, h.push], List.nodup_nil, h.sorted, by simp [Builder.beginPush],
    by simp [Builder.beginPush], rfl, rfl, rfl⟩

theorem Adding.add {b₀ b : Builder} {l : List ℕ} (h : Adding b₀ l b) {v : ℕ} (hv : b.isInPush v = false) :
    Adding b₀ (l ++ [v]) (b.addToPush v) := by
  have hn : v ∉ l := by
    rw [← h.push]
    simpa [Builder.isInPush] using hv
  refine ⟨h.dups, ?_, ?_, ?_, ?_, ?_, h.events, h.count, h.sum⟩
  · intro w
    simp only [Builder.addToPush, List.mem_cons, h.push, List.mem_append, List.not_mem_nil, or_false]
    tauto
  · rw [List.nodup_append]
    refine ⟨h.nodup, by simp, ?_⟩
    intro a ha c hc
    rw [List.mem_singleton] at hc
    subst hc
    rintro rfl
    exact hn ha
  · exact h.sorted.orderedInsert _ _
  · intro w
    simp only [Builder.addToPush, List.mem_orderedInsert, h.queue, List.mem_append, List.mem_singleton]
    tauto
  · simp [Builder.addToPush, h.mem]

theorem opOf_append {mem l : List ℕ} {e : Event} (h : EventOk mem e) : opOf (mem ++ l) e = opOf mem e := by
  unfold EventOk at h
  unfold opOf
  by_cases hz : e.size = 0
  · simp only [if_pos hz]
  · rw [if_neg hz] at h
    obtain ⟨b, hb, hle⟩ := h
    simp only [if_neg hz, hb, Option.getD_some]
    rw [List.drop_append_of_le_length (by omega), List.take_append_of_le_length (by rw [List.length_drop]; omega)]

theorem EventOk.append {mem l : List ℕ} {e : Event} (h : EventOk mem e) : EventOk (mem ++ l) e := by
  unfold EventOk at h ⊢
  by_cases hz : e.size = 0
  · rw [if_pos hz] at h ⊢
    exact h
  · rw [if_neg hz] at h ⊢
    obtain ⟨b, hb, hle⟩ := h
    exact ⟨b, hb, by rw [List.length_append]; omega⟩

/-- The range that a call pushes. -/
def rangeOf : SimOp → Option (List ℕ)
  | .push l => some l
  | .pop => none

theorem pushed_eq (sim : Simulation) : sim.pushed = (sim.events.map (opOf sim.mem)).filterMap rangeOf := by
  rw [Simulation.pushed, List.filterMap_map]
  congr 1
  funext e
  simp only [Function.comp_apply, opOf]
  by_cases hz : e.size = 0
  · simp only [if_pos hz, rangeOf]
  · simp only [if_neg hz, rangeOf]

theorem Adding.done {P : List ℕ → Prop} {b₀ b : Builder} {l : List ℕ} (h₀ : Inv P b₀) (h : Adding b₀ l b)
    (hne : l ≠ []) (hP : P (l.insertionSort (· ≥ ·))) :
    ∃ b', b.endPush = some (.ok b') ∧ Inv P b' ∧ b'.pushCount = b₀.pushCount + 1 ∧
      b'.pushSum = b₀.pushSum + l.length ∧ b'.queue ≠ [] := by
  have hlen : l.length ≠ 0 := fun h => hne (List.length_eq_zero_iff.mp h)
  have hlast : b.events.getLast? = some ⟨some b₀.mem.length, 0, none⟩ := by rw [h.events]; simp
  have hend : b.endPush = some (.ok { b with
      events := b.events.dropLast ++ [⟨some b₀.mem.length, b.mem.length - b₀.mem.length, none⟩]
      mem := b.mem.take b₀.mem.length ++ (b.mem.drop b₀.mem.length).insertionSort (· ≥ ·)
      pushCount := b.pushCount + 1
      pushSum := b.pushSum + (b.mem.length - b₀.mem.length)
      push := [] }) := by
    simp only [Builder.endPush, hlast]
  refine ⟨_, hend, ?_, ?_, ?_, ?_⟩
  · have hsz : b.mem.length - b₀.mem.length = l.length := by rw [h.mem, List.length_append]; omega
    have hmem : b.mem.take b₀.mem.length ++ (b.mem.drop b₀.mem.length).insertionSort (· ≥ ·) =
        b₀.mem ++ l.insertionSort (· ≥ ·) := by
      rw [h.mem, List.take_left', List.drop_left'] <;> rfl
    have hev : b.events.dropLast = b₀.events := by rw [h.events, List.dropLast_concat]
    rw [hsz, hmem, hev]
    have hlast' : opOf (b₀.mem ++ l.insertionSort (· ≥ ·)) ⟨some b₀.mem.length, l.length, none⟩ =
        .push (l.insertionSort (· ≥ ·)) := by
      simp only [opOf, if_neg hlen, Option.getD_some]
      rw [List.drop_left', List.take_of_length_le (by rw [List.length_insertionSort])]
      rfl
    have hops : (b₀.events ++ [Event.mk (some b₀.mem.length) l.length none]).map (opOf (b₀.mem ++ l.insertionSort (· ≥ ·))) =
        b₀.events.map (opOf b₀.mem) ++ [.push (l.insertionSort (· ≥ ·))] := by
      rw [List.map_append, List.map_cons, List.map_nil, hlast']
      congr 1
      apply List.map_congr_left
      intro e he
      exact opOf_append (h₀.ok e he)
    have hpushed : (Simulation.mk (b₀.mem ++ l.insertionSort (· ≥ ·))
        (b₀.events ++ [⟨some b₀.mem.length, l.length, none⟩])).pushed =
        (Simulation.mk b₀.mem b₀.events).pushed ++ [l.insertionSort (· ≥ ·)] := by
      rw [pushed_eq, pushed_eq]
      show List.filterMap rangeOf (List.map (opOf _) (_ ++ _)) = _
      rw [hops, List.filterMap_append]
      rfl
    refine ⟨h.dups.trans h₀.dups, rfl, h.sorted, ?_, ?_, ?_, ?_, ?_, ?_⟩
    · intro e he
      rcases List.mem_append.mp he with he | he
      · exact (h₀.ok e he).append
      · rw [List.mem_singleton] at he
        subst he
        simp only [EventOk, if_neg hlen]
        exact ⟨_, rfl, by rw [List.length_append, List.length_insertionSort]⟩
    · intro e he
      rcases List.mem_append.mp he with he | he
      · show (opOf (b₀.mem ++ _) e).Allowed
        rw [opOf_append (h₀.ok e he)]
        exact h₀.allowed e he
      · rw [List.mem_singleton] at he
        subst he
        show (opOf (b₀.mem ++ _) _).Allowed
        rw [hlast']
        refine ⟨?_, List.pairwise_insertionSort (· ≥ ·) l⟩
        intro hc
        apply hlen
        rw [← List.length_insertionSort (· ≥ ·) l, hc]
        rfl
    · show Spec.run ∅ (List.map (opOf (b₀.mem ++ _)) (b₀.events ++ _)) = _
      rw [hops, Spec.run_append, h₀.run, Option.bind_some]
      simp only [Spec.run, Spec.step, Option.map_some, List.map_append, List.map_cons, List.map_nil, expected,
        if_neg hlen]
      congr 2
      ext v
      rw [Finset.mem_union, List.mem_toFinset, List.mem_toFinset, List.mem_toFinset, List.mem_insertionSort, h.queue]
    · show b.pushCount + 1 = (Simulation.mk (b₀.mem ++ _) _).pushed.length
      rw [hpushed, List.length_append, h.count, h₀.count]
      rfl
    · show b.pushSum + l.length = (Simulation.mk (b₀.mem ++ _) _).traffic
      rw [Simulation.traffic, hpushed, List.map_append, List.sum_append, h.sum, h₀.sum, Simulation.traffic]
      simp [List.length_insertionSort]
    · show ∀ x ∈ (Simulation.mk (b₀.mem ++ _) _).pushed, P x
      rw [hpushed]
      intro x hx
      rcases List.mem_append.mp hx with hx | hx
      · exact h₀.good x hx
      · rw [List.mem_singleton] at hx
        subst hx
        exact hP
  · show b.pushCount + 1 = _
    rw [h.count]
  · show b.pushSum + (b.mem.length - b₀.mem.length) = _
    rw [h.sum, h.mem, List.length_append]
    omega
  · obtain ⟨x, l, rfl⟩ := List.exists_cons_of_ne_nil hne
    intro hc
    have hx := (h.queue x).mpr (Or.inr (by simp))
    have hc' : b.queue = [] := hc
    rw [hc'] at hx
    cases hx

/-- Values that may be drawn: not twice in one push. -/
def Picks (pick : ℕ → Builder → ℕ → Option (Out (ℕ × ℕ))) : Prop :=
  ∀ k b i r, pick k b i = some r → ∃ v j, r = .ok (v, j) ∧ b.isInPush v = false

theorem fill_ok {pick : ℕ → Builder → ℕ → Option (Out (ℕ × ℕ))} (hp : Picks pick) {b₀ : Builder} (n : ℕ) :
    ∀ k b i l r, Adding b₀ l b → fill pick n k b i = some r →
    ∃ l' b' j, r = .ok (b', j) ∧ Adding b₀ l' b' ∧ l'.length = l.length + n := by
  induction n with
  | zero =>
    intro k b i l r h hr
    simp only [fill, Option.some.injEq] at hr
    exact ⟨l, b, i, hr.symm, h, rfl⟩
  | succ n ih =>
    intro k b i l r h hr
    rw [fill] at hr
    cases hpk : pick k b i with
    | none =>
      rw [hpk] at hr
      cases hr
    | some o =>
      obtain ⟨v, j, rfl, hv⟩ := hp k b i o hpk
      rw [hpk] at hr
      obtain ⟨l', b', j', h1, h2, h3⟩ := ih (k + 1) _ j (l ++ [v]) r (h.add hv) hr
      refine ⟨l', b', j', h1, h2, ?_⟩
      rw [h3, List.length_append, List.length_singleton]
      omega

theorem pushSpan_ok {pick : ℕ → Builder → ℕ → Option (Out (ℕ × ℕ))} (hp : Picks pick) {P : List ℕ → Prop}
    {b : Builder} (h : Inv P b) {size i : ℕ} (hsize : size ≠ 0) (hP : ∀ l : List ℕ, l.Nodup → l.length = size → P l)
    {r : Out (Builder × ℕ)} (hr : pushSpan pick size b i = some r) :
    ∃ b' j, r = .ok (b', j) ∧ Inv P b' ∧ b'.pushCount = b.pushCount + 1 ∧ b'.pushSum = b.pushSum + size ∧
      b'.queue ≠ [] := by
  rw [pushSpan] at hr
  cases hf : fill pick size 0 b.beginPush i with
  | none =>
    rw [hf] at hr
    cases hr
  | some o =>
    obtain ⟨l, b₁, j, rfl, hadd, hl⟩ := fill_ok hp size 0 _ i [] o (Adding.begin h) hf
    rw [hf] at hr
    have hl' : l.length = size := by simpa using hl
    obtain ⟨b', h1, h2, h3, h4, h5⟩ := hadd.done h (by
      rintro rfl
      exact hsize hl'.symm) (hP _ ((List.perm_insertionSort _ l).nodup_iff.mpr hadd.nodup)
        (by rw [List.length_insertionSort, hl']))
    simp only [andThen, h1, Option.some.injEq] at hr
    exact ⟨b', j, hr.symm, h2, h3, by rw [h4, hl'], h5⟩

/-! ## The loops -/

theorem pickDup_ok {R : ℕ → ℕ} {b : Builder} (hne : b.queue ≠ []) {tries i : ℕ} {r : Out (ℕ × ℕ)}
    (h : pickDup R b tries i = some r) : ∃ v j, r = .ok (v, j) ∧ b.isInPush v = false := by
  revert h
  apply pickDup.partial_correctness R b (fun _ _ r => ∃ v j, r = .ok (v, j) ∧ b.isInPush v = false)
  intro rec ih tries i r h
  have hlive : ∃ v, b.getRandomLive (R i) = some v :=
    ⟨_, List.getElem?_eq_getElem (Nat.mod_lt _ (List.length_pos_iff.mpr hne))⟩
  obtain ⟨w, hw⟩ := hlive
  have hv : ∃ v, (if tries < 20 then b.getRandomLive (R i) else some (R i)) = some v := by
    by_cases ht : tries < 20
    · exact ⟨w, by rw [if_pos ht, hw]⟩
    · exact ⟨_, by rw [if_neg ht]⟩
  obtain ⟨v, hv⟩ := hv
  simp only [hv] at h
  cases hp : b.isInPush v with
  | true =>
    simp only [hp, if_true] at h
    exact ih _ _ _ h
  | false =>
    simp only [hp, Bool.false_eq_true, if_false, Option.some.injEq] at h
    exact ⟨v, _, h.symm, hp⟩

theorem pickNew_ok {R : ℕ → ℕ} {b : Builder} {i : ℕ} {r : Out (ℕ × ℕ)}
    (h : pickNew R b i = some r) : ∃ v j, r = .ok (v, j) ∧ b.isInPush v = false := by
  revert h
  apply pickNew.partial_correctness R b (fun _ r => ∃ v j, r = .ok (v, j) ∧ b.isInPush v = false)
  intro rec ih i r h
  cases hp : b.isInPush (R i) || b.isLive (R i) with
  | true =>
    simp only [hp, if_true] at h
    exact ih _ _ h
  | false =>
    simp only [hp, Bool.false_eq_true, if_false, Option.some.injEq] at h
    exact ⟨_, _, h.symm, (Bool.or_eq_false_iff.mp hp).1⟩

theorem pickForDup_ok (R : ℕ → ℕ) (d : ℕ) : Picks (fun _ => pickForDup R d) := by
  intro k b i r h
  simp only [pickForDup] at h
  split at h
  · exact pickNew_ok h
  · rename_i hl
    have hne : b.queue ≠ [] := by
      intro hc
      exact hl (by rw [Builder.noLive, hc]; rfl)
    split at h
    · exact pickDup_ok hne h
    · exact pickNew_ok h

theorem pickOrder_ok (R : ℕ → ℕ) (f : ℕ → ℕ) {avgSize : ℕ} (ha : avgSize ≠ 0) :
    Picks (fun k => pickOrder R (f k) avgSize) := by
  intro k b i r h
  revert h
  apply pickOrder.partial_correctness R (f k) avgSize b (fun _ r => ∃ v j, r = .ok (v, j) ∧ b.isInPush v = false)
  intro rec ih i r h
  rw [if_neg (by omega)] at h
  split at h
  · exact ih _ _ h
  · rename_i hp
    rw [Option.some.injEq] at h
    exact ⟨_, _, h.symm, by simpa using hp⟩

theorem noLive_false {b : Builder} : b.noLive = false ↔ b.queue ≠ [] := by
  rw [Builder.noLive]
  cases b.queue <;> simp

theorem dupSize_ok {avgSpan : ℕ} (h : 2 ≤ avgSpan) (r : ℕ) :
    ∃ size, dupSize avgSpan r = some size ∧ 1 ≤ size ∧ avgSpan ≤ size + 10 ∧ size < 2 * avgSpan ∧
      size < avgSpan + 10 := by
  unfold dupSize
  by_cases h10 : avgSpan ≤ 10
  · simp only [if_pos h10]
    rw [if_neg (by omega)]
    have := Nat.mod_lt r (show 0 < 2 * (avgSpan - 1) by omega)
    exact ⟨_, rfl, by omega, by omega, by omega, by omega⟩
  · simp only [if_neg h10]
    rw [if_neg (by omega)]
    have := Nat.mod_lt r (show 0 < 2 * 10 by omega)
    exact ⟨_, rfl, by omega, by omega, by omega, by omega⟩

/-- The ranges that `dupSpans` makes. -/
def DupRange (avgSpan : ℕ) (l : List ℕ) : Prop :=
  l.Nodup ∧ 1 ≤ l.length ∧ avgSpan ≤ l.length + 10 ∧ l.length < 2 * avgSpan ∧ l.length < avgSpan + 10

theorem dupStep_ok {R : ℕ → ℕ} {goal avgSpan live dup : ℕ} (ha : 2 ≤ avgSpan) {b : Builder} {i : ℕ}
    (h : Inv (DupRange avgSpan) b) (hc : b.pushSum < goal ∨ b.noLive = false) {r : Out (Builder × ℕ)}
    (hr : dupStep R goal avgSpan live dup b i = some r) : ∃ b' j, r = .ok (b', j) ∧ Inv (DupRange avgSpan) b' := by
  unfold dupStep at hr
  cases hd : dupDoPush goal live b with
  | true =>
    rw [hd, if_pos rfl] at hr
    obtain ⟨size, hs, h1, h2, h3, h4⟩ := dupSize_ok ha (R i)
    simp only [hs] at hr
    obtain ⟨b', j, he, hi, -⟩ := pushSpan_ok (pickForDup_ok R dup) h (by omega)
      (fun l hn hl => ⟨hn, by omega, by omega, by omega, by omega⟩) hr
    exact ⟨b', j, he, hi⟩
  | false =>
    rw [hd, if_neg (by simp)] at hr
    have hne : b.queue ≠ [] := by
      rw [← noLive_false]
      rcases hc with hc | hc
      · unfold dupDoPush at hd
        rw [if_neg (by omega)] at hd
        by_contra hn
        rw [if_pos (by simpa using hn)] at hd
        cases hd
      · exact hc
    obtain ⟨b', hp, hi, -⟩ := h.pop hne
    rw [hp] at hr
    simp only [andThen, Option.some.injEq] at hr
    exact ⟨b', i, hr.symm, hi⟩

theorem dupLoop_ok {R : ℕ → ℕ} {goal avgSpan live dup : ℕ} (ha : 2 ≤ avgSpan) {b : Builder} {i : ℕ}
    (h : Inv (DupRange avgSpan) b) {r : Out Builder} (hr : dupLoop R goal avgSpan live dup b i = some r) :
    ∃ b', r = .ok b' ∧ Inv (DupRange avgSpan) b' ∧ goal ≤ b'.pushSum ∧ b'.queue = [] := by
  revert h
  revert hr
  apply dupLoop.partial_correctness R goal avgSpan live dup (fun b _ r => Inv (DupRange avgSpan) b →
    ∃ b', r = .ok b' ∧ Inv (DupRange avgSpan) b' ∧ goal ≤ b'.pushSum ∧ b'.queue = [])
  intro rec ih b i r hr h
  by_cases hc : b.pushSum < goal ∨ b.noLive = false
  · rw [if_pos hc] at hr
    cases hst : dupStep R goal avgSpan live dup b i with
    | none =>
      rw [hst] at hr
      cases hr
    | some o =>
      obtain ⟨b', j, rfl, hi⟩ := dupStep_ok ha h hc hst
      rw [hst] at hr
      exact ih b' j r hr hi
  · rw [if_neg hc, Option.some.injEq] at hr
    rw [noLive_false] at hc
    push Not at hc
    exact ⟨b, hr.symm, h, hc.1, hc.2⟩

theorem Inv.fair {P : List ℕ → Prop} {b : Builder} (h : Inv P b) (hq : b.queue = []) :
    (Simulation.mk b.mem b.events).Fair := by
  apply fair_of h.ok h.allowed
  rw [h.run, hq]
  rfl

theorem describe_ok {P : List ℕ → Prop} {b : Builder} (h : Inv P b) (hs : 0 < b.pushSum) :
    b.describe = some (.ok ⟨b.mem, b.events⟩) := by
  rw [Builder.describe, if_neg]
  rintro (hc | hc)
  · rw [h.count, List.length_eq_zero_iff] at hc
    rw [h.sum, Simulation.traffic, hc] at hs
    simp at hs
  · omega

/-- The ranges that `orderSpans` makes. -/
def OrderRange (spanSize : ℕ) (l : List ℕ) : Prop := l.Nodup ∧ l.length = spanSize

theorem orderStep_ok {R : ℕ → ℕ} {spanCount spanSize avgSize insNum : ℕ} (hs : spanSize ≠ 0) (ha : avgSize ≠ 0)
    {b : Builder} {i : ℕ} (h : Inv (OrderRange spanSize) b) (hcount : b.pushCount ≤ spanCount)
    (hc : b.liveCount > 0 ∨ b.pushCount < spanCount) {r : Out ((Builder × ℕ) × ℕ)}
    (hr : orderStep R spanCount spanSize avgSize insNum b i = some r) :
    ∃ b' j m, r = .ok ((b', j), m) ∧ Inv (OrderRange spanSize) b' ∧ b'.pushCount ≤ spanCount := by
  unfold orderStep at hr
  split at hr
  · rename_i hd
    cases hp : pushSpan (fun k => pickOrder R (sub64 insNum (k % 2 ^ 64)) avgSize) spanSize b i with
    | none =>
      rw [hp] at hr
      cases hr
    | some o =>
      obtain ⟨b', j, rfl, hi, hn, -⟩ := pushSpan_ok (pickOrder_ok R _ ha) h hs (fun l hn hl => ⟨hn, hl⟩) hp
      rw [hp] at hr
      simp only [andThen, Option.some.injEq] at hr
      exact ⟨b', j, _, hr.symm, hi, by omega⟩
  · rename_i hd
    have hne : b.queue ≠ [] := by
      intro hq
      apply hd
      left
      rw [Builder.liveCount, hq]
      rfl
    obtain ⟨b', hp, hi, hn, -⟩ := h.pop hne
    rw [hp] at hr
    simp only [andThen, Option.some.injEq] at hr
    exact ⟨b', i, _, hr.symm, hi, by omega⟩

theorem orderLoop_ok {R : ℕ → ℕ} {spanCount spanSize avgSize insNum : ℕ} (hs : spanSize ≠ 0) (ha : avgSize ≠ 0)
    {b : Builder} {i : ℕ} (h : Inv (OrderRange spanSize) b) (hcount : b.pushCount ≤ spanCount) {r : Out Builder}
    (hr : orderLoop R spanCount spanSize avgSize insNum b i = some r) :
    ∃ b', r = .ok b' ∧ Inv (OrderRange spanSize) b' ∧ b'.pushCount = spanCount ∧ b'.queue = [] := by
  revert h hcount
  revert hr
  apply orderLoop.partial_correctness R spanCount spanSize avgSize (fun _ b _ r =>
    Inv (OrderRange spanSize) b → b.pushCount ≤ spanCount →
    ∃ b', r = .ok b' ∧ Inv (OrderRange spanSize) b' ∧ b'.pushCount = spanCount ∧ b'.queue = [])
  intro rec ih insNum b i r hr h hcount
  by_cases hc : b.liveCount > 0 ∨ b.pushCount < spanCount
  · rw [if_pos hc] at hr
    cases hst : orderStep R spanCount spanSize avgSize insNum b i with
    | none =>
      rw [hst] at hr
      cases hr
    | some o =>
      obtain ⟨b', j, m, rfl, hi, hn⟩ := orderStep_ok hs ha h hcount hc hst
      rw [hst] at hr
      exact ih m b' j r hr hi hn
  · rw [if_neg hc, Option.some.injEq] at hr
    push Not at hc
    refine ⟨b, hr.symm, h, by omega, ?_⟩
    rw [Builder.liveCount] at hc
    exact List.length_eq_zero_iff.mp (by omega)

end Sim

end Verif.PQSim
