import Verif.SimulatorProofs
import Verif.PropPQSim

/-!
# Properties of the simulations of `pqsim`: C78
-/

namespace Verif.PQSim.Sim

/-- C78 for `dupSpans` with spans of at least two values: whatever numbers are drawn, a simulation that gets
made is fair, pushes as many values as asked for, and its ranges have no duplicates and are about as long as
asked for. Missing: a span size of 1 and 0 elements, see below. -/
theorem dupSpans_fair_partial (R : ℕ → ℕ) {pushSumGoal avgSpan avgLiveGoal dupPercentage : ℕ}
    (hg : 1 ≤ pushSumGoal) (ha : 2 ≤ avgSpan) {r : Out Simulation}
    (h : dupSpans R pushSumGoal avgSpan avgLiveGoal dupPercentage = some r) :
    ∃ sim, r = .ok sim ∧ sim.Fair ∧ pushSumGoal ≤ sim.traffic ∧
      ∀ l ∈ sim.pushed, l.Nodup ∧ 1 ≤ l.length ∧ avgSpan ≤ l.length + 10 ∧ l.length < 2 * avgSpan ∧
        l.length < avgSpan + 10 := by
  rw [dupSpans, if_neg (by omega)] at h
  cases hl : dupLoop R pushSumGoal avgSpan avgLiveGoal dupPercentage (.init true) 0 with
  | none =>
    rw [hl] at h
    cases h
  | some o =>
    obtain ⟨b, rfl, hi, hs, hq⟩ := dupLoop_ok ha (Inv.init _) hl
    rw [hl] at h
    simp only [andThen, describe_ok hi (by omega), Option.some.injEq] at h
    exact ⟨_, h.symm, hi.fair hq, by rw [← hi.sum]; exact hs, hi.good⟩

/-- C78 for `orderSpans` with at least one span of at least one value and a queue of at least one value. -/
theorem orderSpans_fair_partial (R : ℕ → ℕ) {spanCount spanSize avgSize : ℕ}
    (hc : 1 ≤ spanCount) (hs : 1 ≤ spanSize) (ha : 1 ≤ avgSize) {r : Out Simulation}
    (h : orderSpans R spanCount spanSize avgSize = some r) :
    ∃ sim, r = .ok sim ∧ sim.Fair ∧ sim.pushed.length = spanCount ∧
      ∀ l ∈ sim.pushed, l.Nodup ∧ l.length = spanSize := by
  rw [orderSpans] at h
  cases hl : orderLoop R spanCount spanSize avgSize ((spanSize + spanCount * avgSize) * 3 % 2 ^ 64) (.init true) 0 with
  | none =>
    rw [hl] at h
    cases h
  | some o =>
    obtain ⟨b, rfl, hi, hn, hq⟩ := orderLoop_ok (by omega) (by omega) (Inv.init _) (Nat.zero_le _) hl
    rw [hl] at h
    have hpos : 0 < b.pushSum := by
      have hlen := hi.count
      rw [hn] at hlen
      have hgood := hi.good
      rw [hi.sum, Simulation.traffic]
      cases hp : (Simulation.mk b.mem b.events).pushed with
      | nil =>
        rw [hp, List.length_nil] at hlen
        omega
      | cons l ls =>
        have := (hgood l (by rw [hp]; simp)).2
        rw [List.map_cons, List.sum_cons]
        omega
    simp only [andThen, describe_ok hi hpos, Option.some.injEq] at h
    exact ⟨_, h.symm, hi.fair hq, by rw [← hi.count, hn], hi.good⟩

/-- C78: `main` never reports a fault in one of its queues. -/
theorem main_passes_partial (R : ℕ → ℕ) {elements spanSize avgOrInitialSize dups : ℕ}
    (hg : 1 ≤ elements) (ha : 2 ≤ spanSize) {r : Out Simulation}
    (h : dupSpans R elements spanSize avgOrInitialSize dups = some r) :
    ∃ sim, r = .ok sim ∧ ∀ Q ∈ mainModels, ∀ repeats,
      ∃ s, run Q sim repeats Q.init = some (.pass s) ∧ Q.empty s = true := by
  obtain ⟨sim, hr, hf, -⟩ := dupSpans_fair_partial R hg ha h
  exact ⟨sim, hr, fun Q hQ n => hf Q (mainModels_correct Q hQ) n⟩

/-! ## Where the property fails -/

/-- With a span size of 1 `dupSpans` divides by zero, whatever numbers are drawn. -/
theorem dupSpans_one_refuted (R : ℕ → ℕ) {pushSumGoal avgLiveGoal dupPercentage : ℕ} (hg : 1 ≤ pushSumGoal) :
    dupSpans R pushSumGoal 1 avgLiveGoal dupPercentage = some .ub := by
  have hstep : dupStep R pushSumGoal 1 avgLiveGoal dupPercentage (.init true) 0 = some .ub := by
    have hd : dupDoPush pushSumGoal avgLiveGoal (.init true) = true := by
      rw [dupDoPush, if_neg (by show ¬ 0 = _; omega)]
      rfl
    rw [dupStep, hd]
    rfl
  rw [dupSpans, if_neg (by decide), dupLoop, if_pos (Or.inl (by show 0 < _; omega)), hstep]
  rfl

/-- With nothing to push the description divides by zero. -/
theorem dupSpans_zero_refuted (R : ℕ → ℕ) (avgSpan avgLiveGoal dupPercentage : ℕ) :
    dupSpans R 0 avgSpan avgLiveGoal dupPercentage = some .ub := by
  have hc : ¬ ((Builder.init true).pushSum < 0 ∨ (Builder.init true).noLive = false) := by
    simp [Builder.init, Builder.noLive]
  rw [dupSpans, dupLoop, if_neg hc]
  split
  · rfl
  · rfl

/-- With no spans the description of `orderSpans` divides by zero. -/
theorem orderSpans_zero_refuted (R : ℕ → ℕ) (spanSize avgSize : ℕ) : orderSpans R 0 spanSize avgSize = some .ub := by
  have hc : ¬ ((Builder.init true).liveCount > 0 ∨ (Builder.init true).pushCount < 0) := by decide
  rw [orderSpans, orderLoop, if_neg hc]
  rfl

/-- With a queue that is to be empty `orderSpans` divides by zero. -/
theorem orderSpans_empty_refuted (R : ℕ → ℕ) {spanCount spanSize : ℕ} (hc : 1 ≤ spanCount) (hs : 1 ≤ spanSize) :
    orderSpans R spanCount spanSize 0 = some .ub := by
  obtain ⟨n, rfl⟩ := Nat.exists_eq_add_of_le' hs
  have hfill : ∀ (f : ℕ → ℕ) b i, fill (fun k => pickOrder R (f k) 0) (n + 1) 0 b i = some .ub := by
    intro f b i
    rw [fill, pickOrder, if_pos (by rfl)]
    rfl
  rw [orderSpans, orderLoop, if_pos (Or.inr (by show 0 < _; omega)), orderStep,
    if_pos (Or.inl (show (Builder.init true).liveCount = 0 from rfl)), pushSpan, hfill]
  rfl

/-- The numbers that spoil `randomSpans`: what it pushes is 5, 5 and 3. -/
def spoiler (i : ℕ) : ℕ := if i = 1 ∨ i = 3 then 5 else if i = 5 then 3 else 0

/-- The simulation with two equal values in two spans. -/
def spoiled : Simulation where
  mem := [5, 5, 3]
  events := [⟨some 0, 1, none⟩, ⟨some 1, 1, none⟩, ⟨some 2, 1, none⟩,
    ⟨none, 0, some 5⟩, ⟨none, 0, some 5⟩, ⟨none, 0, some 3⟩]

theorem randomStep_push {R : ℕ → ℕ} {spanCount spanSize initialSize i : ℕ} {b : Builder}
    (h1 : b.pushCount ≠ spanCount) (h2 : R i % (spanSize + 1) = 0)
    (h3 : (if b.pushCount = 0 then initialSize else spanSize) = 1) (h4 : b.push = []) :
    randomStep R spanCount spanSize initialSize b i =
      andThen ((b.beginPush.addToPush (R (i + 1))).endPush) (fun b => some (.ok (b, i + 2))) := by
  have hdo : (if b.pushCount = spanCount then true else if b.liveCount = 0 then false
      else decide (R i % (spanSize + 1) ≠ 0)) = false := by
    rw [if_neg h1]
    simp [h2]
  have hp : b.beginPush.isInPush (R (i + 1)) = false := by simp [Builder.isInPush, Builder.beginPush, h4]
  simp only [randomStep, hdo, h3, pushSpan, fill]
  rw [pickRandom, hp]
  rfl

/-- `randomSpans` does make that simulation. -/
theorem randomSpans_spoiled : randomSpans spoiler 3 1 1 = some (.ok spoiled) := by
  rw [randomSpans]
  rw [randomLoop, if_pos (by decide), randomStep_push (by decide) (by decide) (by decide) (by decide)]
  show andThen (randomLoop _ _ _ _ _ _) _ = _
  rw [randomLoop, if_pos (by decide), randomStep_push (by decide) (by decide) (by decide) (by decide)]
  show andThen (randomLoop _ _ _ _ _ _) _ = _
  rw [randomLoop, if_pos (by decide), randomStep_push (by decide) (by decide) (by decide) (by decide)]
  show andThen (randomLoop _ _ _ _ _ _) _ = _
  rw [randomLoop, if_pos (by decide)]
  show andThen (randomLoop _ _ _ _ _ _) _ = _
  rw [randomLoop, if_pos (by decide)]
  show andThen (randomLoop _ _ _ _ _ _) _ = _
  rw [randomLoop, if_pos (by decide)]
  show andThen (randomLoop _ _ _ _ _ _) _ = _
  rw [randomLoop, if_neg (by decide)]
  rfl

/-- `randomSpans` counts equal values of different spans twice, where the queues do not: each queue that
behaves as a set of values is found wrong. -/
theorem randomSpans_refuted : ∃ R : ℕ → ℕ, ∃ sim, randomSpans R 3 1 1 = some (.ok sim) ∧
    ∀ Q : Queue, Q.Correct → run Q sim 1 Q.init = some (.accuse 3) := by
  refine ⟨spoiler, spoiled, randomSpans_spoiled, ?_⟩
  intro Q hQ
  have h := hQ ([⟨some 0, 1, none⟩, ⟨some 1, 1, none⟩, ⟨some 2, 1, none⟩, ⟨none, 0, some 5⟩].map (opOf spoiled.mem) ++
    [.pop]) (by
      intro op hop
      have hop' : op ∈ [SimOp.push [5], .push [5], .push [3], .pop, .pop] := hop
      simp only [List.mem_cons, List.not_mem_nil, or_false] at hop'
      rcases hop' with rfl | rfl | rfl | rfl | rfl <;> simp [SimOp.Allowed])
  rw [show (Spec.run ∅ _).map _ = some ([none, none, none, some 5, some 3], true) by decide +kernel] at h
  simp only [Option.map_eq_some_iff, Prod.mk.injEq] at h
  obtain ⟨⟨o, s⟩, hs, ho, -⟩ := h
  simp only at ho
  subst ho
  obtain ⟨s₁, h1, h2⟩ := runEvents_of_run Q spoiled.mem [⟨some 0, 1, none⟩, ⟨some 1, 1, none⟩, ⟨some 2, 1, none⟩,
    ⟨none, 0, some 5⟩] Q.init s [.pop] [some 3] (by
      intro e he
      simp only [List.mem_cons, List.not_mem_nil, or_false] at he
      rcases he with rfl | rfl | rfl | rfl <;> simp [EventOk, spoiled]) hs
  have hpop : ∃ s₂, Q.pop s₁ = some (3, s₂) := by
    simp only [Queue.run, Queue.step] at h2
    cases hp : Q.pop s₁ with
    | none =>
      rw [hp] at h2
      cases h2
    | some r =>
      rw [hp] at h2
      simp only [Option.map_some, Option.some.injEq, Prod.mk.injEq, List.cons.injEq, and_true] at h2
      exact ⟨r.2, by rw [← h2.1]⟩
  obtain ⟨s₂, hp⟩ := hpop
  have happ : ∀ (es es' : List Event) (s s' : Q.State), runEvents Q spoiled.mem es s = some (.pass s') →
      runEvents Q spoiled.mem (es ++ es') s = runEvents Q spoiled.mem es' s' := by
    intro es es'
    induction es with
    | nil =>
      intro s s' h
      simp only [runEvents, Option.some.injEq, Verdict.pass.injEq] at h
      rw [h]
      rfl
    | cons e es ih =>
      intro s s' h
      simp only [runEvents, List.cons_append] at h ⊢
      cases he : runEvent Q spoiled.mem e s with
      | none =>
        rw [he] at h
        cases h
      | some v =>
        cases v with
        | accuse v =>
          rw [he] at h
          cases h
        | pass s₃ =>
          rw [he] at h
          exact ih _ _ h
  have hall := happ _ [⟨none, 0, some 5⟩, ⟨none, 0, some 3⟩] _ _ h1
  have hev : runEvents Q spoiled.mem [⟨none, 0, some 5⟩, ⟨none, 0, some 3⟩] s₁ = some (.accuse 3) := by
    simp only [runEvents, runEvent, hp]
    rfl
  rw [hev] at hall
  rw [run]
  have hall' : runEvents Q spoiled.mem spoiled.events Q.init = some (.accuse 3) := hall
  rw [hall']

/-! ## Samples -/

/-- Numbers to draw. -/
def draws (i : ℕ) : ℕ := (i * i * 7919 + i * 104729 + 12345) % 1000

/-- The outcome of a run without the state. -/
def verdict {S : Type} : Option (Verdict S) → String
  | none => "undefined"
  | some (.pass _) => "pass"
  | some (.accuse v) => s!"accuse {v}"

-- Simulations do get made, with duplicates, and the queues of `main` pass them.
#guard (match dupSpans draws 20 3 6 30 with
  | some (.ok sim) => (sim.pushed, sim.events.length, mainModels.map (fun Q => verdict (run Q sim 3 Q.init)))
  | _ => ([], 0, [])) =
  ([[993, 803], [479, 345], [993, 675, 429, 273], [979, 945, 803, 263], [315, 273], [803, 635], [783, 575, 413, 85]],
    23, List.replicate 11 "pass")
#guard (match orderSpans draws 4 3 5 with
  | some (.ok sim) => mainModels.map (fun Q => verdict (run Q sim 3 Q.init))
  | _ => []) = List.replicate 11 "pass"
#guard mainModels.map (fun Q => verdict (run Q spoiled 1 Q.init)) = List.replicate 11 "accuse 3"

/-- C78: `dupSpans` pushes until the goal for pushes is met; before that it pops only if the mean number of live elements over
all events so far is at least what was asked for. -/
theorem dupSpans_pops (pushSumGoal avgLiveGoal : ℕ) (b : Builder) (he : b.events ≠ []) :
    dupDoPush pushSumGoal avgLiveGoal b = true ↔
      b.pushSum ≠ pushSumGoal ∧ (b.queue = [] ∨ b.liveCountSum < avgLiveGoal * b.events.length) := by
  have hl : 0 < b.events.length := List.length_pos_iff.mpr he
  have ha : b.avgLiveCount = b.liveCountSum / b.events.length := by
    rw [Builder.avgLiveCount, if_neg (by simpa using he)]
  rw [dupDoPush, ha, Builder.noLive]
  by_cases h1 : b.pushSum = pushSumGoal
  · simp [h1]
  · by_cases h2 : b.queue = []
    · simp [h1, h2]
    · simp [h1, h2, Nat.div_lt_iff_lt_mul hl]

/-- Three live elements on average do not do for a goal of four, but for a goal of three. -/
example : dupDoPush 9 4 ⟨true, [1], [], [], [⟨none, 0, some 1⟩, ⟨none, 0, some 1⟩], 0, 0, 7, 5, 0⟩ = true ∧
    dupDoPush 9 3 ⟨true, [1], [], [], [⟨none, 0, some 1⟩, ⟨none, 0, some 1⟩], 0, 0, 7, 5, 0⟩ = false := by decide

end Verif.PQSim.Sim
