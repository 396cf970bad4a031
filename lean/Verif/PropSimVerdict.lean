import Verif.SimVerdictProofs

/-!
# Property C102: what the verdict of `pqsim` tells about a queue
-/

namespace Verif.PQSim.Sim

/-- C102 for `dupSpans`, for all parameters and all numbers drawn, and for any queue. -/
theorem dupSpans_telling (R : ℕ → ℕ) {pushSumGoal avgSpan avgLiveGoal dupPercentage : ℕ} {sim : Simulation}
    (h : dupSpans R pushSumGoal avgSpan avgLiveGoal dupPercentage = some (.ok sim)) : sim.Telling := by
  have hg : 1 ≤ pushSumGoal := by
    by_contra hg
    obtain rfl : pushSumGoal = 0 := by omega
    rw [dupSpans_zero_refuted] at h
    cases h
  have ha : 2 ≤ avgSpan := by
    by_contra ha
    rcases (show avgSpan = 0 ∨ avgSpan = 1 by omega) with rfl | rfl
    · rw [dupSpans, if_pos rfl] at h
      cases h
    · rw [dupSpans_one_refuted R hg] at h
      cases h
  rw [dupSpans, if_neg (by omega)] at h
  cases hl : dupLoop R pushSumGoal avgSpan avgLiveGoal dupPercentage (.init true) 0 with
  | none =>
    rw [hl] at h
    cases h
  | some o =>
    obtain ⟨b, rfl, hi, hs, hq⟩ := dupLoop_ok ha (Inv.init _) hl
    rw [hl] at h
    simp only [andThen, describe_ok hi (by omega), Option.some.injEq, Out.ok.injEq] at h
    subst h
    exact telling_of hi.ok (by rw [hi.run, hq]; rfl)

/-- With spans of no elements nothing is pushed. -/
theorem orderLoop_nothing (R : ℕ → ℕ) (spanCount avgSize : ℕ) : ∀ (k : ℕ) (b : Builder) (i insNum : ℕ),
    spanCount - b.pushCount = k → b.queue = [] → b.pushSum = 0 →
    ∃ b', orderLoop R spanCount 0 avgSize insNum b i = some (.ok b') ∧ b'.pushSum = 0 := by
  intro k
  induction k with
  | zero =>
    intro b i insNum hk hq hs
    refine ⟨b, ?_, hs⟩
    rw [orderLoop, if_neg]
    rw [Builder.liveCount, hq, List.length_nil]
    omega
  | succ k ih =>
    intro b i insNum hk hq hs
    rw [orderLoop, if_pos (Or.inr (by omega)), orderStep, if_pos (Or.inl (by rw [Builder.liveCount, hq, List.length_nil]))]
    have he : (b.beginPush).endPush = some (.ok { b.beginPush with
        events := b.beginPush.events.dropLast ++ [⟨some b.mem.length, b.mem.length - b.mem.length, none⟩]
        mem := b.mem.take b.mem.length ++ (b.mem.drop b.mem.length).insertionSort (· ≥ ·)
        pushCount := b.pushCount + 1
        pushSum := b.pushSum + (b.mem.length - b.mem.length)
        push := [] }) := by
      have hl : b.beginPush.events.getLast? = some ⟨some b.mem.length, 0, none⟩ := by
        simp only [Builder.beginPush, List.getLast?_append, List.getLast?_singleton, Option.some_or]
      rw [Builder.endPush, hl]
      rfl
    simp only [pushSpan, fill, andThen, he]
    exact ih _ _ _ (show spanCount - (b.pushCount + 1) = k by omega) hq
      (show b.pushSum + (b.mem.length - b.mem.length) = 0 by omega)

/-- C102 for `orderSpans`, for all parameters and all numbers drawn, and for any queue. -/
theorem orderSpans_telling (R : ℕ → ℕ) {spanCount spanSize avgSize : ℕ} {sim : Simulation}
    (h : orderSpans R spanCount spanSize avgSize = some (.ok sim)) : sim.Telling := by
  have hc : 1 ≤ spanCount := by
    by_contra hc
    obtain rfl : spanCount = 0 := by omega
    rw [orderSpans_zero_refuted] at h
    cases h
  have hs : 1 ≤ spanSize := by
    by_contra hs
    obtain rfl : spanSize = 0 := by omega
    obtain ⟨b, h1, h2⟩ := orderLoop_nothing R spanCount avgSize _ (.init true) 0 ((0 + spanCount * avgSize) * 3 % 2 ^ 64)
      rfl rfl rfl
    rw [orderSpans, h1] at h
    simp only [andThen, Builder.describe, h2, or_true, if_true] at h
    cases h
  have ha : 1 ≤ avgSize := by
    by_contra ha
    obtain rfl : avgSize = 0 := by omega
    rw [orderSpans_empty_refuted R hc hs] at h
    cases h
  rw [orderSpans] at h
  cases hl : orderLoop R spanCount spanSize avgSize ((spanSize + spanCount * avgSize) * 3 % 2 ^ 64) (.init true) 0 with
  | none =>
    rw [hl] at h
    cases h
  | some o =>
    obtain ⟨b, rfl, hi, hn, hq⟩ := orderLoop_ok (by omega) (by omega) (Inv.init _) (Nat.zero_le _) hl
    rw [hl] at h
    have h' : b.describe = some (.ok sim) := h
    rw [Builder.describe] at h'
    split at h'
    · cases h'
    · cases h'
      exact telling_of hi.ok (by rw [hi.run, hq]; rfl)

/-- With spans of no elements the description of `orderSpans` divides by zero. -/
theorem orderSpans_no_elements_refuted (R : ℕ → ℕ) (spanCount avgSize : ℕ) :
    orderSpans R spanCount 0 avgSize = some .ub := by
  obtain ⟨b, h1, h2⟩ := orderLoop_nothing R spanCount avgSize _ (.init true) 0 ((0 + spanCount * avgSize) * 3 % 2 ^ 64)
    rfl rfl rfl
  rw [orderSpans, h1]
  simp only [andThen, Builder.describe, h2, or_true, if_true]

/-- A queue that passes a simulation of the kinds above and one that is right return the same. -/
theorem pass_same {sim : Simulation} (ht : sim.Telling) {Q Q' : Queue} {n : ℕ} {s : Q.State} {s' : Q'.State}
    (h : run Q sim n Q.init = some (.pass s)) (h' : run Q' sim n Q'.init = some (.pass s')) :
    ∃ outs, Q.run Q.init (sim.calls n) = some (outs, s) ∧ Q'.run Q'.init (sim.calls n) = some (outs, s') := by
  obtain ⟨S, o, h1, h2⟩ := (ht.pass Q n s).1 h
  obtain ⟨S', o', h3, h4⟩ := (ht.pass Q' n s').1 h'
  rw [h2] at h4
  cases h4
  exact ⟨o, h1, h3⟩

/-! ## Where the property fails -/

/-- A queue that returns the value pushed last. -/
def stack : Queue where
  State := List ℕ
  init := []
  push s l := some (l ++ s)
  pop | [] => none
      | x :: s => some (x, s)
  empty s := s.isEmpty

/-- A queue that keeps duplicates. -/
def bag : Queue where
  State := List ℕ
  init := []
  push s l := some ((l ++ s).insertionSort (· ≥ ·))
  pop | [] => none
      | x :: s => some (x, s)
  empty s := s.isEmpty

/-- C102, refuted for `randomSpans`: there are numbers such that a queue that keeps duplicates passes. That right queues
are accused is `randomSpans_refuted`. -/
theorem randomSpans_telling_refuted : ∃ R : ℕ → ℕ, ∃ sim, randomSpans R 3 1 1 = some (.ok sim) ∧
    run bag sim 1 bag.init = some (.pass []) ∧ ¬ sim.Telling := by
  have h : run bag spoiled 1 bag.init = some (.pass []) := rfl
  refine ⟨spoiler, spoiled, randomSpans_spoiled, h, fun ht => ?_⟩
  obtain ⟨S, outs, -, h2⟩ := (ht.pass bag 1 []).1 h
  have h3 : Spec.run ∅ (spoiled.calls 1) = none := by decide +kernel
  rw [h3] at h2
  cases h2

/-! ## Samples -/

-- Both are found out, by simulations of both kinds.
#guard (match dupSpans draws 20 3 6 30 with
  | some (.ok sim) => [verdict (run stack sim 1 stack.init), verdict (run bag sim 1 bag.init)]
  | _ => []) = ["accuse 803", "accuse 993"]
#guard (match orderSpans draws 4 3 5 with
  | some (.ok sim) => [verdict (run stack sim 1 stack.init), verdict (run bag sim 1 bag.init)]
  | _ => []) = ["accuse 70", "accuse 67"]

end Verif.PQSim.Sim
