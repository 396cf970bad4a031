import Verif.PairAssertProofs
import Verif.PropPairQueue

/-!
# Properties C88 to C90: debug builds of `mathic::PairQueue`

* C88: as long as the documentation is kept to, no assertion fails, nothing is undefined, and a debug build does what a release
  build does.
* C89: calls that the documentation does not allow fail an assertion. Violated for rows that are retired.
* C90: the check of the order of the rows constructs and destructs pair data in pairs. Violated: the data of a pair is destructed
  as that of another pair, and it is not destructed if `compare` throws.
-/

namespace Verif.PairQueue

open Verif.Dbg
open Verif.TourTree (entries)

variable {D : Type}

/-! ## C88 -/

/-- A history of a debug build is a history of a release build. -/
theorem pairQueue_debug_history {cf : Conf D} (hc : StrictWeak cf.ltPair) {h : List (Op × Outcome)} {s : State D}
    (hh : HistD cf Benign h s) : Hist cf Benign h s := histD_hist hc hh

/-- No assertion fails and nothing is undefined, whether the construction of pair data throws or not. -/
theorem pairQueue_debug_defined {cf : Conf D} (hc : StrictWeak cf.ltPair) {h : List (Op × Outcome)} {s : State D}
    (hh : HistD cf Benign h s) {op : Op} (hl : Legal cf (ledger h) op) {f : Faults} (hf : Benign op f) :
    ∃ o s', SeenD cf f s op o s' := by
  have hi := hist_inv hc (histD_hist hc hh)
  rcases stepD_cases hc hi hl hf with k | ⟨k, -, -⟩
  · obtain ⟨o, s', hs, -⟩ := step_exists hc hi hl hf
    refine ⟨o, s', ?_⟩
    cases hs with
    | add hd => exact .add (by rw [k, hd]; rfl)
    | retire hd => exact .retire (by rw [k, hd]; rfl)
    | threw hd => exact .threw (by rw [k, hd]; rfl)
    | pop hx hd =>
      refine .pop ?_ (by rw [k, hd]; rfl)
      obtain ⟨p, hp⟩ := held_ne hi hl
      rw [topPairD_ok hi.core hp]
      obtain ⟨c, r, l, hm, -, -⟩ := top_column hi.core hp
      simp only [topPair, hp, hm, Option.some.injEq] at hx
      rw [← hx]
      simp [key, hm]
  · exact ⟨.threw, s, .threw k⟩

/-- A call of a debug build does what that of a release build does, unless `computePairData` throws for a row of the new
column. -/
theorem pairQueue_debug_agrees {cf : Conf D} (hc : StrictWeak cf.ltPair) {h : List (Op × Outcome)} {s : State D}
    (hh : HistD cf Benign h s) {op : Op} (hl : Legal cf (ledger h) op) {f : Faults} (hf : Benign op f)
    (hn : ¬ ComputeThrows f (ledger h).count op) : stepD cf f s op = End.ofRes (step cf f s op) := by
  rcases stepD_cases hc (hist_inv hc (histD_hist hc hh)) hl hf with k | ⟨-, -, k⟩
  · exact k
  · exact absurd k hn

/-- If it does throw, a debug build may throw where a release build does not, and then nothing has changed. -/
theorem pairQueue_debug_throws {cf : Conf D} (hc : StrictWeak cf.ltPair) {h : List (Op × Outcome)} {s : State D}
    (hh : HistD cf Benign h s) {op : Op} (hl : Legal cf (ledger h) op) {f : Faults} (hf : Benign op f) :
    stepD cf f s op = End.ofRes (step cf f s op) ∨ stepD cf f s op = ok (.threw s) := by
  rcases stepD_cases hc (hist_inv hc (histD_hist hc hh)) hl hf with k | ⟨k, -, -⟩
  · exact .inl k
  · exact .inr k

/-- The observers do what they do in a release build, and so does the destructor. -/
theorem pairQueue_debug_observers {cf : Conf D} (hc : StrictWeak cf.ltPair) {h : List (Op × Outcome)} {s : State D}
    (hh : HistD cf Benign h s) :
    emptyD s = ok (decide ((ledger h).held = [])) ∧
    ((ledger h).held ≠ [] → ∃ x ∈ (ledger h).held, topPairD s = ok x ∧ topPair s = some x ∧
      topPairDataD s = ok (cf.compute x.1 x.2)) ∧
    (∀ i < (ledger h).count, retiredD cf s i = ok (decide (i ∈ (ledger h).retired))) ∧
    ∃ s', destroy s = some s' ∧ destroyD s = ok s' := by
  have hi := hist_inv hc (histD_hist hc hh)
  refine ⟨?_, ?_, ?_, ?_⟩
  · by_cases h0 : (ledger h).held = []
    · rw [emptyD_held hi h0, decide_eq_true h0]
    · obtain ⟨p, hp⟩ := held_ne hi h0
      rw [emptyD_false hi.core hp, decide_eq_false h0]
  · intro h0
    obtain ⟨p, hp⟩ := held_ne hi h0
    obtain ⟨c, r, l, hm, -, -⟩ := top_column hi.core hp
    refine ⟨key s.mem p, top_held hi hp, topPairD_ok hi.core hp, ?_, ?_⟩
    · simp [topPair, hp, hm, key]
    · rw [topPairDataD_ok hi.core hp]
      simp [topPairData, hp, hm, key, lift]
  · intro i hlt
    rw [retiredD_ok hi.core (by have := hi.count; omega), hi.ret i hlt]
  · obtain ⟨s', h1, -⟩ := destructAll_spec (entries s.queue) s hi.core.nodup hi.core.good
    exact ⟨s', h1, destructAllD_ok _ _ _ hi.core.nodup hi.core.good h1⟩

/-- Whatever throws, `addColumnDescending` of a debug build that throws leaves the number of columns, the bits of `retired` and the
columns as they were. -/
theorem pairQueue_debug_add_threw {cf : Conf D} {f : Faults} {s s' : State D} {rows : List ℕ}
    (h : stepD cf f s (.add rows) = ok (.threw s')) : s'.count = s.count ∧ s'.ret = s.ret ∧ s'.mem = s.mem := by
  have h : addColumnD cf f s rows = ok (.threw s') := h
  unfold addColumnD at h
  split at h
  · cases h; exact ⟨rfl, rfl, rfl⟩
  · split at h
    · cases h
    · obtain ⟨e, h1, h⟩ := bind_ok.mp h
      cases e with
      | exn log => cases h; exact ⟨rfl, rfl, rfl⟩
      | column c log =>
        obtain ⟨q, h2, h⟩ := bind_ok.mp h
        cases q with
        | done q => cases h
        | threw q =>
          obtain ⟨s2, h3, h⟩ := bind_ok.mp h
          cases h
          exact ⟨rfl, rfl, rfl⟩

/-! ## C89 -/

/-- C89, the part that holds: a column whose rows are not below it or not in descending order fails an assertion, and so do `pop`,
`topPair` and `topPairData` of an empty queue, `retireIndex` if not supported or of an index that does not exist, and `retired` of
an index that does not exist. Missing: a row that is retired, and an index that is retired again. -/
theorem pairQueue_misuse_caught_partial {cf : Conf D} (hc : StrictWeak cf.ltPair) {h : List (Op × Outcome)} {s : State D}
    (hh : HistD cf Benign h s) {f : Faults} (hf : Quiet f) :
    (∀ rows, rows ≠ [] → (ledger h).count < indexMax →
      ¬ ((∀ r ∈ rows, r < (ledger h).count) ∧ Descending cf.ltPair (rows.map fun r => ((ledger h).count, r))) →
      stepD cf f s (.add rows) = failed) ∧
    ((ledger h).held = [] → stepD cf f s .pop = failed ∧ topPairD s = failed ∧ topPairDataD s = failed) ∧
    (∀ i, ¬ Legal cf (ledger h) (.retire i) → stepD cf f s (.retire i) = failed) ∧
    ∀ i, (ledger h).count ≤ i → retiredD cf s i = failed := by
  have hi := hist_inv hc (histD_hist hc hh)
  have hcount := hi.count
  refine ⟨?_, ?_, ?_, ?_⟩
  · intro rows hne hlt hbad
    cases rows with
    | nil => exact absurd rfl hne
    | cons r rows =>
      rw [← hcount] at hbad hlt
      show addColumnD cf f s (r :: rows) = failed
      unfold addColumnD
      rw [if_neg (show ¬ s.count ≥ indexMax by omega)]
      simp only
      rw [createD_quiet hc hf hi.cap hbad]
      rfl
  · intro h0
    have ht := tree_held hi h0
    refine ⟨?_, ?_, ?_⟩
    · show popD cf f s = failed
      unfold popD
      rw [emptyD_held hi h0]
      rfl
    · unfold topPairD; rw [ht]; rfl
    · unfold topPairDataD; rw [ht]; rfl
  · intro i hn
    show retireIndexD cf f s i = failed
    unfold retireIndexD
    cases hs : cf.support with
    | false => rfl
    | true =>
      have : ¬ i < s.count := fun h' => hn ⟨hs, by omega⟩
      rw [show decide (i < s.count) = false by simpa using this]
      rfl
  · intro i hle
    unfold retiredD
    rw [show decide (i < s.count) = false by simp; omega]
    rfl

/-! ## C90 -/

/-- C90, the part that holds: the check of the order of the rows destructs pair data as often as it constructs it, two for each
row but the first, if nothing throws. Missing: with the indices of the pair the data is of, and if `compare` or `computePairData`
throws. -/
theorem pairQueue_check_balance_partial {cf : Conf D} {f : Faults} {col : ℕ} : ∀ (rows : List ℕ) (prev : ℕ)
    (log log' : List (Event D)), checkOrder cf f col prev rows log = ok (.done log') →
    constructs log' = constructs log + 2 * rows.length ∧ destructs log' = destructs log + 2 * rows.length := by
  intro rows
  induction rows with
  | nil =>
    intro prev log log' h
    cases h
    simp
  | cons r rows ih =>
    intro prev log log' h
    unfold checkOrder at h
    obtain ⟨e1, h1, h⟩ := bind_ok.mp h
    cases e1 with
    | threw l => cases h
    | done log1 =>
      simp only at h
      obtain ⟨e2, h2, h⟩ := bind_ok.mp h
      cases e2 with
      | threw l => cases h
      | done log2 =>
        simp only at h
        split at h
        · cases h
        · obtain ⟨_, _, h⟩ := bind_ok.mp h
          obtain ⟨k1, k2⟩ := ih _ _ _ h
          obtain ⟨a1, a2⟩ := constructD_counts h1
          obtain ⟨b1, b2⟩ := constructD_counts h2
          simp only [constructs_append, destructs_append, constructs, destructs, List.length_cons] at k1 k2 ⊢
          omega

/-! ## Examples and refutations -/

/-- The state that a call of a debug build leaves, in examples. -/
def stateOfD (s₀ : State D) : Dbg (End (State D)) → State D
  | .ok (.done s) => s
  | .ok (.threw s) => s
  | _ => s₀

/-- Whether a call of a debug build ends normally, in examples. -/
def endsDone : Dbg (End (State D)) → Bool
  | .ok (.done _) => true
  | _ => false

theorem done_of {s₀ : State D} {r : Dbg (End (State D))} (h : endsDone r = true) : r = ok (.done (stateOfD s₀ r)) := by
  cases r with
  | ok e => cases e <;> first | rfl | cases h
  | failed => cases h
  | ub => cases h

/-- Whether a call of a debug build fails an assertion, in examples. -/
def fails {α : Type} : Dbg α → Bool
  | .failed => true
  | _ => false

/-- The state after some calls of a debug build, in examples. -/
def afterD (cf : Conf D) : List (Faults × Op) → State D
  | [] => init
  | (f, op) :: l => stateOfD init (stepD cf f (afterD cf l) op)

/-- The hypotheses of C88 and C89 are met by the history of `exAdds_hist`. -/
theorem exAdds_histD : HistD exConf Benign [(.add [1, 0], .done), (.add [0], .done), (.add [], .done)]
    (afterD exConf exAdds) := by
  have h0 : HistD exConf Benign [] init := .start
  have h1 := HistD.call (op := .add []) h0 (by simp [Legal, Descending]) (none_benign _)
    (.add (done_of (s₀ := init) (by decide +kernel)))
  have h2 := HistD.call (op := .add [0]) h1 (by simp [Legal, ledger, Ledger.after, Descending]) (none_benign _)
    (.add (done_of (s₀ := init) (by decide +kernel)))
  exact HistD.call (op := .add [1, 0]) h2
    (by simp [Legal, ledger, Ledger.after, Descending, Conf.ltPair, exConf]) (none_benign _)
    (.add (done_of (s₀ := init) (by decide +kernel)))

/-- A history with a pop and a retirement that pops again. -/
example : HistD exConf Benign
    [(.retire 2, .done), (.pop, .popped (2, 1)), (.add [1, 0], .done), (.add [0], .done), (.add [], .done)]
    (afterD exConf ((Faults.none, .retire 2) :: (Faults.none, .pop) :: exAdds)) := by
  have h4 := HistD.call (op := .pop) exAdds_histD (by simp [Legal, ledger, Ledger.after]) (none_benign _)
    (.pop (x := (2, 1)) (by decide +kernel) (done_of (s₀ := init) (by decide +kernel)))
  exact HistD.call (op := .retire 2) h4 (by simp [Legal, ledger, Ledger.after, exConf]) (none_benign _)
    (.retire (done_of (s₀ := init) (by decide +kernel)))

example : Quiet Faults.none := ⟨rfl, fun _ _ => rfl, fun _ _ => rfl⟩

-- Rows that do not descend, a row that does not exist, and an index that does not exist.
example : fails (stepD exConf Faults.none (afterD exConf exAdds) (.add [0, 1])) = true ∧
    fails (stepD exConf Faults.none (afterD exConf exAdds) (.add [3])) = true ∧
    fails (stepD exConf Faults.none (afterD exConf exAdds) (.retire 3)) = true ∧
    endsDone (stepD exConf Faults.none (afterD exConf exAdds) (.add [2, 1, 0])) = true := by
  decide +kernel

/-- `computePairData` throws for row 0. -/
def rowFault : Faults := ⟨false, fun _ r => r == 0, fun _ _ => false⟩

/-- Outside of C88: a release build computes only the data of the first row of a new column, a debug build that of every row, so
that it may throw alone. -/
theorem pairQueue_debug_throws_alone : ∃ (h : List (Op × Outcome)) (s : State ℕ), HistD exConf Benign h s ∧
    Legal exConf (ledger h) (.add [1, 0]) ∧ Benign (.add [1, 0]) rowFault ∧
    (∃ s', step exConf rowFault s (.add [1, 0]) = .ok s') ∧ stepD exConf rowFault s (.add [1, 0]) = ok (.threw s) := by
  have hl : Legal exConf (ledger [(.add [1, 0], .done), (.add [0], .done), (.add [], .done)]) (.add [1, 0]) := by
    simp [Legal, ledger, Ledger.after, Descending, Conf.ltPair, exConf]
  have hb : Benign (.add [1, 0]) rowFault := ⟨fun _ _ => rfl, trivial⟩
  refine ⟨_, _, exAdds_histD, hl, hb, ⟨_, ok_of (s₀ := init) (by decide +kernel)⟩, ?_⟩
  rcases pairQueue_debug_throws exConf_weak exAdds_histD hl hb with k | k
  · exfalso
    have h1 : endsDone (stepD exConf rowFault (afterD exConf exAdds) (.add [1, 0])) = false := by decide +kernel
    rw [k, ok_of (s₀ := init) (r := step exConf rowFault (afterD exConf exAdds) (.add [1, 0])) (by decide +kernel)] at h1
    cases h1
  · exact k

-- The hypothesis of `pairQueue_debug_add_threw` is met if a comparison throws.
example : endsDone (stepD exConf compareFault (afterD exConf exAdds) (.add [2])) = false ∧
    fails (stepD exConf compareFault (afterD exConf exAdds) (.add [2])) = false ∧
    (stateOfD init (stepD exConf compareFault (afterD exConf exAdds) (.add [2]))).count = 3 := by
  decide +kernel

/-- C89 is violated: a new column may have a row that is retired. The documentation forbids it and there is a check, but it is
within `#ifdef DEBUG`, which is defined nowhere. The pair is then on top, although an index of it is retired. -/
theorem pairQueue_retired_row_refuted : ∃ (h : List (Op × Outcome)) (s s' : State ℕ), HistD exConf Benign h s ∧
    ¬ Legal exConf (ledger h) (.add [1]) ∧ stepD exConf Faults.none s (.add [1]) = ok (.done s') ∧
    topPairD s' = ok (3, 1) ∧ retiredD exConf s' 1 = ok true := by
  have h4 := HistD.call (op := .retire 1) exAdds_histD (by simp [Legal, ledger, Ledger.after, exConf]) (none_benign _)
    (.retire (done_of (s₀ := init) (by decide +kernel)))
  exact ⟨_, _, _, h4, by simp [Legal, ledger, Ledger.after], done_of (s₀ := init) (by decide +kernel),
    by decide +kernel, by decide +kernel⟩

/-- C89 is violated as well by an index that is retired twice: the documentation says that it is an error, and nothing tells. -/
theorem pairQueue_retire_twice_refuted : ∃ (h : List (Op × Outcome)) (s s' : State ℕ), HistD exConf Benign h s ∧
    1 ∈ (ledger h).retired ∧ stepD exConf Faults.none s (.retire 1) = ok (.done s') := by
  have h4 := HistD.call (op := .retire 1) exAdds_histD (by simp [Legal, ledger, Ledger.after, exConf]) (none_benign _)
    (.retire (done_of (s₀ := init) (by decide +kernel)))
  exact ⟨_, _, _, h4, by simp [ledger, Ledger.after], done_of (s₀ := init) (by decide +kernel)⟩

/-- The log of a check that ends, in examples. -/
def logOf {α : Type} : Dbg (End (List α)) → List α
  | .ok (.done l) => l
  | .ok (.threw l) => l
  | _ => []

/-- Whether a check ends normally, in examples. -/
def checked {α : Type} : Dbg (End α) → Bool
  | .ok (.done _) => true
  | _ => false

theorem checked_of {α : Type} {r : Dbg (End (List α))} (h : checked r = true) : r = ok (.done (logOf r)) := by
  cases r with
  | ok e => cases e <;> first | rfl | cases h
  | failed => cases h
  | ub => cases h

/-- Whether a check throws, in examples. -/
def checkThrew {α : Type} : Dbg (End α) → Bool
  | .ok (.threw _) => true
  | _ => false

theorem checkThrew_of {α : Type} {r : Dbg (End (List α))} (h : checkThrew r = true) : r = ok (.threw (logOf r)) := by
  cases r with
  | ok e => cases e <;> first | rfl | cases h
  | failed => cases h
  | ub => cases h

/-- C90 is violated: the check destructs the data of (2,0) as that of (2,1). -/
theorem pairQueue_check_other_refuted : ∃ (log : List (Event ℕ)) (c r d : ℕ),
    checkOrder exConf Faults.none 2 1 [0] [] = ok (.done log) ∧ .destruct c r d ∈ log ∧ d ≠ exConf.compute c r :=
  ⟨_, 2, 1, 2, checked_of (by decide +kernel), mem_of_hasDestruct (by decide +kernel), by decide⟩

/-- Every comparison throws. -/
def anyFault : Faults := ⟨false, fun _ _ => false, fun _ _ => true⟩

/-- C90 is violated: if `compare` throws in the check, the data of both pairs is never destructed. -/
theorem pairQueue_check_leak_refuted : ∃ log : List (Event ℕ),
    checkOrder exConf anyFault 2 1 [0] [] = ok (.threw log) ∧ constructs log = destructs log + 2 :=
  ⟨_, checkThrew_of (by decide +kernel), by decide +kernel⟩

/-- The hypotheses of `pairQueue_check_balance_partial` are met by a check of three rows. -/
example : ∃ log : List (Event ℕ), checkOrder exConf Faults.none 3 2 [1, 0] [] = ok (.done log) ∧ constructs log = 4 ∧
    destructs log = 4 :=
  ⟨_, checked_of (by decide +kernel), by decide +kernel, by decide +kernel⟩

end Verif.PairQueue
