import Verif.HashAssertProofs
import Verif.PropHashThrow

/-!
# Debug builds of `mathic::HashTable`: C91
-/

namespace Verif.HashTable

open Verif.Dbg

variable {K V : Type} {c : Conf K}

/-- C91 in full: whatever throws, except the vector for the new table, no assertion fails in a history that is defined, and the
debug build does what the release build does. -/
def DebugAgrees (c : Conf K) (nbits : ℕ) (cs : List (Op K V × Option Fault)) : Prop :=
  ∀ outs s, runT c (mk nbits) cs = some (outs, s) → runD c (mk nbits) cs = ok (outs, s)

theorem findEntry_of_lookup (hc : c.Lawful) {s : State K V} {l : List (Entry K V)} (h : InvT c s l) (k : K) :
    lookup c s k = some (findEntry c.eq l k) := by
  rcases lookupT_spec hc h k none with ⟨h1, _⟩ | ⟨_, h2⟩
  · have : lookupT c s k none = (lookup c s k).map some := by
      rw [lookupT, if_neg (by simp), lookup]
      cases s.table[c.hash k &&& s.mask]? with
      | none => rfl
      | some p =>
        rcases lookupLoopT_eq (c := c) (ns := s.nodes) k s.nodes.length none p with ⟨_, w, _⟩ | ⟨w, _⟩
        · exact (w rfl).elim
        · exact w
    rw [this] at h1
    obtain ⟨x, hx, e⟩ := Option.map_eq_some_iff.mp h1
    cases e
    exact hx
  · exact h2.elim

/-- C91, where it holds: as long as no call threw while it made an entry or while the table grew. The next call agrees too,
whatever it is and wherever it throws.
Missing, and false: the calls after one that threw there. -/
theorem hashTable_debug_agrees_partial (hc : c.Lawful) (nbits : ℕ) (cs : List (Op K V × Option Fault))
    (hft : ∀ x ∈ cs, x.2 ≠ some .table) (outs : List (Option (Out K V))) (s : State K V)
    (hr : runT c (mk nbits) cs = some (outs, s)) (hsp : ¬ Spoiled cs outs) :
    runD c (mk nbits) cs = ok (outs, s) ∧ ∀ op ft, stepD c s op ft = lift (stepT c s op ft) := by
  obtain ⟨l, n, h1, h2, _, _, h5, h6, _⟩ := runT_count hc cs (mk nbits) s [] 0 outs (invT_mk nbits) rfl hft hr
  refine ⟨h6 rfl hsp, fun op ft => ?_⟩
  rcases stepD_cases hc h1 op ft with h | ⟨_, _, h, _⟩
  · exact h
  · have := h5 hsp
    omega

/-- C91 without exceptions: a debug build gives the answers of C42. -/
theorem hashTable_debug_faultless (hc : c.Lawful) (nbits : ℕ) (ops : List (Op K V)) (outs : List (Out K V))
    (hr : (run c (mk nbits) ops).map Prod.fst = some outs) :
    ∃ s, runD c (mk nbits) (ops.map (·, none)) = ok (outs.map some, s) := by
  have h := runT_faultless hc nbits ops
  obtain ⟨r, hr1, hr2⟩ := Option.map_eq_some_iff.mp hr
  rw [hr1] at h
  obtain ⟨q, hq1, hq2⟩ := Option.map_eq_some_iff.mp h
  obtain ⟨qo, s⟩ := q
  simp only at hq2
  subst hq2 hr2
  refine ⟨s, (hashTable_debug_agrees_partial hc nbits _ (by simp) _ s hq1 ?_).1⟩
  generalize List.map some r.1 = os
  clear hr1 hq1 h hr
  induction ops generalizing os with
  | nil => exact id
  | cons op ops ih =>
    cases os with
    | nil => exact id
    | cons o os =>
      rintro (⟨_, h | h | ⟨i, h⟩⟩ | h)
      · cases h
      · cases h
      · cases h
      · exact ih os h

/-- C91, what is left of it in every other history: the debug build does what the release build does, or an assertion fails. -/
theorem hashTable_debug_total_partial (hc : c.Lawful) (nbits : ℕ) (cs : List (Op K V × Option Fault))
    (hft : ∀ x ∈ cs, x.2 ≠ some .table) (outs : List (Option (Out K V))) (s : State K V)
    (hr : runT c (mk nbits) cs = some (outs, s)) :
    runD c (mk nbits) cs = ok (outs, s) ∨ runD c (mk nbits) cs = failed := by
  obtain ⟨l, n, _, _, _, _, _, _, h7⟩ := runT_count hc cs (mk nbits) s [] 0 outs (invT_mk nbits) rfl hft hr
  exact h7

/-- C91: the count is right exactly as long as no call threw while it made an entry or while the table grew. -/
theorem hashTable_count_iff (hc : c.Lawful) (nbits : ℕ) (cs : List (Op K V × Option Fault))
    (hft : ∀ x ∈ cs, x.2 ≠ some .table) (outs : List (Option (Out K V))) (s : State K V)
    (hr : runT c (mk nbits) cs = some (outs, s)) : computeNodeCount s = some s.nodeCount ↔ ¬ Spoiled cs outs := by
  obtain ⟨l, n, h1, h2, _, h4, h5, _⟩ := runT_count hc cs (mk nbits) s [] 0 outs (invT_mk nbits) rfl hft hr
  rw [computeNodeCount_links h1, Option.some_inj]
  constructor
  · intro h hx
    have := h4 hx
    omega
  · intro hx
    have := h5 hx
    omega

/-- C91 is false: once a call threw while it made an entry or while the table grew, an assertion fails in every later insertion
of a new key that gets as far as that, and in no other call. -/
theorem hashTable_debug_spoiled (hc : c.Lawful) (nbits : ℕ) (cs : List (Op K V × Option Fault))
    (hft : ∀ x ∈ cs, x.2 ≠ some .table) (outs : List (Option (Out K V))) (s : State K V)
    (hr : runT c (mk nbits) cs = some (outs, s)) (hsp : Spoiled cs outs) :
    (∀ k v ft, lookup c s k = some none → ft = none ∨ ft = some .table ∨ (∃ i, ft = some (.rehash i)) →
      stepD c s (.insert k v) ft = failed) ∧
    ∀ op ft, stepD c s op ft = lift (stepT c s op ft) ∨
      (stepD c s op ft = failed ∧ (∃ k v, op = .insert k v ∧ lookup c s k = some none) ∧
        ft ≠ some .hash ∧ ft ≠ some .alloc ∧ ft ≠ some .copy) := by
  obtain ⟨l, n, h1, h2, _, h4, _⟩ := runT_count hc cs (mk nbits) s [] 0 outs (invT_mk nbits) rfl hft hr
  have hn : s.nodeCount ≠ links l := by
    have := h4 hsp
    omega
  refine ⟨fun k v ft hk hf => ?_, fun op ft => ?_⟩
  · rw [findEntry_of_lookup hc h1, Option.some_inj] at hk
    rw [stepD, insertD_failed hc h1 hn k v hk hf]
    rfl
  · rcases stepD_cases hc h1 op ft with h | ⟨h, ⟨k, v, rfl, hk⟩, _, h3⟩
    · exact .inl h
    · exact .inr ⟨h, ⟨k, v, rfl, by rw [findEntry_of_lookup hc h1, hk]⟩, h3⟩

/-- C91 is false, a concrete case: memory runs out in an insertion, the caller goes on, and the next insertion stops the program.
A release build goes on as if nothing had happened. -/
theorem hashTable_debug_refuted : ¬ DebugAgrees (V := ℕ) ids 10 [(.insert 1 10, some .alloc), (.insert 2 20, none)] := by
  intro h
  have h1 : (match runD ids (mk 10 : State ℕ ℕ) [(.insert 1 10, some .alloc), (.insert 2 20, none)] with
    | failed => true
    | _ => false) = true := by decide +kernel
  rw [h _ _ rfl] at h1
  cases h1

/-- The same for an exception of `hash` while the table grows. -/
theorem hashTable_debug_rehash_refuted :
    ¬ DebugAgrees (V := ℕ) ids 4 [(.insert 1 10, none), (.insert 2 20, some (.rehash 1)), (.insert 2 20, none)] := by
  intro h
  have h1 : (match runD ids (mk 4 : State ℕ ℕ) [(.insert 1 10, none), (.insert 2 20, some (.rehash 1)), (.insert 2 20, none)] with
    | failed => true
    | _ => false) = true := by decide +kernel
  rw [h _ _ rfl] at h1
  cases h1

/-- C91: after an exception of the vector for the new table, where the release build is undefined (C80), the assertions catch
every lookup and insertion of a key whose bin is not one of the bins of the old table. Any other insertion finds its key or is
undefined, as the assertion on the count itself reads past the end of the table. -/
theorem hashTable_debug_table (hc : c.Lawful) (nbits : ℕ) (cs : List (Op K V × Option Fault))
    (hft : ∀ x ∈ cs, x.2 ≠ some .table) (outs : List (Option (Out K V))) (s : State K V)
    (hr : runT c (mk nbits) cs = some (outs, s)) (hsp : ¬ Spoiled cs outs) (k : K) (v : V)
    (hno : lookup c s k = some none) (hfull : s.maxCount ≤ s.nodeCount) :
    ∃ s', stepD c s (.insert k v) (some .table) = ok (none, s') ∧
      (∀ k', s.tableSize ≤ c.hash k' % (4 * s.tableSize) →
        stepD c s' (.lookup k') none = failed ∧ ∀ v', stepD c s' (.insert k' v') none = failed) ∧
      ∀ k' v', c.hash k' % (4 * s.tableSize) < s.tableSize →
        (∃ i, stepD c s' (.insert k' v') none = ok (some (.inserted false i), s')) ∨
        stepD c s' (.insert k' v') none = ub := by
  obtain ⟨l, n, h1, h2, _⟩ := runT_count hc cs (mk nbits) s [] 0 outs (invT_mk nbits) rfl hft hr
  rw [findEntry_of_lookup hc h1, Option.some_inj] at hno
  obtain ⟨s', g1, g2, g3, g4, g5⟩ := insertT_table hc h1 k v hno hfull
  have h6 : 2 ^ (s.logSize + 2) = 4 * s.tableSize := by rw [h1.sized.size, pow_add]; omega
  have hpos : 0 < s.tableSize := by rw [h1.sized.size]; exact Nat.two_pow_pos _
  refine ⟨s', ?_, fun k' hk' => ?_, fun k' v' hk' => ?_⟩
  · rw [(hashTable_debug_agrees_partial hc nbits cs hft outs s hr hsp).2, stepT, g1]
    rfl
  · have hout : assert (decide (c.hash k' &&& s'.mask < s'.table.length)) = failed := by
      rw [g2, Nat.and_two_pow_sub_one_eq_mod, g3, h6, decide_eq_false (by omega)]
      rfl
    constructor
    · rw [stepD, lookupD, if_neg (by simp), hout]
      rfl
    · intro v'
      rw [stepD, insertD, if_neg (by simp), hout]
      rfl
  · have hin : assert (decide (c.hash k' &&& s'.mask < s'.table.length)) = ok () := by
      rw [g2, Nat.and_two_pow_sub_one_eq_mod, g3, h6, decide_eq_true hk']
      rfl
    rw [stepD, insertD, if_neg (by simp), hin, ok_bind]
    have hcount := insertMid_count (c := c) s' (c.hash k' &&& s'.mask) k' v' none
    have hsizes := @insertMid_sizes _ _ c s' (c.hash k' &&& s'.mask) k' v' none
    generalize insertMid c s' (c.hash k' &&& s'.mask) k' v' none = m at hcount hsizes
    cases m with
    | undef => exact .inr rfl
    | threw s₁ => rcases hcount with ⟨_, i, e⟩ | ⟨_, e | e⟩ <;> cases e
    | found i => exact .inl ⟨i, rfl⟩
    | linked r s₁ =>
      right
      obtain ⟨e1, e2, e3⟩ := hsizes rfl
      simp only at hcount ⊢
      rw [insertEndD, if_pos (by omega), growD, countD, if_pos (by omega)]
      rfl

/-- How a run ended, for the examples. -/
def ending {α : Type} : Dbg (List α × State ℕ ℕ) → Dbg (List α)
  | ok r => ok r.1
  | failed => failed
  | ub => ub

/-- The hypotheses are met by a history with exceptions, in which the table grows. -/
example : ∃ (outs : List (Option (Out ℕ ℕ))) (s : State ℕ ℕ),
    runT ids (mk 4) [(.insert 1 10, none), (.lookup 1, some .hash), (.insert 2 20, some (.equal 0)), (.insert 1 11, some .alloc),
      (.insert 17 30, some (.equal 0)), (.insert 33 40, none)] = some (outs, s) ∧
    outs = [some (.inserted true 0), none, some (.inserted true 1), some (.inserted false 0), some (.inserted true 2),
      some (.inserted true 3)] ∧ s.table.length = 64 := by
  refine ⟨_, _, rfl, by decide +kernel, by decide +kernel⟩

example : ¬ Spoiled ([(.insert 1 10, none), (.lookup 1, some .hash), (.insert 1 11, some .alloc)] : List (Op ℕ ℕ × Option Fault))
    [some (.inserted true 0), none, some (.inserted false 0)] := by
  simp [Spoiled, Spoils]

example : Spoiled ([(.insert 1 10, none), (.insert 2 11, some .alloc)] : List (Op ℕ ℕ × Option Fault))
    [some (.inserted true 0), none] := .inr (.inl ⟨rfl, .inl rfl⟩)

#guard ending (runD ids (mk 4 : State ℕ ℕ) [(.insert 1 10, none), (.lookup 1, some .hash), (.insert 2 20, some (.equal 0)),
    (.insert 1 11, some .alloc), (.insert 33 40, none), (.lookup 33, none), (.setValue 0 5, none), (.getEntry 0, none)]) =
  ok [some (.inserted true 0), none, some (.inserted true 1), some (.inserted false 0), some (.inserted true 2),
    some (.found (some 2)), some .done, some (.entry 1 5)]

/-- After an exception in `alloc` a debug build still answers everything but the insertion of a new key. -/
example : ending (runD ids (mk 4 : State ℕ ℕ) [(.insert 1 10, none), (.insert 2 20, some .alloc), (.lookup 1, none),
    (.insert 1 11, none), (.insert 2 20, some .copy)]) =
  ok [some (.inserted true 0), none, some (.found (some 0)), some (.inserted false 0), none] := by decide +kernel

#guard ending (runD ids (mk 4 : State ℕ ℕ) [(.insert 1 10, none), (.insert 2 20, some .copy), (.insert 2 20, none)]) = failed

/-- After an exception of the vector: the key 20 is caught, the key 3 is not. -/
example : ending (runD ids (mk 4 : State ℕ ℕ) [(.insert 1 10, none), (.insert 2 20, some .table), (.lookup 20, none)]) = failed ∧
    ending (runD ids (mk 4 : State ℕ ℕ) [(.insert 1 10, none), (.insert 2 20, some .table), (.insert 20 0, none)]) = failed ∧
    ending (runD ids (mk 4 : State ℕ ℕ) [(.insert 1 10, none), (.insert 2 20, some .table), (.insert 3 0, none)]) = ub := by
  decide +kernel

end Verif.HashTable
