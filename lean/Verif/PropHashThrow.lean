import Verif.HashThrowProofs
import Verif.PropHashTable

/-!
# Exceptions in `mathic::HashTable`: C80
-/

namespace Verif.HashTable

variable {K V : Type*} {c : Conf K}

/-- C80 in full: calls that throw leave no trace. Whatever the places where calls throw, leaving out the calls that threw
gives a history on which the table gives the same answers to all other calls. -/
def Harmless (c : Conf K) (nbits : ℕ) (cs : List (Op K V × Option Fault)) : Prop :=
  ∀ outs s, runT c (mk nbits) cs = some (outs, s) →
    (run c (mk nbits) (answeredCalls cs outs)).map Prod.fst = some (outs.filterMap id)

/-- C80, where it holds: for exceptions that are not thrown while the table grows.
Missing, and false: exceptions thrown while the table grows. -/
theorem exceptions_harmless_partial (hc : c.Lawful) (nbits : ℕ) (cs : List (Op K V × Option Fault))
    (hm : ∀ x ∈ cs, Fault.Mild x.2) : Harmless c nbits cs := by
  intro outs s hr
  have hb := runT_spec hc cs (mk nbits) [] (invT_mk nbits) (by
    intro x hx heq
    have := hm x hx
    rw [heq] at this
    exact this)
  rw [hr] at hb
  rw [hashTable_correct hc]
  exact hb.answered_eq hm [] rfl outs rfl

/-- C80, what is left of it when `hash` throws while the table grows: each call gives the right answer, or throws and
changes nothing, or throws and makes the table forget entries. Handles and what they refer to stay as they are, keys that are
found are right, and nothing is undefined except handles that were never given out.
Missing, and false: an exception in the vector for the new table. -/
theorem exceptions_behave_partial (hc : c.Lawful) (nbits : ℕ) (cs : List (Op K V × Option Fault))
    (hft : ∀ x ∈ cs, x.2 ≠ some .table) : Behaves c.eq [] cs ((runT c (mk nbits) cs).map Prod.fst) :=
  runT_spec hc cs (mk nbits) [] (invT_mk nbits) hft

/-- C80: a history of insertions and lookups is defined, whatever throws except the vector for the new table. -/
theorem exceptions_defined_partial (hc : c.Lawful) (nbits : ℕ) (cs : List (Op K V × Option Fault))
    (hft : ∀ x ∈ cs, x.2 ≠ some .table) (hk : ∀ x ∈ cs, x.1.key?.isSome = true) : runT c (mk nbits) cs ≠ none := by
  intro hr
  have := exceptions_behave_partial hc nbits cs hft
  rw [hr] at this
  exact this.defined hk rfl

/-- The calls that this is about are those of C42: without faults they do the same. -/
theorem runT_faultless (hc : c.Lawful) (nbits : ℕ) (ops : List (Op K V)) :
    (runT c (mk nbits) (ops.map (·, none))).map Prod.fst =
      (run c (mk nbits) ops).map (fun r => r.1.map some) := by
  have := exceptions_behave_partial hc nbits (ops.map (·, none)) (by simp)
  rw [this.faultless (by simp) [] rfl]
  have h := congrArg (Option.map (List.map some)) (hashTable_correct hc nbits ops)
  rw [Option.map_map, Option.map_map] at h
  rw [List.map_map]
  exact (congrArg _ (congrArg _ (List.map_id ops))).trans h.symm

/-- C80 is false when the vector for the new table throws: after any history, if the table has to grow for a new key
and the vector throws, then a later lookup of any key whose bin is not one of the bins of the old table reads past the end of
the table, and a later insertion is undefined unless it finds its key, since else the table grows again. -/
theorem table_undefined (hc : c.Lawful) (nbits : ℕ) (cs : List (Op K V × Option Fault)) (hft : ∀ x ∈ cs, x.2 ≠ some .table)
    (outs : List (Option (Out K V))) (s : State K V) (hr : runT c (mk nbits) cs = some (outs, s)) (k : K) (v : V)
    (hno : lookup c s k = some none) (hfull : s.maxCount ≤ s.nodeCount) :
    ∃ s', stepT c s (.insert k v) (some .table) = some (none, s') ∧
      (∀ k', s.tableSize ≤ c.hash k' % (4 * s.tableSize) →
        stepT c s' (.lookup k') none = none ∧ ∀ v', stepT c s' (.insert k' v') none = none) ∧
      ∀ k' v' o s'', stepT c s' (.insert k' v') none = some (o, s'') → s'' = s' ∧ ∃ i, o = some (.inserted false i) := by
  obtain ⟨l, h⟩ := runT_inv hc cs (mk nbits) s [] outs (invT_mk nbits) hft hr
  have hno' : findEntry c.eq l k = none := by
    rcases lookupT_spec hc h k none with ⟨h1, _⟩ | ⟨_, h2⟩
    · have : lookupT c s k none = (lookup c s k).map some := by
        rw [lookupT, if_neg (by simp), lookup]
        cases s.table[c.hash k &&& s.mask]? with
        | none => rfl
        | some p =>
          rcases lookupLoopT_eq (c := c) (ns := s.nodes) k s.nodes.length none p with ⟨_, w, _⟩ | ⟨w, _⟩
          · exact (w rfl).elim
          · exact w
      rw [this, hno] at h1
      simpa using h1.symm
    · exact h2.elim
  obtain ⟨s', h1, h2, h3, h4, h5⟩ := insertT_table hc h k v hno' hfull
  have h6 : 2 ^ (s.logSize + 2) = 4 * s.tableSize := by rw [h.sized.size, pow_add]; omega
  have hpos : 0 < s.tableSize := by rw [h.sized.size]; exact Nat.two_pow_pos _
  refine ⟨s', by rw [stepT, h1]; rfl, fun k' hk' => ?_, fun k' v' o s'' hs => ?_⟩
  swap
  · rw [stepT] at hs
    obtain ⟨r, hr, he⟩ := Option.map_eq_some_iff.mp hs
    obtain ⟨i, rfl⟩ := insertT_broken (by omega) h5 hr
    cases he
    exact ⟨rfl, i, rfl⟩
  have hout : s'.table[c.hash k' &&& s'.mask]? = none := by
    rw [h2, Nat.and_two_pow_sub_one_eq_mod, List.getElem?_eq_none]
    rw [h3, h6]
    exact hk'
  constructor
  · simp [stepT, lookupT, hout]
  · intro v'
    simp [stepT, insertT, hout]

/-- The configuration of the examples: numbers, with themselves as hash values. -/
def ids : Conf ℕ := ⟨id, (· == ·), true⟩

theorem ids_lawful : ids.Lawful := ⟨by simp [ids], by simp [ids], by simp [ids], by simp [ids]⟩

/-- C80 is false when the vector for the new table throws, a concrete case: a table with 16 bins grows at the second key. When
this throws, then looking for 20 is undefined, where C80 demands that nothing is found. -/
theorem table_refuted :
    runT ids (mk 4 : State ℕ ℕ) [(.insert 1 10, none), (.insert 2 20, some .table), (.lookup 20, none)] = none := by
  decide

/-- The same without a crash: the key of the insertion that threw is in the table. -/
theorem table_harmless_refuted : ¬ Harmless (V := ℕ) ids 4 [(.insert 1 10, none), (.insert 2 20, some .table), (.lookup 2, none)] := by
  intro h
  have := h _ _ rfl
  revert this
  decide

/-- C80 is false when `hash` throws while the table grows: keys that were inserted by other calls are lost. -/
theorem rehash_refuted : ¬ Harmless (V := ℕ) ids 4 [(.insert 1 10, none), (.insert 2 20, some (.rehash 0)), (.lookup 1, none)] := by
  intro h
  have := h _ _ rfl
  revert this
  decide

/-- After an exception in `alloc` the count is not the number of nodes, which the next insertion of a new key asserts
(src/mathic/HashTable.h:219). -/
theorem count_refuted : ∃ (outs : List (Option (Out ℕ ℕ))) (s : State ℕ ℕ),
    runT ids (mk 10) [(.insert 1 10, some .alloc), (.insert 2 20, none)] = some (outs, s) ∧
      computeNodeCount s = some 1 ∧ s.nodeCount = 2 := by
  refine ⟨_, _, rfl, ?_, rfl⟩
  decide +kernel

/-- The hypotheses are met, with a table that grows, and each way to throw. -/
example : (∀ x ∈ ([(.insert 1 10, none), (.insert 2 20, some .alloc), (.insert 17 30, some .copy), (.lookup 1, some .hash),
    (.lookup 1, some (.equal 0)), (.insert 2 20, none)] : List (Op ℕ ℕ × Option Fault)), Fault.Mild x.2) ∧ ids.Lawful :=
  ⟨by simp [Fault.Mild], ids_lawful⟩

#guard (runT ids (mk 4) [(.insert 1 10, none), (.insert 2 20, some .alloc), (.insert 17 30, some .copy), (.lookup 1, some .hash),
    (.lookup 1, some (.equal 0)), (.lookup 1, some (.equal 1)), (.insert 2 20, none), (.insert 1 11, some .alloc), (.lookup 2, none),
    (.lookup 17, none)] :
    Option (List (Option (Out ℕ ℕ)) × _)).map Prod.fst
  == some [some (.inserted true 0), none, none, none, none, some (.found (some 0)), some (.inserted true 1), some (.inserted false 0),
    some (.found (some 1)), some (.found none)]

/-- Two exceptions in `alloc` are enough for a table of 16 bins to grow at its first key. -/
example : (runT ids (mk 4) [(.insert 1 10, some .alloc), (.insert 1 10, some .alloc), (.insert 1 10, none)] :
    Option (List (Option (Out ℕ ℕ)) × _)).map (fun r => r.2.table.length) = some 64 := by decide +kernel

/-- The hypotheses of `table_undefined` are met. -/
example : ∃ (s : State ℕ ℕ), runT ids (mk 4) [(.insert 1 10, none)] = some ([some (.inserted true 0)], s) ∧
    lookup ids s 2 = some none ∧ s.maxCount ≤ s.nodeCount ∧ s.tableSize ≤ ids.hash 20 % (4 * s.tableSize) :=
  ⟨_, rfl, by decide, by decide, by decide⟩

/-- After `hash` has thrown while the table grows: the keys from there on are lost, the handles still work, and a lost key
can be inserted again. -/
example : (runT ids (mk 4) [(.insert 1 10, none), (.insert 2 20, some (.rehash 1)), (.lookup 1, none), (.lookup 2, none),
    (.getEntry 1, none), (.insert 2 30, none), (.lookup 2, none)] : Option (List (Option (Out ℕ ℕ)) × _)).map Prod.fst =
    some [some (.inserted true 0), none, some (.found (some 0)), some (.found none), some (.entry 2 20), some (.inserted true 2),
      some (.found (some 2))] := by decide +kernel

/-- C80, what the faults stand for: in a bucket whose chain is `l`, call number `i` of `keysEqual` throws out of `lookup` and out of
`insert` if and only if there is a call with that number, so that every place where it can throw is among the faults. -/
theorem equal_fault_places {s : State K V} {k : K} {v : V} {p : Option ℕ} {l : List ℕ}
    (hp : s.table[c.hash k &&& s.mask]? = some p) (hc : IsChain s.nodes p l) (hl : l.length ≤ s.nodes.length) (i : ℕ) :
    (lookupT c s k (some (.equal i)) = some none ↔ i < searched c.eq k (keysAt s.nodes l)) ∧
    (i < searched c.eq k (keysAt s.nodes l) → insertT c s k v (some (.equal i)) = some (.threw s)) := by
  constructor
  · rw [lookupT, if_neg (by simp), hp]
    exact lookupLoopT_throws k l p _ i hc hl
  · intro hi
    rw [insertT, if_neg (by simp)]
    simp only [hp]
    cases p with
    | none => rw [hc.none] at hi; exact absurd hi (by simp [keysAt, searched])
    | some t =>
      simp only [Fault.inEqual]
      rw [(walkT_throws k l t _ i hc hl).mpr hi]

/-- A chain of two keys: the second comparison can throw, a third one is not made. -/
example : ∃ s : State ℕ ℕ, runT ids (mk 10) [(.insert 1 10, none), (.insert 1025 30, none)] = some ([some (.inserted true 0),
    some (.inserted true 1)], s) ∧ lookupT ids s 2049 (some (.equal 1)) = some none ∧
    lookupT ids s 2049 (some (.equal 2)) = some (some none) := ⟨_, rfl, by decide +kernel, by decide +kernel⟩

end Verif.HashTable
