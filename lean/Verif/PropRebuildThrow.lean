import Verif.RebuildThrowProofs

/-!
# Property C103: exceptions in rebuilds of a `DivList`

The full statement would be: whatever an exception leaves, all calls on the list do what they should (`Sound`). It fails, see
the theorems that end in `_refuted`.
-/

namespace Verif.DivList

open Verif.DivMask (Bits Ext)

variable {T : Type} {c : Conf T}

/-! ## What holds -/

/-- An exception in a rebuild loses no entry and keeps the order; a rebuild that succeeds later makes the list as good as
new. -/
theorem rebuild_exception_partial (hl : c.Lawful) {s s' : State T} (h : Reachable c s) {f : RebuildFault}
    (ht : rebuildThrew c s f = some s') : s'.contents = s.contents ∧
      ∃ s'', step c s' .rebuild = some (.unit, s'') ∧ s''.contents = s.contents ∧ Sound c s'' := by
  obtain ⟨h1, -, -⟩ := rebuildThrew_contents ht
  obtain ⟨s'', g1, g2, g3⟩ := inv_of_rebuild hl (s := s') (fun hso => h1 ▸ (h.inv hl).sorted hso)
  exact ⟨h1, s'', by rw [step, g1]; rfl, g2.trans h1, sound_of_inv hl g3⟩

/-- An exception in the rebuild of an insertion leaves the entry in the list, at its place, and the next insertion makes the
list as good as new. -/
theorem insert_exception_partial (hl : c.Lawful) {s s' : State T} (h : Reachable c s) {e : T} {f : RebuildFault}
    (ht : insertThrew c s e f = some s') : Step c s.contents (.insert e) .unit s'.contents ∧
      ∀ e', ∃ s'', step c s' (.insert e') = some (.unit, s'') ∧
        Step c s'.contents (.insert e') .unit s''.contents ∧ Sound c s'' := by
  obtain ⟨l, h1, h2, h3, h4⟩ := insertThrew_split ht
  obtain ⟨g1, g2, -⟩ := rebuildThrew_contents h2
  obtain ⟨s1, k1, -, k3, k4⟩ := insert_spec hl (h.inv hl) e
  obtain ⟨s2, r1, r2, -⟩ := rebuild_spec hl { s with list := l }
  rw [h1, r1] at k1
  obtain rfl : s2 = s1 := Option.some.inj k1
  have hc : s'.contents = s2.contents := g1.trans r2.symm
  refine ⟨hc ▸ k4, fun e' => ?_⟩
  obtain ⟨s'', q1, q2, q3⟩ := inv_of_insert hl (s := s') (fun hso => hc ▸ k3.sorted hso) h3
    (by rw [g2]; exact h4) e'
  exact ⟨s'', by rw [step, q1]; rfl, q3, sound_of_inv hl q2⟩

/-- A list that an exception has damaged gives no false divisor and removes no entry that is no multiple. -/
theorem damaged_never_false {s s' : State T} {f : RebuildFault} (ht : rebuildThrew c s f = some s') (m : T) :
    (∀ e, findDivisor c s' m = some (some e) → e ∈ s.contents ∧ c.dm.divides e m = true) ∧
    ∀ out b s'', removeMultiples c s' m = some (out, b, s'') →
      (∀ e ∈ out, c.dm.divides m e = true) ∧ (out ++ s''.contents).Perm s.contents := by
  have h1 := (rebuildThrew_contents ht).1
  refine ⟨fun e he => ?_, fun out b s'' hr => h1 ▸ removeMultiples_sound hr⟩
  obtain ⟨x, hx, rfl, hd⟩ := findDivisor_sound he
  exact ⟨h1 ▸ List.mem_map_of_mem hx, divides_sound hd⟩

/-- Masks throw at entries that are in the list, and at each of them if there are masks and variables. -/
theorem masks_throw_iff (hl : c.Lawful) {s : State T} (k : ℕ) : (rebuildThrew c s (.masks k)).isSome ↔
    c.useDivMask = true ∧ 0 < c.dm.varCount ∧ k < s.contents.length := by
  have hlen : s.contents.length = s.list.length := by simp [State.contents]
  rw [hlen]
  unfold rebuildThrew
  cases hu : c.useDivMask with
  | false => simp
  | true =>
    obtain ⟨bits, hb⟩ := hl.noOverflow hu s.contents
    have hbits := (DivMask.built_tests (.rebuild _ hl.sortVars _ hb)).1
    have hne : bits.isEmpty = false ↔ 0 < c.dm.varCount := by
      cases bits with
      | nil =>
        split at hbits
        · simp [*]
        · cases hbits
      | cons b bits =>
        split at hbits
        · cases hbits
        · simp only [List.isEmpty_cons, true_iff]
          omega
    simp only [hb, Bool.not_true, Bool.false_eq_true, if_false, true_and]
    rw [← hne]
    split
    · rename_i h
      simp only [Bool.and_eq_true, decide_eq_true_eq, Bool.not_eq_true'] at h
      simp [h.1, h.2]
    · rename_i h
      simp only [Bool.and_eq_true, decide_eq_true_eq, Bool.not_eq_true'] at h
      simp only [Option.isSome_none, Bool.false_eq_true, false_iff]
      exact fun h' => h ⟨h'.2, h'.1⟩

/-- Entries whose masks had been calculated are found: a list without order that has a divisor among them gives one. -/
theorem damaged_finds_partial (hl : c.Lawful) (hso : c.sortOnInsert = false) {s s' : State T} {k : ℕ}
    (ht : rebuildThrew c s (.masks k) = some s') {e m : T} (he : e ∈ s.contents.take k) (hd : c.dm.divides e m = true) :
    ∃ d, findDivisor c s' m = some (some d) := by
  unfold rebuildThrew at ht
  cases hu : c.useDivMask with
  | false =>
    rw [hu] at ht
    cases ht
  | true =>
    simp only [hu, Bool.not_true, Bool.false_eq_true, if_false] at ht
    split at ht
    · cases ht
    · rename_i bits hb
      split at ht
      · cases ht
        have hbuilt : DivMask.Built c.dm bits := .rebuild _ hl.sortVars _ hb
        refine findDivisor_finds hso (x := Ext.make c.dm bits e) ?_ ?_
        · refine List.mem_append_left _ ?_
          unfold State.contents at he
          rw [← List.map_take] at he
          obtain ⟨x, hx, rfl⟩ := List.mem_map.1 he
          exact List.mem_map_of_mem (f := fun x => Ext.make c.dm bits x.t) hx
        · unfold divides ext
          rw [DivMask.ext_divides hl.masks hbuilt]
          exact hd
      · cases ht

/-- If the exception comes while the tests are made, at a variable, those on the variables before it are left. It comes from
variables that get tests only. -/
theorem tests_left {entries : List T} (hne : entries ≠ []) {bits : Bits}
    (hb : DivMask.rebuild c.dm c.sortVars entries = some bits) (v : ℕ) :
    calcThrew c entries (.tests v) =
      if DivMask.testsOn bits v = 0 then none else some (bits.filter (fun b => b.1 < v)) := by
  cases entries with
  | nil => exact absurd rfl hne
  | cons first rest =>
    unfold DivMask.rebuild at hb
    unfold calcThrew
    simp only at hb ⊢
    split at hb
    · cases hb
    · rename_i datas hd
      split at hb
      · cases hb
      · rename_i bs hbs
        have htests := (DivMask.allBits_shape _ _ _ hb).testsOn v
        rw [zero_add, ← List.getD_eq_getElem?_getD] at htests
        have htake := allBits_take _ _ v _ hb
        rw [zero_add] at htake
        simp only [hd, hbs]
        rw [htests, htake]

/-- An exception in the insertion of a range into an empty list without order, from the mask of entry `k`: the entries before
are in the list, and it is as good as new. -/
theorem insertRange_exception_partial (hl : c.Lawful) (hso : c.sortOnInsert = false) {s s' : State T}
    {es : List T} {k : ℕ} (ht : insertRangeThrew c s es (.masks k) = some s') :
    s.contents = [] ∧ s'.contents = es.take k ∧ k < es.length ∧ Sound c s' := by
  simp only [insertRangeThrew] at ht
  split at ht
  · cases ht
  · rename_i hc
    simp only [Bool.or_eq_true, Bool.not_eq_true', not_or, Bool.not_eq_false, List.isEmpty_iff] at hc
    split at ht
    · cases ht
    · rename_i bits hb
      split at ht
      · rename_i hk
        simp only [Bool.and_eq_true, decide_eq_true_eq] at hk
        cases ht
        have hbuilt : DivMask.Built c.dm bits := .rebuild _ hl.sortVars _ hb
        obtain ⟨g1, g2⟩ := maskInv_map (c := c) (fun _ => (DivMask.built_tests hbuilt).2.1) (es.take k) s.changes
        rw [hc.2, List.nil_append]
        exact ⟨by unfold State.contents; rw [hc.2]; rfl, g2, hk.1,
          sound_of_inv hl ⟨g1, fun h => by rw [hso] at h; cases h⟩⟩
      · cases ht

/-- An exception in the insertion of a range into an empty list before there are masks: the list is empty and as good as
new, with sorting and without. -/
theorem insertRange_exception_empty (hl : c.Lawful) {s s' : State T} {es : List T} {f : RebuildFault}
    (hf : ∀ k, f ≠ .masks k) (ht : insertRangeThrew c s es f = some s') :
    s.contents = [] ∧ s'.contents = [] ∧ Sound c s' := by
  have key : (if !c.useDivMask || !s.list.isEmpty then none
      else (calcThrew c es f).map (fun bits => { s with bits := bits })) = some s' := by
    cases f with
    | collect => exact ht
    | tests v => exact ht
    | masks k => exact absurd rfl (hf k)
  split at key
  · cases key
  · rename_i hc
    simp only [Bool.or_eq_true, Bool.not_eq_true', not_or, Bool.not_eq_false, List.isEmpty_iff] at hc
    obtain ⟨left, h1, rfl⟩ := Option.map_eq_some_iff.1 key
    have hnil : s.contents = [] := by unfold State.contents; rw [hc.2]; rfl
    have hr : InRange c left := by
      cases f with
      | masks k => cases h1
      | collect =>
        simp only [calcThrew] at h1
        split at h1
        · cases h1
        · cases h1
          nofun
      | tests v =>
        obtain ⟨bits, hb⟩ := hl.noOverflow hc.1 es
        have hne : es ≠ [] := by
          rintro rfl
          cases h1
        rw [tests_left hne hb] at h1
        split at h1
        · cases h1
        · cases h1
          intro b hmem
          exact (DivMask.built_tests (.rebuild _ hl.sortVars _ hb)).2.1 b (List.mem_filter.1 hmem).1
    refine ⟨hnil, hnil, sound_of_inv hl ⟨⟨fun _ => hr, ?_⟩, fun _ => ?_⟩⟩
    · show s.list = (s.list.map Ext.t).map _
      rw [hc.2]
      rfl
    · show Sorted _ s.contents
      rw [hnil]
      exact .nil

/-! ## What does not -/

/-- If the exception comes while data is collected no test is left. Then no entry with a mask other than zero is found, by any
search. -/
theorem collect_blind {s s' : State T} (ht : rebuildThrew c s .collect = some s') (hso : c.sortOnInsert = false)
    (hm : ∀ x ∈ s.list, x.mask ≠ 0) (m : T) : findDivisor c s' m = some none := by
  have hu := (rebuildThrew_contents ht).2.2
  have hs' : s' = { s with bits := [] } := by
    unfold rebuildThrew calcThrew at ht
    simp only [hu, Bool.not_true, Bool.false_eq_true, if_false] at ht
    split at ht
    · cases ht
    · cases ht
      rfl
  cases hf : findDivisor c s' m with
  | none =>
    unfold findDivisor findDivisorIterator at hf
    simp only [hso, Bool.not_false, if_true] at hf
    split at hf
    · cases hf
    · rename_i hne
      have hle : ∀ l : List (Ext T), findLoop c (ext c s' m) l ≤ l.length := by
        intro l
        induction l with
        | nil => exact Nat.le_refl _
        | cons y l ih =>
          rw [findLoop]
          split
          · exact Nat.zero_le _
          · exact Nat.succ_le_succ ih
      have hlt := Nat.lt_of_le_of_ne (hle s'.list) hne
      rw [List.getElem?_eq_getElem hlt] at hf
      cases hf
  | some r =>
    cases r with
    | none => rfl
    | some e =>
      obtain ⟨x, hx, -, hd⟩ := findDivisor_sound hf
      subst hs'
      exfalso
      apply hm x hx
      unfold divides Ext.divides at hd
      rw [if_pos hu] at hd
      split at hd
      · rename_i hc
        have hc : ((x.mask &&& ~~~(0 : BitVec 32)) == 0) = true := hc
        rw [show ~~~(0 : BitVec 32) = BitVec.allOnes 32 from rfl, BitVec.and_allOnes] at hc
        exact eq_of_beq hc
      · cases hd

/-- The list is `x`, its rebuild throws, and `x` is no longer found. -/
theorem rebuild_exception_refuted : ∃ s₀ s s' rs, init (exConf 1 true true false) = some s₀ ∧
    run (exConf 1 true true false) s₀ [.insert [1]] = some (rs, s) ∧
    rebuildThrew (exConf 1 true true false) s .collect = some s' ∧ Blind (exConf 1 true true false) s' [1] := by
  refine ⟨_, _, _, _, rfl, rfl, rfl, ?_, [1], ?_, ?_⟩
  · decide +kernel
  · decide
  · decide

/-- In a sorted array an exception in the insertion of a range leaves the entries before it unsorted, and the next search is
undefined. -/
theorem insertRange_exception_refuted : ∃ s₀ s', init (exConf 1 false true true) = some s₀ ∧
    insertRangeThrew (exConf 1 false true true) s₀ [[2], [1], [0]] (.masks 2) = some s' ∧
    s'.contents = [[2], [1]] ∧ findDivisor (exConf 1 false true true) s' [1] = none := by
  obtain ⟨bits, hb⟩ := (exConf_lawful 1 false true true).noOverflow rfl [[2], [1], [0]]
  have hlen := (DivMask.built_tests (.rebuild _ DivMask.exSort_isSort _ hb)).1
  have hne : bits.isEmpty = false := by
    cases bits with
    | nil => cases hlen
    | cons => rfl
  obtain ⟨s₀, h1, h2, -⟩ := init_spec (exConf_lawful 1 false true true)
  have hnil : s₀.list = [] := by simpa [State.contents] using h2
  refine ⟨s₀, { s₀ with bits := bits, list := [[2], [1]].map (Ext.make (exConf 1 false true true).dm bits) }, h1, ?_, rfl, rfl⟩
  unfold insertRangeThrew
  rw [hnil, hb]
  simp only [hne]
  rfl

/-! ## Examples -/

/-- What is seen after a fault: the entries and the answer to a search. -/
def exFault (f : RebuildFault) (m : List ℤ) : Option (List (List ℤ) × Option (Option (List ℤ))) :=
  match init (exConf 2 false true false) with
  | none => none
  | some s₀ =>
    match run (exConf 2 false true false) s₀ [.insertRange [[2, 1], [0, 3], [1, 1]]] with
    | none => none
    | some (_, s) => (rebuildThrew (exConf 2 false true false) s f).map
        (fun s' => (s'.contents, findDivisor (exConf 2 false true false) s' m))

#guard exFault .collect [4, 4] = some ([[2, 1], [0, 3], [1, 1]], some none)
#guard (exFault (.tests 1) [4, 4]).map (·.1) = some [[2, 1], [0, 3], [1, 1]]
#guard exFault (.masks 2) [4, 4] = some ([[2, 1], [0, 3], [1, 1]], some (some [2, 1]))
#guard (exFault (.masks 3) [4, 4]).isNone
#guard (exFault (.tests 2) [4, 4]).isNone

/-- An exception in the rebuild of an insertion: the second entry is in, and one more makes the list good. -/
def exInsertFault (f : RebuildFault) : Option (List (List ℤ) × Option (Option (List ℤ)) × Option (Option (List ℤ))) :=
  match init (exConf 1 true true true) with
  | none => none
  | some s₀ =>
    match insert (exConf 1 true true true) s₀ [5] with
    | none => none
    | some s =>
      match insertThrew (exConf 1 true true true) s [3] f with
      | none => none
      | some s' => some (s'.contents, findDivisor (exConf 1 true true true) s' [4],
          (insert (exConf 1 true true true) s' [9]).bind (fun s'' => findDivisor (exConf 1 true true true) s'' [4]))

/-- The entries after a fault of the insertion of a range into an empty list, and after one more insertion. -/
def exRangeFault (sorted : Bool) (f : RebuildFault) : Option (List (List ℤ) × Option (List (List ℤ))) :=
  match init (exConf 2 false true sorted) with
  | none => none
  | some s₀ => (insertRangeThrew (exConf 2 false true sorted) s₀ [[2, 1], [0, 3], [1, 1]] f).map
      (fun s' => (s'.contents, (insert (exConf 2 false true sorted) s' [1, 0]).map State.contents))

#guard exRangeFault true (.tests 1) = some ([], some [[1, 0]])
#guard exRangeFault false (.masks 2) = some ([[2, 1], [0, 3]], some [[2, 1], [0, 3], [1, 0]])

#guard exInsertFault .collect = some ([[3], [5]], some none, some (some [3]))
#guard (exInsertFault (.masks 1)).map (·.1) = some [[3], [5]]

/-- The hypotheses can be met: a reachable state in which a rebuild throws. -/
example : ∃ s s', Reachable (exConf 1 true true false) s ∧
    rebuildThrew (exConf 1 true true false) s .collect = some s' := by
  exact ⟨_, _, ⟨_, [.insert [1]], _, rfl, by simp [Allowed], rfl⟩, rfl⟩

end Verif.DivList
