import Verif.RebuildThrowSpec
import Verif.PropDivList

/-!
# Lemmas on rebuilds that throw
-/

namespace Verif.DivList

open Verif.DivMask (Bits Ext)

variable {T : Type} {c : Conf T}

theorem rebuildThrew_contents {s s' : State T} {f : RebuildFault} (h : rebuildThrew c s f = some s') :
    s'.contents = s.contents ∧ s'.changes = s.changes ∧ c.useDivMask = true := by
  have hother : ∀ f, (if !c.useDivMask then none else (calcThrew c s.contents f).map (fun bits => { s with bits := bits })) =
      some s' → s'.contents = s.contents ∧ s'.changes = s.changes ∧ c.useDivMask = true := by
    intro f h
    cases hu : c.useDivMask with
    | false =>
      rw [hu] at h
      cases h
    | true =>
      rw [hu] at h
      obtain ⟨bits, -, rfl⟩ := Option.map_eq_some_iff.1 (show (calcThrew c s.contents f).map _ = some s' from h)
      exact ⟨rfl, rfl, rfl⟩
  cases f with
  | collect => exact hother _ h
  | tests v => exact hother _ h
  | masks k =>
    unfold rebuildThrew at h
    cases hu : c.useDivMask with
    | false =>
      rw [hu] at h
      cases h
    | true =>
      simp only [hu, Bool.not_true, Bool.false_eq_true, if_false] at h
      split at h
      · cases h
      · rename_i bits hb
        split at h
        · cases h
          refine ⟨?_, rfl, rfl⟩
          unfold State.contents
          rw [List.map_append, List.map_map, List.map_drop]
          conv_rhs => rw [← List.take_append_drop k (s.list.map Ext.t)]
          rw [← List.map_take]
          rfl
        · cases h

theorem findLoop_sound {m : Ext T} : ∀ l : List (Ext T), findLoop c m l < l.length →
    ∃ e, l[findLoop c m l]? = some e ∧ divides c e m = true := by
  intro l
  induction l with
  | nil => intro h; cases h
  | cons e l ih =>
    intro h
    by_cases hd : divides c e m = true
    · rw [findLoop, if_pos hd]
      exact ⟨e, rfl, hd⟩
    · rw [findLoop, if_neg hd] at h ⊢
      rw [List.getElem?_cons_succ]
      exact ih (by simpa using h)

theorem findSortedList_sound {m : Ext T} : ∀ (l : List (Ext T)) (count i : ℕ), findSortedList c m count l = some i →
    ∃ e, l[i]? = some e ∧ divides c e m = true := by
  intro l
  induction l with
  | nil => intro count i h; cases h
  | cons e l ih =>
    have key : ∀ count i, (if divides c e m then some 0 else (findSortedList c m count l).map (· + 1)) = some i →
        ∃ x, (e :: l)[i]? = some x ∧ divides c x m = true := by
      intro count i h
      by_cases hd : divides c e m = true
      · rw [if_pos hd] at h
        cases h
        exact ⟨e, rfl, hd⟩
      · rw [if_neg hd] at h
        obtain ⟨j, hj, rfl⟩ := Option.map_eq_some_iff.1 h
        rw [List.getElem?_cons_succ]
        exact ih _ _ hj
    intro count i h
    rw [findSortedList] at h
    split at h
    · split at h
      · cases h
      · exact key _ _ h
    · exact key _ _ h

/-- What `findDivisor` finds in any state at all is in the list, and its mask and the configuration say that it divides. -/
theorem findDivisor_sound {s : State T} {m e : T} (h : findDivisor c s m = some (some e)) :
    ∃ x ∈ s.list, x.t = e ∧ divides c x (ext c s m) = true := by
  unfold findDivisor at h
  cases hi : findDivisorIterator c s m with
  | none =>
    rw [hi] at h
    cases h
  | some i =>
    rw [hi] at h
    simp only at h
    split at h
    · cases h
    · rename_i hne
      have key : ∃ x, s.list[i]? = some x ∧ divides c x (ext c s m) = true := by
        unfold findDivisorIterator at hi
        simp only at hi
        split at hi
        · cases hi
          refine findLoop_sound _ ?_
          by_contra hlt
          have hle : findLoop c (ext c s m) s.list ≤ s.list.length := by
            clear hlt hne h
            induction s.list with
            | nil => exact Nat.le_refl _
            | cons y l ih =>
              rw [findLoop]
              split
              · exact Nat.zero_le _
              · exact Nat.succ_le_succ ih
          omega
        · split at hi
          · cases hs : findSortedList c (ext c s m) 0 s.list with
            | none =>
              rw [hs] at hi
              cases hi
              exact absurd rfl hne
            | some j =>
              rw [hs] at hi
              cases hi
              exact findSortedList_sound _ _ _ hs
          · unfold findSortedVector at hi
            cases hk : upperBound (comparer c) s.list (ext c s m) with
            | none =>
              rw [hk] at hi
              cases hi
            | some k =>
              rw [hk] at hi
              simp only [Option.some.injEq] at hi
              split at hi
              · rename_i hlt
                subst hi
                obtain ⟨x, hx, hd⟩ := findLoop_sound _ hlt
                refine ⟨x, ?_, hd⟩
                rw [List.getElem?_take] at hx
                split at hx
                · exact hx
                · cases hx
              · exact absurd hi.symm hne
      obtain ⟨x, hx, hd⟩ := key
      rw [hx] at h
      cases h
      exact ⟨x, List.mem_of_getElem? hx, rfl, hd⟩

theorem divides_sound {a b : Ext T} (h : divides c a b = true) : c.dm.divides a.t b.t = true := by
  unfold divides Ext.divides at h
  split at h
  · split at h
    · exact h
    · cases h
  · exact h

/-- In a list without order some divisor is found if there is one that its mask allows. -/
theorem findDivisor_finds {s : State T} (hso : c.sortOnInsert = false) {m : T} {x : Ext T} (hx : x ∈ s.list)
    (hd : divides c x (ext c s m) = true) : ∃ e, findDivisor c s m = some (some e) := by
  have hlt : findLoop c (ext c s m) s.list < s.list.length := by
    revert hx
    generalize s.list = l
    intro hx
    induction l with
    | nil => cases hx
    | cons y l ih =>
      rw [findLoop]
      split
      · exact Nat.zero_lt_succ _
      · rename_i hn
        rcases List.mem_cons.1 hx with rfl | hx
        · exact absurd hd hn
        · exact Nat.succ_lt_succ (ih hx)
  unfold findDivisor findDivisorIterator
  simp only [hso, Bool.not_false, if_true]
  rw [if_neg (by omega)]
  obtain ⟨e, he, -⟩ := findLoop_sound s.list hlt
  rw [he]
  exact ⟨_, rfl⟩

theorem sound_of_inv (hl : c.Lawful) {s : State T} (h : Inv c s) : Sound c s := by
  intro ops ha rs s' hr
  obtain ⟨hi, ht⟩ := (run_spec hl ops h ha).2 _ _ hr
  refine ⟨ht, fun op hop => ?_⟩
  rcases step_spec hl hi op hop with ⟨h1, h2, _⟩ | ⟨h1, r, s'', h2, _⟩
  · simp [h1, h2]
  · simp [h1, h2]

theorem inv_of_rebuild (hl : c.Lawful) {s : State T} (hs : c.sortOnInsert = true → Sorted c.isLessThan s.contents) :
    ∃ s', rebuild c s = some s' ∧ s'.contents = s.contents ∧ Inv c s' := by
  obtain ⟨s', h1, h2, h3⟩ := rebuild_spec hl s
  exact ⟨s', h1, h2, ⟨h3, fun h => h2 ▸ hs h⟩⟩

theorem insertThrew_split {s s' : State T} {e : T} {f : RebuildFault} (h : insertThrew c s e f = some s') :
    ∃ l, insert c s e = rebuild c { s with list := l } ∧ rebuildThrew c { s with list := l } f = some s' ∧
      c.doAutomaticRebuilds = true ∧ s.changes ≤ 1 := by
  unfold insertThrew at h
  split at h
  · cases h
  · rename_i l hlist
    split at h
    · cases h
    · rename_i hc
      simp only [Bool.or_eq_true, Bool.not_eq_true', decide_eq_true_eq, not_or, Bool.not_eq_false, not_lt] at hc
      refine ⟨l, ?_, h, hc.1, hc.2⟩
      have hrep : reportChanges c { s with list := l } 1 = rebuild c { s with list := l } := by
        unfold reportChanges
        rw [if_neg (by simp [hc.1]), if_neg (by show ¬ s.changes > 1; omega)]
      unfold insert
      cases hso : c.sortOnInsert with
      | false =>
        simp only [hso, Bool.not_false, if_true, Option.some.injEq] at hlist
        subst hlist
        exact hrep
      | true =>
        simp only [hso, Bool.not_true, Bool.false_eq_true, if_false] at hlist
        simp only [Bool.not_true, Bool.false_eq_true, if_false, hlist]
        exact hrep

/-- An insertion that rebuilds makes a good state, whatever the masks were before. -/
theorem inv_of_insert (hl : c.Lawful) {s : State T} (hs : c.sortOnInsert = true → Sorted c.isLessThan s.contents)
    (ha : c.doAutomaticRebuilds = true) (hc : s.changes ≤ 1) (e : T) :
    ∃ s', insert c s e = some s' ∧ Inv c s' ∧ Step c s.contents (.insert e) .unit s'.contents := by
  have hrep : ∀ l, reportChanges c { s with list := l } 1 = rebuild c { s with list := l } := by
    intro l
    unfold reportChanges
    rw [if_neg (by simp [ha]), if_neg (by show ¬ s.changes > 1; omega)]
  unfold insert
  cases hso : c.sortOnInsert with
  | false =>
    simp only [Bool.not_false, if_true, hrep]
    obtain ⟨s', h1, h2, h3⟩ := inv_of_rebuild hl (s := { s with list := s.list ++ [ext c s e] })
      (fun h => by rw [hso] at h; cases h)
    refine ⟨s', h1, h3, ?_⟩
    rw [h2]
    unfold State.contents
    rw [List.map_append]
    exact Step.insert hso
  | true =>
    obtain ⟨l₁, l₂, g1, _, g3, g4⟩ := sorted_split (hl.order hso) e s.contents (hs hso)
    have hsp := insertSort_spec (c := c) (x := ext c s e) (l := s.list) g1 g3 g4
    simp only [Bool.not_true, Bool.false_eq_true, if_false, hsp, hrep]
    have hlen : l₁.length ≤ s.contents.length := by rw [g1]; simp
    have hcont : State.contents { s with list := s.list.take l₁.length ++ ext c s e :: s.list.drop l₁.length } =
        l₁ ++ e :: l₂ := by
      have g1' : s.list.map Ext.t = l₁ ++ l₂ := g1
      unfold State.contents
      rw [List.map_append, List.map_cons, List.map_take, List.map_drop, g1', List.take_left, List.drop_left]
      rfl
    obtain ⟨s', h1, h2, h3⟩ := inv_of_rebuild hl
      (s := { s with list := s.list.take l₁.length ++ ext c s e :: s.list.drop l₁.length })
      (fun _ => by
        rw [hcont]
        exact sorted_insert (hl.order hso) (g1 ▸ hs hso) g3 g4)
    refine ⟨s', h1, h3, ?_⟩
    rw [h2, hcont, g1]
    exact Step.insertSorted hso g3 g4

theorem reportChanges_contents {s s' : State T} {n : ℕ} (h : reportChanges c s n = some s') :
    s'.contents = s.contents := by
  unfold reportChanges at h
  split at h
  · cases h
    rfl
  · split at h
    · cases h
      rfl
    · unfold rebuild at h
      split at h
      · cases h
      · cases h
        rw [resetChanges_contents]
        unfold State.contents
        rw [List.map_map]
        rfl

/-- In any state at all, `removeMultiples` removes multiples only, and puts out what it removes. -/
theorem removeMultiples_sound {s s' : State T} {m : T} {out : List T} {b : Bool}
    (h : removeMultiples c s m = some (out, b, s')) :
    (∀ e ∈ out, c.dm.divides m e = true) ∧ (out ++ s'.contents).Perm s.contents := by
  have key : ∀ s', reportChanges c { s with list := s.list.filter (fun e => !divides c (ext c s m) e) }
      (s.list.filter (fun e => divides c (ext c s m) e)).length = some s' →
      (∀ e ∈ (s.list.filter (fun e => divides c (ext c s m) e)).map Ext.t, c.dm.divides m e = true) ∧
      ((s.list.filter (fun e => divides c (ext c s m) e)).map Ext.t ++ s'.contents).Perm s.contents := by
    intro s' h
    constructor
    · intro e he
      obtain ⟨x, hx, rfl⟩ := List.mem_map.1 he
      exact divides_sound (a := ext c s m) (by simpa using (List.mem_filter.1 hx).2)
    · rw [reportChanges_contents h]
      unfold State.contents
      rw [← List.map_append]
      exact (List.filter_append_perm _ s.list).map _
  unfold removeMultiples at h
  simp only [removeMultiplesVector_spec, removeMultiplesList_spec, ite_self] at h
  split at h
  · cases h
  · rename_i s1 h1
    cases h
    exact key _ h1

theorem allBits_take {first : T} {entries : List T} : ∀ (bs : List ℕ) (var v : ℕ) (bits : Bits),
    DivMask.allBits c.dm first entries bs var = some bits →
    DivMask.allBits c.dm first entries (bs.take v) var = some (bits.filter (fun b => b.1 < var + v)) := by
  intro bs
  induction bs with
  | nil =>
    intro var v bits h
    cases h
    rw [List.take_nil]
    rfl
  | cons b bs ih =>
    intro var v bits h
    have hsh := DivMask.allBits_shape _ _ _ h
    cases v with
    | zero =>
      have : bits.filter (fun b => b.1 < var + 0) = [] := by
        rw [List.filter_eq_nil_iff]
        intro x hx
        have := (hsh.range x hx).1
        simp only [decide_eq_true_eq]
        omega
      rw [this]
      rfl
    | succ v =>
      rw [DivMask.allBits] at h
      rw [List.take_succ_cons, DivMask.allBits]
      split at h
      · cases h
      · rename_i l hl
        obtain ⟨l2, h1, rfl⟩ := Option.map_eq_some_iff.mp h
        have hf : l.filter (fun b => b.1 < var + (v + 1)) = l := by
          rw [List.filter_eq_self]
          intro x hx
          have := (DivMask.varBits_shape hl).2 x hx
          simp only [decide_eq_true_eq]
          omega
        simp only [ih _ v _ h1]
        rw [List.filter_append, hf, show var + (v + 1) = var + 1 + v by omega]
        rfl

end Verif.DivList
