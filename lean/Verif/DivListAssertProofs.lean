import Verif.DivListAssert
import Mathlib.Tactic.Cases

/-!
# Lemmas on debug builds of `DivList`
-/

namespace Verif.DivList

open Verif.Dbg
open Verif.DivMask (Ext)

variable {T : Type} {d : DConf T}

/-- The ratio is positive if it is used. -/
def DConf.Ok (d : DConf T) : Prop := d.conf.doAutomaticRebuilds = true → d.ratioPos = true

theorem resetChangesD_eq (h : d.Ok) (s : State T) : resetChangesD d s = ok (resetChanges d.conf s) := by
  rw [resetChangesD, resetChanges]
  by_cases ha : d.conf.doAutomaticRebuilds = true
  · rw [if_pos ha, if_pos ha, h ha]
    rfl
  · rw [if_neg ha, if_neg ha]

theorem resetChangesD_failed (ha : d.conf.doAutomaticRebuilds = true) (hr : d.ratioPos = false) (s : State T) :
    resetChangesD d s = failed := by
  rw [resetChangesD, if_pos ha, hr]
  rfl

theorem initD_eq (h : d.Ok) : initD d = lift (init d.conf) := by
  rw [initD, init]
  cases calcInit d.conf with
  | none => rfl
  | some bits => exact resetChangesD_eq h _

theorem rebuildD_eq (h : d.Ok) (s : State T) : rebuildD d s = lift (rebuild d.conf s) := by
  rw [rebuildD, rebuild]
  cases calcRebuild d.conf s.contents with
  | none => rfl
  | some bits => exact resetChangesD_eq h _

theorem reportChangesD_eq (h : d.Ok) (s : State T) (n : ℕ) :
    reportChangesD d s n = lift (reportChanges d.conf s n) := by
  rw [reportChangesD, reportChanges]
  by_cases h1 : (!d.conf.doAutomaticRebuilds) = true
  · rw [if_pos h1, if_pos h1]; rfl
  · rw [if_neg h1, if_neg h1]
    by_cases h2 : s.changes > n
    · rw [if_pos h2, if_pos h2]; rfl
    · rw [if_neg h2, if_neg h2]; exact rebuildD_eq h s

theorem insertD_eq (h : d.Ok) (s : State T) (e : T) : insertD d s e = lift (insert d.conf s e) := by
  rw [insertD, insert]
  by_cases h1 : (!d.conf.sortOnInsert) = true
  · simp only [if_pos h1]; exact reportChangesD_eq h _ _
  · simp only [if_neg h1]
    cases insertSort d.conf (ext d.conf s e) s.list with
    | none => rfl
    | some l => exact reportChangesD_eq h _ _

theorem insertEachD_eq (h : d.Ok) (es : List T) : ∀ s, insertEachD d s es = lift (insertEach d.conf s es) := by
  induction es with
  | nil => intro s; rfl
  | cons e es ih =>
    intro s
    rw [insertEachD, insertEach, insertD_eq h]
    cases insert d.conf s e with
    | none => rfl
    | some s' => exact ih s'

theorem insertRangeD_eq (h : d.Ok) (s : State T) (es : List T) :
    insertRangeD d s es = lift (insertRange d.conf s es) := by
  rw [insertRangeD, insertRange]
  by_cases h1 : (!s.list.isEmpty) = true
  · rw [if_pos h1, if_pos h1]; exact insertEachD_eq h es s
  · rw [if_neg h1, if_neg h1]
    by_cases h2 : es.isEmpty = true
    · rw [if_pos h2, if_pos h2]; rfl
    · rw [if_neg h2, if_neg h2]
      cases calcRebuild d.conf es with
      | none => rfl
      | some bits => exact resetChangesD_eq h _

/-- The loop copies elements down and counts the ones that stay. -/
theorem compactLoop_size (c : Conf T) (m : Ext T) : ∀ (n : ℕ) (l : List (Ext T)) (it newEnd : ℕ) (out : List T)
    (l' : List (Ext T)) (e' : ℕ) (out' : List T), compactLoop c m l it newEnd out n = some (l', e', out') →
    l'.length = l.length ∧ e' ≤ newEnd + n := by
  intro n
  induction n with
  | zero =>
    intro l it newEnd out l' e' out' h
    cases h
    exact ⟨rfl, le_rfl⟩
  | succ n ih =>
    intro l it newEnd out l' e' out' h
    rw [compactLoop] at h
    split at h
    · cases h
    · split at h
      · split at h
        · obtain ⟨h1, h2⟩ := ih _ _ _ _ _ _ _ h
          rw [List.length_set] at h1
          exact ⟨h1, by omega⟩
        · cases h
      · obtain ⟨h1, h2⟩ := ih _ _ _ _ _ _ _ h
        exact ⟨h1, by omega⟩

theorem removeMultiplesList_size (c : Conf T) (m : Ext T) (l : List (Ext T)) :
    (removeMultiplesList c m l).1.length + (removeMultiplesList c m l).2.2 = l.length := by
  induction l with
  | nil => rfl
  | cons e l ih =>
    rw [removeMultiplesList]
    split
    · simp only [List.length_cons]; omega
    · simp only [List.length_cons]; omega

theorem removeMultiplesVectorD_eq (c : Conf T) (m : Ext T) (l : List (Ext T)) :
    removeMultiplesVectorD c m l = lift (removeMultiplesVector c m l) ∧
    ∀ r, removeMultiplesVector c m l = some r → r.1.length + r.2.2 = l.length := by
  rw [removeMultiplesVectorD, removeMultiplesVector]
  cases l.findIdx? (fun e => divides c m e) with
  | none => exact ⟨rfl, fun r hr => by cases hr; rfl⟩
  | some it =>
    simp only
    cases hit : l[it]? with
    | none => exact ⟨rfl, nofun⟩
    | some e =>
      simp only
      have hlt := (List.getElem?_eq_some_iff.mp hit).1
      cases hl : compactLoop c m l (it + 1) it [e.t] (l.length - (it + 1)) with
      | none => exact ⟨rfl, nofun⟩
      | some q =>
        obtain ⟨l', newEnd, out⟩ := q
        obtain ⟨h1, h2⟩ := compactLoop_size c m _ _ _ _ _ _ _ _ hl
        simp only
        rw [decide_eq_true (show newEnd < l'.length by omega), h1]
        refine ⟨rfl, fun r hr => ?_⟩
        cases hr
        simp only [List.length_take]
        omega

/-- The number that is returned is the number by which the list got shorter. -/
theorem removeMultiplesHelperD_eq (c : Conf T) (m : Ext T) (l : List (Ext T)) :
    removeMultiplesHelperD c m l =
      lift (if c.useLinkedList then some (removeMultiplesList c m l) else removeMultiplesVector c m l) ∧
    ∀ r, (if c.useLinkedList then some (removeMultiplesList c m l) else removeMultiplesVector c m l) = some r →
      r.1.length + r.2.2 = l.length := by
  rw [removeMultiplesHelperD]
  by_cases hu : c.useLinkedList = true
  · simp only [if_pos hu]
    have hs := removeMultiplesList_size c m l
    refine ⟨?_, fun r hr => by cases hr; exact hs⟩
    rw [removeMultiplesListD]
    simp only [hs, beq_self_eq_true]
    rfl
  · simp only [if_neg hu]
    exact removeMultiplesVectorD_eq c m l

theorem removeMultiplesD_eq (h : d.Ok) (s : State T) (m : T) :
    removeMultiplesD d s m = lift (removeMultiples d.conf s m) := by
  obtain ⟨h1, h2⟩ := removeMultiplesHelperD_eq d.conf (ext d.conf s m) s.list
  rw [removeMultiplesD, removeMultiples, h1]
  generalize (if d.conf.useLinkedList then some (removeMultiplesList d.conf (ext d.conf s m) s.list)
    else removeMultiplesVector d.conf (ext d.conf s m) s.list) = q at h2
  cases q with
  | none => rfl
  | some r =>
    obtain ⟨l, out, n⟩ := r
    have h3 := h2 _ rfl
    simp only at h3
    simp only [lift_some, ok_bind, h3, beq_self_eq_true, assert_true]
    rw [reportChangesD_eq h]
    cases reportChanges d.conf { s with list := l } n <;> rfl

theorem stepD_eq (h : d.Ok) (s : State T) (op : Op T) : stepD d s op = lift (step d.conf s op) := by
  cases op with
  | insert e => rw [stepD, step, insertD_eq h]; cases insert d.conf s e <;> rfl
  | insertRange es => rw [stepD, step, insertRangeD_eq h]; cases insertRange d.conf s es <;> rfl
  | removeMultiples m => rw [stepD, step, removeMultiplesD_eq h]; cases removeMultiples d.conf s m <;> rfl
  | rebuild => rw [stepD, step, rebuildD_eq h]; cases rebuild d.conf s <;> rfl
  | removeElement m => rfl
  | findDivisor m => rfl
  | findDivisorIterator m => rfl
  | findAllDivisors m p => rfl
  | findAllMultiples m p => rfl
  | forAll p => rfl
  | moveToFront i => rfl
  | size => rfl

theorem runD_eq (h : d.Ok) (ops : List (Op T)) : ∀ s, runD d s ops = lift (run d.conf s ops) := by
  induction ops with
  | nil => intro s; rfl
  | cons op ops ih =>
    intro s
    rw [runD, run, stepD_eq h]
    cases step d.conf s op with
    | none => rfl
    | some r =>
      obtain ⟨o, s'⟩ := r
      simp only [lift_some, ok_bind]
      rw [ih s']
      cases run d.conf s' ops <;> rfl

end Verif.DivList
