import Verif.DivListAssertProofs
import Verif.PropDivList

/-!
# Debug builds of `mathic::DivList`: C92
-/

namespace Verif.DivList

open Verif.Dbg
open Verif.DivMask (Ext)

variable {T : Type} {d : DConf T}

/-- C92: with a ratio that is positive, or without automatic rebuilds, no assertion fails in a history of allowed calls on
positions that are there, nothing is undefined, and the answers are those of a release build. -/
theorem divList_debug_agrees (hl : d.conf.Lawful) (hd : d.Ok) :
    ∃ s₀, initD d = ok s₀ ∧ init d.conf = some s₀ ∧
      ∀ ops rs s, (∀ op ∈ ops, Allowed d.conf op) → runD d s₀ ops = ok (rs, s) →
        run d.conf s₀ ops = some (rs, s) ∧ Trace d.conf [] ops rs s.contents ∧
        ∀ op, Allowed d.conf op → op.Pre s.contents → ∃ r s', stepD d s op = ok (r, s') ∧
          Step d.conf s.contents op r s'.contents := by
  obtain ⟨s₀, h1, h2, h3⟩ := divList_correct hl
  refine ⟨s₀, by rw [initD_eq hd, h1]; rfl, h1, fun ops rs s ha hr => ?_⟩
  have hrun : run d.conf s₀ ops = some (rs, s) := by
    rw [runD_eq hd] at hr
    cases hx : run d.conf s₀ ops with
    | none => rw [hx] at hr; cases hr
    | some x => rw [hx] at hr; cases hr; rfl
  have hreach : Reachable d.conf s := ⟨s₀, ops, rs, h1, ha, hrun⟩
  refine ⟨hrun, h3 ops rs s ha hrun, fun op ho hp => ?_⟩
  have hdef := (divList_defined hl hreach op ho).not.mpr (not_not.mpr hp)
  obtain ⟨⟨r, s'⟩, hs⟩ := Option.ne_none_iff_exists'.mp hdef
  exact ⟨r, s', by rw [stepD_eq hd, hs]; rfl, divList_step hl hreach ho hs⟩

/-- C92: no assertion fails, on any history and for any configuration, lawful or not: what is not answered is undefined in
release builds too. -/
theorem divList_debug_never_fails (hd : d.Ok) (s : State T) (ops : List (Op T)) :
    runD d s ops ≠ failed ∧ ∀ r, runD d s ops = ok r ↔ run d.conf s ops = some r := by
  rw [runD_eq hd]
  cases run d.conf s ops with
  | none => exact ⟨nofun, fun r => ⟨nofun, nofun⟩⟩
  | some x => exact ⟨nofun, fun r => by simp⟩

/-- C92: a ratio that is not positive is caught by the constructor, if rebuilds are automatic. -/
theorem divList_debug_ratio (hl : d.conf.Lawful) (ha : d.conf.doAutomaticRebuilds = true) (hr : d.ratioPos = false) :
    initD d = failed := by
  obtain ⟨s₀, h1, _⟩ := divList_correct hl
  rw [init] at h1
  rw [initD]
  cases hx : calcInit d.conf with
  | none => rw [hx] at h1; cases h1
  | some bits => exact resetChangesD_failed ha hr _

/-- C92: the number that `removeMultiples` hands to `reportChanges` is the number of elements that are gone, which is the number of
entries put out: the change counter goes down by it unless the list is rebuilt. -/
theorem divList_removed_count {s s' : State T} {m : T} {out : List T} {b : Bool} (hd : d.Ok)
    (ha : d.conf.doAutomaticRebuilds = true) (h : removeMultiplesD d s m = ok (out, b, s')) :
    s'.list.length ≤ s.list.length ∧ (b = true ↔ s'.list.length < s.list.length) ∧
      (s.changes > s.list.length - s'.list.length → s'.changes + (s.list.length - s'.list.length) = s.changes) := by
  obtain ⟨h1, h2⟩ := removeMultiplesHelperD_eq d.conf (ext d.conf s m) s.list
  rw [removeMultiplesD_eq hd, removeMultiples] at h
  generalize (if d.conf.useLinkedList then some (removeMultiplesList d.conf (ext d.conf s m) s.list)
    else removeMultiplesVector d.conf (ext d.conf s m) s.list) = q at h2 h
  cases q with
  | none => cases h
  | some r =>
    obtain ⟨l, o, n⟩ := r
    have h3 := h2 _ rfl
    simp only at h3 h
    rw [reportChanges, if_neg (by simp [ha])] at h
    by_cases hc : s.changes > n
    · rw [if_pos hc] at h
      cases h
      simp only [decide_eq_true_eq]
      omega
    · rw [if_neg hc, rebuild] at h
      cases hx : calcRebuild d.conf (State.contents { s with list := l }) with
      | none => simp only [hx] at h; cases h
      | some bits =>
        simp only [hx] at h
        cases h
        rw [resetChanges, if_pos ha]
        simp only [List.length_map, decide_eq_true_eq]
        omega

/-- The configurations of the examples. -/
def exD (linked masks sorted pos : Bool) : DConf (List ℤ) := ⟨exConf 2 linked masks sorted, pos⟩

/-- The hypotheses are met. -/
example : (exD false true true true).conf.Lawful ∧ (exD false true true true).Ok ∧
    (exD false true true true).conf.doAutomaticRebuilds = true := ⟨exConf_lawful _ _ _ _, fun _ => rfl, rfl⟩

/-- What the examples look at: the contents at the end. -/
def exEnd (linked masks sorted pos : Bool) : Dbg (List (List ℤ)) := do
  let s ← initD (exD linked masks sorted pos)
  let r ← runD (exD linked masks sorted pos) s exOps
  ok r.2.contents

#guard exEnd false true true true = ok [[0, 1], [0, 3]]
#guard exEnd true true true true = ok [[0, 1], [0, 3]]
#guard exEnd true false false true = ok [[0, 3], [0, 1]]
#guard exEnd true false false false = failed

end Verif.DivList
