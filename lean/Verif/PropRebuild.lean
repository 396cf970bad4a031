import Verif.RebuildProofs
import Verif.PropDivList
import Verif.PropKDTree
import Mathlib.Data.List.Sort

/-!
# Property C72: automatic rebuilds

Full statement: for every history of calls, the masks of a finder are at all times those of the last
rebuild, where a rebuild happens when it is asked for, when a range is put into an empty list, and, with
automatic rebuilds, exactly when the insertions and removals since the last rebuild reach
`max(size() * getRebuildRatio(), getRebuildMin())`, with `size()` taken at the last rebuild. What is
missing: removals by `removeElement`, which the code does not count.
-/

namespace Verif.DivList

open Verif.Rebuild

variable {T : Type} {c : Conf T}

/-- C72 for `DivList`, for histories without `removeElement`. -/
theorem rebuilds_partial (hl : c.Lawful) (ops : List (Op T)) (ha : ∀ op ∈ ops, Allowed c op)
    (hn : ∀ op ∈ ops, op.NotElement) : ∃ s₀, init c = some s₀ ∧ ∀ rs s, run c s₀ ops = some (rs, s) →
      ∃ E, Epochs c true [] (.start c.plan) ops rs s.contents E ∧ MasksOf c E s := by
  obtain ⟨s₀, g1, g2, g3⟩ := init_spec hl
  refine ⟨s₀, g1, fun rs s hr => ?_⟩
  obtain ⟨E, k1, k2, k3⟩ := run_sched hl ops g3 (init_sched g1) ha hr
  rw [g2] at k1
  exact ⟨E, epochs_element hn k1, k2.masks, k3.masks⟩

/-- What `DivList` does in all histories: the same, but removals by `removeElement` do not count. -/
theorem rebuilds_actual (hl : c.Lawful) (ops : List (Op T)) (ha : ∀ op ∈ ops, Allowed c op) :
    ∃ s₀, init c = some s₀ ∧ ∀ rs s, run c s₀ ops = some (rs, s) →
      ∃ E, Epochs c false [] (.start c.plan) ops rs s.contents E ∧ MasksOf c E s := by
  obtain ⟨s₀, g1, g2, g3⟩ := init_spec hl
  refine ⟨s₀, g1, fun rs s hr => ?_⟩
  obtain ⟨E, k1, k2, k3⟩ := run_sched hl ops g3 (init_sched g1) ha hr
  rw [g2] at k1
  exact ⟨E, k1, k2.masks, k3.masks⟩

/-- The epochs of the example below. -/
theorem epochs_example {c : Conf T} (hc : c.plan = ⟨true, fun n => n / 2, 2⟩) {a b x y : T} {l : List T} {E : Epoch T}
    (h : Epochs c true [] (.start c.plan) [.insert a, .insert b, .removeElement x, .removeElement y]
      [.unit, .unit, .flag true, .flag true] l E) : E.built = some l := by
  have hlen : ∀ {l l' : List T} {e : T} {r : Ret T}, Step c l (.insert e) r l' → l'.length = l.length + 1 := by
    intro l l' e r h
    cases h <;> (simp; try omega)
  cases h with | cons h1 h =>
  cases h with | cons h2 h =>
  cases h with | cons h3 h =>
  cases h with | cons h4 h =>
  cases h
  have e1 := hlen h1
  have e2 := hlen h2
  simp only [List.length_nil] at e1
  simp [nextEpoch, hc, Epoch.change, Epoch.start, Epoch.fresh, e1, e2]

/-- What a history gives: results, entries and the bits of the masks. -/
def bitsAfter (c : Conf T) (ops : List (Op T)) : Option (List (Ret T) × List T × DivMask.Bits) :=
  match init c with
  | none => none
  | some s => (run c s ops).map (fun r => (r.1, r.2.contents, r.2.bits))

deriving instance DecidableEq for Ret

/-- C72, refuted for `DivList`: after a rebuild with two entries, two changes bring the next one, but it
does not come when they are removals by `removeElement`. The masks stay those for `x^3` and `x^5`. -/
theorem rebuilds_refuted : ∃ (c : Conf (List ℤ)) (s₀ s : State (List ℤ)) (ops : List (Op (List ℤ)))
    (rs : List (Ret (List ℤ))), c.Lawful ∧ init c = some s₀ ∧ (∀ op ∈ ops, Allowed c op) ∧
      run c s₀ ops = some (rs, s) ∧ ∀ E, Epochs c true [] (.start c.plan) ops rs s.contents E → ¬ MasksOf c E s := by
  let ops : List (Op (List ℤ)) := [.insert [3], .insert [5], .removeElement [3], .removeElement [5]]
  have h : ∃ bits, bitsAfter (exConf 1 false true false) ops =
      some ([.unit, .unit, .flag true, .flag true], [], bits) ∧ calcRebuild (exConf 1 false true false) [] ≠ some bits :=
    ⟨(List.range 32).map (fun i => (0, (i : ℤ) + 3)), by decide +kernel, by decide +kernel⟩
  obtain ⟨bits, h1, h2⟩ := h
  unfold bitsAfter at h1
  cases hi : init (exConf 1 false true false) with
  | none => rw [hi] at h1; cases h1
  | some s₀ =>
    rw [hi] at h1
    simp only [Option.map_eq_some_iff, Prod.mk.injEq] at h1
    obtain ⟨⟨rs, s⟩, hr, rfl, h3, h4⟩ := h1
    refine ⟨_, s₀, s, ops, _, exConf_lawful _ _ _ _, hi, by simp [ops, Allowed], hr, ?_⟩
    intro E hE hm
    have hb := epochs_example rfl hE
    have hm := hm.1
    unfold Epoch.Masks at hm
    rw [hb] at hm
    obtain ⟨l', hp, hm⟩ := hm
    rw [h3, List.perm_nil] at hp
    rw [hp, h4] at hm
    exact h2 hm

/-- A history that meets the hypotheses and has rebuilds of all kinds. -/
def exRebuilds : List (Op (List ℤ)) :=
  [.insertRange [[3], [5], [9]], .insert [4], .removeMultiples [9], .insert [7], .findDivisor [5], .rebuild]

example : ∀ op ∈ exRebuilds, Allowed (exConf 1 false true false) op ∧ op.NotElement := by
  simp [exRebuilds, Allowed, Op.NotElement]

-- the masks: default, then as of the rebuild
#guard (bitsAfter (exConf 1 false true false) [.insert [3]]).map (fun r => r.2.2.take 3) = some [(0, 0), (0, 1), (0, 2)]
#guard (bitsAfter (exConf 1 false true false) [.insert [3], .insert [5]]).map (fun r => r.2.2.take 3) =
  some [(0, 3), (0, 4), (0, 5)]
#guard (bitsAfter (exConf 1 false true false) exRebuilds).isSome

end Verif.DivList

namespace Verif.KDTree

open Verif.Rebuild

variable {T : Type} {c : Conf T}

/-- C72 for the KD trees, for histories without `removeElement` and without exceptions of output objects. -/
theorem rebuilds_partial (hl : c.Lawful) (ops : List (Op T)) (h1 : ∀ op ∈ ops, op.NoThrow)
    (h2 : ∀ op ∈ ops, op.NotElement) : ∃ s₀ rs s E, init c = some s₀ ∧ run c s₀ ops = .ok (rs, s) ∧
      Epochs c true [] (.start c.plan) ops rs s.contents E ∧ MasksOf c E s := by
  obtain ⟨s₀, g1, g2, g3, g4⟩ := init_ok hl
  obtain ⟨rs, s, E, k1, k2, k3, k4⟩ := run_sched hl ops g2 g3 (init_sched g1) h1 h2
  rw [g4] at k2
  exact ⟨s₀, rs, s, E, g1, k1, k2, k3.masks, inv_masks k4⟩

/-- The epochs of the example below. -/
theorem epochs_example {c : Conf T} (hc : c.plan = ⟨true, fun n => n / 2, 2⟩) {a b x y : T} {l : List T} {E : Epoch T}
    (h : Epochs c true [] (.start c.plan) [.insert a, .insert b, .removeElement x, .removeElement y]
      [.unit, .unit, .flag true, .flag true] l E) : E.built = some l := by
  have hlen : ∀ {l l' : List T} {e : T}, Step c l (.insert e) .unit l' → l'.length = l.length + 1 := by
    intro l l' e h
    cases h with | insert _ hp => rw [hp.length_eq, List.length_cons]
  cases h with | cons h1 h =>
  cases h with | cons h2 h =>
  cases h with | cons h3 h =>
  cases h with | cons h4 h =>
  cases h
  have e1 := hlen h1
  have e2 := hlen h2
  simp only [List.length_nil] at e1
  simp [nextEpoch, hc, Epoch.change, Epoch.start, Epoch.fresh, e1, e2]

/-- What a history gives: results, entries and the bits of the masks. -/
def bitsAfter (c : Conf T) (ops : List (Op T)) : Option (List (Ret T) × List T × DivMask.Bits) :=
  match init c with
  | none => none
  | some s =>
    match run c s ops with
    | .ok r => some (r.1, r.2.contents, r.2.bits)
    | _ => none

/-- A configuration that the kernel can evaluate: entries are not sorted, variables by insertion. -/
def exPlain : Conf (List ℕ) := { exConf true false true 2 with
  sortOnInsert := false
  sortVars := List.insertionSort (fun a b => a.split ≥ b.split) }

theorem exPlain_lawful : exPlain.Lawful := by
  have h := exConf_lawful true false true (leafSize := 2) (by decide)
  have hs : DivMask.IsSort (List.insertionSort (fun a b => a.split ≥ b.split)) := fun l => List.perm_insertionSort _ l
  exact ⟨h.masks, h.leafSize, h.treeMask, hs, fun _ l => DivMask.rebuild_unsigned rfl hs l, h.range, nofun, nofun, nofun,
    h.partition, h.selfCopy⟩

/-- C72, refuted for the packed tree in the same way. -/
theorem rebuilds_refuted : ∃ (c : Conf (List ℕ)) (s₀ s : State (List ℕ)) (ops : List (Op (List ℕ)))
    (rs : List (Ret (List ℕ))), c.Lawful ∧ init c = some s₀ ∧ run c s₀ ops = .ok (rs, s) ∧
      ∀ E, Epochs c true [] (.start c.plan) ops rs s.contents E → ¬ MasksOf c E s := by
  let ops : List (Op (List ℕ)) := [.insert [3], .insert [5], .removeElement [3], .removeElement [5]]
  have h : ∃ bits, bitsAfter exPlain ops =
      some ([.unit, .unit, .flag true, .flag true], [], bits) ∧ calcRebuild exPlain [] ≠ some bits :=
    ⟨(calcRebuild exPlain [[3], [5]]).get (by decide +kernel), by decide +kernel, by decide +kernel⟩
  obtain ⟨bits, h1, h2⟩ := h
  unfold bitsAfter at h1
  cases hi : init exPlain with
  | none => rw [hi] at h1; cases h1
  | some s₀ =>
    rw [hi] at h1
    cases hr : run exPlain s₀ ops with
    | ub => simp only [hr] at h1; cases h1
    | broken => simp only [hr] at h1; cases h1
    | ok r =>
      obtain ⟨rs, s⟩ := r
      simp only [hr, Option.some.injEq, Prod.mk.injEq] at h1
      obtain ⟨rfl, h3, h4⟩ := h1
      refine ⟨_, s₀, s, ops, _, exPlain_lawful, hi, hr, ?_⟩
      intro E hE hm
      have hb := epochs_example rfl hE
      have hm := hm.1
      unfold Epoch.Masks at hm
      rw [hb] at hm
      obtain ⟨l', hp, hm⟩ := hm
      rw [h3, List.perm_nil] at hp
      rw [hp, h4] at hm
      exact h2 hm

/-- A history that meets the hypotheses and has rebuilds of all kinds. -/
def exRebuilds : List (Op (List ℕ)) :=
  [.insert [3], .insert [5], .insert [4], .removeMultiples [5], .insert [7], .findDivisor [5], .rebuild]

example : ∀ op ∈ exRebuilds, op.NoThrow ∧ op.NotElement := by
  simp [exRebuilds, Op.NoThrow, Op.NotElement]

-- the masks: default, then as of the rebuild; two changes later the next
#guard (bitsAfter (exConf true true true 2) [.insert [3]]).map (fun r => r.2.2.take 4) = some [(0, 0), (0, 1), (0, 2), (0, 4)]
#guard (bitsAfter (exConf true true true 2) (exRebuilds.take 2)).map (fun r => r.2.2.take 4) =
  some [(0, 3), (0, 4), (0, 5), (0, 6)]
#guard (bitsAfter (exConf false true true 2) (exRebuilds.take 4)).map (fun r => r.2.2.take 4) =
  some [(0, 3), (0, 4), (0, 5), (0, 6)]
#guard (bitsAfter (exConf true true true 2) exRebuilds).isSome

end Verif.KDTree
