import Verif.DivThrowProofs
import Verif.PropDivList

/-!
# Property C101: an exception in `removeMultiples` does not spoil a `DivList`
-/

namespace Verif.DivList

open Verif.DivMask (Ext)

variable {T : Type} {c : Conf T}

/-- Linked lists: on all histories of calls in which output objects and `divides` may throw in `removeMultiples`, each
exception leaves the elements that have not been put out, in order, and all other calls do what they should. -/
theorem linked_exceptions (hl : c.Lawful) (hlink : c.useLinkedList = true) (ops : List (OpX T))
    (ha : ∀ op ∈ ops, AllowedX c op) : ∃ s₀, init c = some s₀ ∧
      ((∀ op ∈ ops, op.NoMove) → ∃ rs s, runX c s₀ ops = some (rs, s)) ∧
      ∀ rs s, runX c s₀ ops = some (rs, s) → TraceX c [] ops rs s.contents := by
  obtain ⟨s₀, h1, h2, h3⟩ := init_spec hl
  obtain ⟨h4, h5⟩ := runX_linked hl hlink ops h3 ha
  refine ⟨s₀, h1, h4, fun rs s hr => ?_⟩
  rw [← h2]
  exact (h5 rs s hr).2

/-- Nothing is lost and nothing is there twice: what is in the list and what was put out are together what was in the
list. -/
theorem exception_perm {l l' out : List T} {m : T} {f : Faults T} (h : StepX c l (.remove m f) (.threw out) l') :
    (l' ++ out).Perm l ∧ l'.Sublist l ∧ ∀ x ∈ out, c.dm.divides m x = true := by
  cases h with
  | threw =>
    rename_i l₁ e l₂
    refine ⟨?_, ?_, ?_⟩
    · have h1 : (l₁.filter (fun x => !c.dm.divides m x) ++ l₁.filter (fun x => c.dm.divides m x)).Perm l₁ :=
        (List.perm_append_comm).trans (List.filter_append_perm (fun x => c.dm.divides m x) l₁)
      rw [List.append_assoc]
      exact ((List.Perm.append_left _ (List.perm_append_comm)).trans (by rw [← List.append_assoc]; exact h1.append_right _))
    · exact List.filter_sublist.append (List.Sublist.refl _)
    · intro x hx
      exact (List.mem_filter.1 hx).2

/-- Without faults, lists of both kinds do what the model without exceptions does. -/
theorem removeX_none (s : State T) (m : T) :
    removeX c s m .none = (removeMultiples c s m).map (fun r => (.ret (.removed r.1 r.2.1), r.2.2)) :=
  removeX_done (fun k => stops_none k)

/-- If the output throws at every element and there is a multiple, `removeMultiples` throws. -/
theorem removeX_throws (hl : c.Lawful) {s : State T} (h : Reachable c s) (m : T) (f : Faults T)
    (hf : ∀ out, f.onOutput out = true) (hm : ∃ x ∈ s.contents, c.dm.divides m x = true) :
    ∃ s' out, removeX c s m f = some (.threw out, s') := by
  obtain ⟨x, hx, hd⟩ := hm
  have hi := (h.inv hl).toMaskInv
  obtain ⟨k, hk⟩ := List.mem_iff_getElem?.1 hx
  have hst : Stops c f (ext c s m) s.list 0 [] k := by
    refine ⟨ext c s x, ?_, .inr ⟨?_, hf _⟩⟩
    · conv_lhs => rw [hi.masks]
      rw [List.getElem?_map, hk]
      rfl
    · rw [hi.divides hl]
      exact hd
  unfold removeX
  by_cases hu : c.useLinkedList = true
  · rw [if_pos hu]
    rcases removeListX_spec (c := c) (f := f) (m := ext c s m) s.list 0 [] with ⟨_, a⟩ | ⟨j, _, _, _, a⟩
    · exact absurd hst (a k)
    · rw [a]
      exact ⟨_, _, rfl⟩
  · rw [if_neg hu]
    rcases removeVectorX_spec (c := c) (f := f) (m := ext c s m) s.list with ⟨_, a⟩ | ⟨j, _, _, _, a⟩
    · exact absurd hst (a k)
    · rw [a]
      exact ⟨_, _, rfl⟩

/-- The part that holds for arrays: the call is defined, and an exception at element `k` leaves the elements kept of those
before `k`, and after them what was in the array at these places. So no element that is not a multiple is lost, and nothing
new is there; the size is the same. If nothing has been put out, the array is as it was. What is missing is in
`array_exceptions_refuted` and `array_order_refuted`. -/
theorem array_exceptions_partial (hl : c.Lawful) (hv : c.useLinkedList = false) {s : State T} (h : Reachable c s) (m : T)
    (f : Faults T) : ∃ r s', removeX c s m f = some (r, s') ∧ ∀ out, r = .threw out →
      (∃ k < s.contents.length, out = (s.contents.take k).filter (fun x => c.dm.divides m x) ∧
        s'.contents = (s.contents.take k).filter (fun x => !c.dm.divides m x) ++
          s.contents.drop ((s.contents.take k).filter (fun x => !c.dm.divides m x)).length) ∧
      s'.contents.length = s.contents.length ∧ (∀ x ∈ s'.contents, x ∈ s.contents) ∧
      (∀ x ∈ s.contents, c.dm.divides m x = false → x ∈ s'.contents) ∧ (out = [] → s'.contents = s.contents) := by
  have hi := h.inv hl
  rcases removeVectorX_spec (c := c) (f := f) (m := ext c s m) s.list with ⟨_, a2⟩ | ⟨k, a1, _, _, a4⟩
  · rw [removeX_done a2]
    obtain ⟨s', b1, -, -⟩ := removeMultiples_spec hl hi m
    rw [b1]
    exact ⟨_, s', rfl, nofun⟩
  · unfold removeX
    rw [if_neg (by rw [hv]; decide), a4]
    refine ⟨_, _, rfl, ?_⟩
    rintro out h1
    cases h1
    have hk : k < s.contents.length := by
      unfold State.contents
      rwa [List.length_map]
    have e2 : ({ s with list := loopList c (ext c s m) s.list k } : State T).contents =
        (s.contents.take k).filter (fun x => !c.dm.divides m x) ++
          s.contents.drop ((s.contents.take k).filter (fun x => !c.dm.divides m x)).length := by
      rw [← kept_contents hl hi.toMaskInv, List.length_map]
      unfold State.contents loopList
      rw [List.map_append, List.map_drop]
    have e3 := gone_contents hl hi.toMaskInv m k
    have hle : ((s.contents.take k).filter (fun x => !c.dm.divides m x)).length ≤ k :=
      (List.length_filter_le _ _).trans (List.length_take_le _ _)
    rw [e2, e3]
    refine ⟨⟨k, hk, rfl, rfl⟩, ?_, ?_, ?_, ?_⟩
    · rw [List.length_append, List.length_drop]
      omega
    · intro x hx
      rcases List.mem_append.1 hx with hx | hx
      · exact List.mem_of_mem_take (List.mem_filter.1 hx).1
      · exact List.mem_of_mem_drop hx
    · intro x hx hd
      rw [← List.take_append_drop k s.contents] at hx
      rcases List.mem_append.1 hx with hx | hx
      · exact List.mem_append_left _ (List.mem_filter.2 ⟨hx, by rw [hd]; rfl⟩)
      · refine List.mem_append_right _ ?_
        have : s.contents.drop k = (s.contents.drop ((s.contents.take k).filter (fun x => !c.dm.divides m x)).length).drop
            (k - ((s.contents.take k).filter (fun x => !c.dm.divides m x)).length) := by
          rw [List.drop_drop]
          congr 1
          omega
        rw [this] at hx
        exact List.mem_of_mem_drop hx
    · intro h0
      have hall : (s.contents.take k).filter (fun x => !c.dm.divides m x) = s.contents.take k := by
        rw [List.filter_eq_self]
        intro x hx
        rw [List.filter_eq_nil_iff] at h0
        simpa using h0 x hx
      rw [hall, List.length_take, Nat.min_eq_left (by omega), List.take_append_drop]

/-! ## Refutations and concrete cases -/

/-- The output throws at the entry `n`-th put out. -/
def throwsAt (n : ℕ) : Faults (List ℤ) := ⟨fun _ => false, fun out => out.length == n⟩

/-- What calls give: what was put out, and the list. -/
def outcomeX (c : Conf (List ℤ)) (ops : List (OpX (List ℤ))) : Option (List (List (List ℤ)) × List (List ℤ)) :=
  match init c with
  | none => none
  | some s =>
    match runX c s ops with
    | none => none
    | some (rs, s') => some (rs.filterMap (fun | .threw out => some out | _ => none), s'.contents)

/-- Four insertions and a removal of the multiples of `y` that throws at the second one: `y`, `x`, `x^2`, `xy`. -/
def exOpsX : List (OpX (List ℤ)) :=
  [.op (.insert [0, 1]), .op (.insert [1, 0]), .op (.insert [2, 0]), .op (.insert [1, 1]), .remove [0, 1] (throwsAt 2)]

/-- C101, refuted: in an array an entry is there twice after an exception, and the entry that was put out is gone. -/
theorem array_exceptions_refuted : outcomeX (exConf 2 false false false) exOpsX =
      some ([[[0, 1]]], [[1, 0], [2, 0], [2, 0], [1, 1]]) ∧
    ∀ l, ¬ StepX (exConf 2 false false false) [[0, 1], [1, 0], [2, 0], [1, 1]] (.remove [0, 1] (throwsAt 2)) (.threw l)
      [[1, 0], [2, 0], [2, 0], [1, 1]] := by
  constructor
  · decide +kernel
  · intro l h
    have := (exception_perm h).2.1
    revert this
    decide

#guard outcomeX (exConf 2 false true false) exOpsX = some ([[[0, 1]]], [[1, 0], [2, 0], [2, 0], [1, 1]])

/-- The linked list is as it should be. -/
example : outcomeX (exConf 2 true false false) exOpsX = some ([[[0, 1]]], [[1, 0], [2, 0], [1, 1]]) := by decide +kernel

#guard outcomeX (exConf 2 true true false) exOpsX = some ([[[0, 1]]], [[1, 0], [2, 0], [1, 1]])

/-- The case above meets the hypotheses of `linked_exceptions`. -/
example : ∀ op ∈ exOpsX, AllowedX (exConf 2 true true false) op ∧ op.NoMove := by
  intro op hop
  simp only [exOpsX, List.mem_cons, List.not_mem_nil, or_false] at hop
  rcases hop with rfl | rfl | rfl | rfl | rfl <;> simp [AllowedX, Allowed, OpX.NoMove]

/-- C101, refuted: a sorted array is not sorted after an exception, and the next `findDivisor` is undefined (the binary
search has a range that is not partitioned). The array has `y`, `x`, `y^2`, `x^2`, `x^3`, `x^2y^2`; the multiples of `y` are
removed, and the output throws at the third. -/
theorem array_order_refuted : ∃ (ops : List (OpX (List ℤ))), (∀ op ∈ ops, AllowedX (exConf 2 false false true) op) ∧
    outcomeX (exConf 2 false false true) ops = some ([[[0, 1], [0, 2]]], [[1, 0], [2, 0], [3, 0], [2, 0], [3, 0], [2, 2]]) ∧
    outcomeX (exConf 2 false false true) (ops ++ [.op (.findDivisor [2, 0])]) = none := by
  refine ⟨[.op (.insert [0, 1]), .op (.insert [1, 0]), .op (.insert [0, 2]), .op (.insert [2, 0]), .op (.insert [3, 0]),
    .op (.insert [2, 2]), .remove [0, 1] (throwsAt 3)], ?_, by decide +kernel, by decide +kernel⟩
  intro op hop
  simp only [List.mem_cons, List.not_mem_nil, or_false] at hop
  rcases hop with rfl | rfl | rfl | rfl | rfl | rfl | rfl <;> simp [AllowedX, Allowed]

/-- A sorted linked list keeps its order. -/
example : outcomeX (exConf 2 true false true) [.op (.insert [0, 1]), .op (.insert [1, 0]), .op (.insert [0, 2]),
    .op (.insert [2, 0]), .op (.insert [3, 0]), .op (.insert [2, 2]), .remove [0, 1] (throwsAt 3), .op (.insert [0, 2])] =
    some ([[[0, 1], [0, 2]]], [[1, 0], [2, 0], [0, 2], [3, 0], [2, 2]]) := by decide +kernel

#guard outcomeX (exConf 2 true true true) [.op (.insert [0, 1]), .op (.insert [1, 0]), .op (.insert [0, 2]),
    .op (.insert [2, 0]), .op (.insert [3, 0]), .op (.insert [2, 2]), .remove [0, 1] (throwsAt 3), .op (.insert [0, 2])] =
    some ([[[0, 1], [0, 2]]], [[1, 0], [2, 0], [0, 2], [3, 0], [2, 2]])

end Verif.DivList
