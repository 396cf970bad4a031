import Verif.BitTriangleProofs

/-!
# Properties of `mathic::BitTriangle`: C45
-/

namespace Verif.BitTriangle

/-- C45: every history of calls on existing pairs is defined (and no other is); afterwards there
is exactly one bit for each pair row < column < number of columns added, and it has the value
stored last for that pair, false if there is none. -/
theorem bitTriangle_correct (ops : List Op) :
    (AllValid [] ops → ∃ s, run [] ops = some s ∧ columnCount s = cols ops ∧
      (empty s = true ↔ cols ops = 0) ∧
      (∀ c r, bit s c r = if r < c ∧ c < cols ops then some (lastStored ops c r) else none) ∧
      ∀ x y, bitUnordered s x y = if x ≠ y ∧ x < cols ops ∧ y < cols ops
        then some (lastStored ops (max x y) (min x y)) else none) ∧
    (¬ AllValid [] ops → run [] ops = none) := by
  have h0 : Holds [] [] := ⟨rfl, fun c r => by simp [bit, cols], fun _ _ _ => rfl⟩
  obtain ⟨h1, h2⟩ := run_spec ops [] [] h0
  refine ⟨fun hv => ?_, h2⟩
  obtain ⟨s, g1, g2⟩ := h1 hv
  rw [List.nil_append] at g2
  refine ⟨s, g1, g2.1, ?_, g2.2.1, ?_⟩
  · rw [← g2.1, empty, List.isEmpty_iff, List.length_eq_zero_iff]
  · intro x y
    rw [bitUnordered_eq, g2.2.1]
    congr 1
    apply propext
    omega

/-- C45: the unordered forms do not depend on the order of their arguments. -/
theorem unordered_symm (s : State) (x y : ℕ) (v : Bool) :
    bitUnordered s x y = bitUnordered s y x ∧ setBitUnordered s x y v = setBitUnordered s y x v := by
  rw [bitUnordered_eq, bitUnordered_eq, setBitUnordered_eq, setBitUnordered_eq, max_comm x y,
    min_comm x y]
  exact ⟨rfl, rfl⟩

/-- A valid history with a stored bit, overwritten in part. -/
example : AllValid [] [.addColumn, .addColumn, .addColumn, .setBit 2 1 true, .setBitUnordered 0 1 true,
    .setBit 2 1 false, .addColumn] := by
  simp [AllValid, Valid, cols]

#guard (run [] [.addColumn, .addColumn, .addColumn, .setBit 2 1 true, .setBitUnordered 0 1 true,
    .addColumn]) == some [[], [true], [false, true], [false, false, false]]

end Verif.BitTriangle
