import Verif.BitTriangleSpec
import Mathlib.Order.Lattice
import Mathlib.Order.Nat

/-!
# Lemmas on `BitTriangle`
-/

namespace Verif.BitTriangle

/-- The state holds what the history stored. -/
def Holds (ops : List Op) (s : State) : Prop :=
  s.length = cols ops ∧
    (∀ c r, bit s c r = if r < c ∧ c < cols ops then some (lastStored ops c r) else none) ∧
      ∀ c r, cols ops ≤ c → lastStored ops c r = false

theorem lastStored_append (ops : List Op) (op : Op) (c r : ℕ) :
    lastStored (ops ++ [op]) c r = (stores c r op).getD (lastStored ops c r) := by
  unfold lastStored
  rw [List.filterMap_append]
  cases h : stores c r op with
  | none => simp [h]
  | some v => simp [h]

theorem setBit_spec {s : State} {c r : ℕ} {v : Bool} {b : Bool} (h : bit s c r = some b) :
    ∃ s', setBit s c r v = some s' ∧ s'.length = s.length ∧
      ∀ c' r', bit s' c' r' = if c = c' ∧ r = r' then some v else bit s c' r' := by
  unfold bit at h
  split at h
  · cases h
  · rename_i col hcol
    obtain ⟨hr, _⟩ := List.getElem?_eq_some_iff.mp h
    obtain ⟨hc, hcol'⟩ := List.getElem?_eq_some_iff.mp hcol
    refine ⟨s.set c (col.set r v), by simp [setBit, hcol, hr], by simp, ?_⟩
    intro c' r'
    unfold bit
    rw [List.getElem?_set]
    by_cases hcc : c = c'
    · subst hcc
      simp only [hc, if_true, true_and, List.getElem?_set, hcol]
      by_cases hrr : r = r'
      · subst hrr; simp [hr]
      · simp [hrr]
    · simp [hcc]

theorem setBit_none {s : State} {c r : ℕ} {v : Bool} (h : bit s c r = none) :
    setBit s c r v = none := by
  unfold bit at h
  unfold setBit
  split at h
  · rfl
  · rename_i col h1
    have : col.length ≤ r := List.getElem?_eq_none_iff.mp h
    rw [if_neg (by omega)]

theorem bitUnordered_eq (s : State) (x y : ℕ) : bitUnordered s x y = bit s (max x y) (min x y) := by
  unfold bitUnordered
  split
  · rw [max_eq_right (by omega), min_eq_left (by omega)]
  · rw [max_eq_left (by omega), min_eq_right (by omega)]

theorem setBitUnordered_eq (s : State) (x y : ℕ) (v : Bool) :
    setBitUnordered s x y v = setBit s (max x y) (min x y) v := by
  unfold setBitUnordered
  split
  · rw [max_eq_right (by omega), min_eq_left (by omega)]
  · rw [max_eq_left (by omega), min_eq_right (by omega)]

theorem holds_step {ops : List Op} {s : State} (h : Holds ops s) (op : Op) :
    (Valid ops op → ∃ s', step s op = some s' ∧ Holds (ops ++ [op]) s') ∧
      (¬ Valid ops op → step s op = none) := by
  have hset : ∀ c r v, (r < c ∧ c < cols ops) → stores c r op = some v →
      (∀ c' r', ¬ (c = c' ∧ r = r') → stores c' r' op = none) → cols (ops ++ [op]) = cols ops →
      ∃ s', setBit s c r v = some s' ∧ Holds (ops ++ [op]) s' := by
    intro c r v hv h1 h2 h3
    have hb := h.2.1 c r
    rw [if_pos hv] at hb
    obtain ⟨s', g1, g2, g3⟩ := setBit_spec (v := v) hb
    refine ⟨s', g1, by rw [g2, h.1, h3], ?_, ?_⟩
    rotate_left
    · intro c' r' hc'
      rw [lastStored_append, h2 c' r' (by omega)]
      exact h.2.2 c' r' (by omega)
    intro c' r'
    rw [g3, h3, lastStored_append]
    by_cases hcr : c = c' ∧ r = r'
    · obtain ⟨rfl, rfl⟩ := hcr
      simp [hv, h1]
    · rw [if_neg hcr, h.2.1, h2 c' r' hcr]
      rfl
  cases op with
  | addColumn =>
    have hc : cols (ops ++ [Op.addColumn]) = cols ops + 1 := by simp [cols]
    have hst : ∀ c r, lastStored (ops ++ [Op.addColumn]) c r = lastStored ops c r := by
      intro c r
      rw [lastStored_append]
      rfl
    refine ⟨fun _ => ⟨addColumn s, rfl, ?_, ?_, ?_⟩, fun hn => absurd trivial hn⟩
    · simp only [addColumn, List.length_append, List.length_singleton, h.1, hc]
    · intro c r
      rw [hc, hst]
      unfold bit addColumn
      by_cases hlt : c < s.length
      · rw [List.getElem?_append_left hlt]
        have := h.2.1 c r
        unfold bit at this
        rw [this]
        have hc2 : c < cols ops := by rw [← h.1]; exact hlt
        have hc3 : c < cols ops + 1 := by omega
        simp [hc2, hc3]
      · by_cases heq : c = s.length
        · subst heq
          have hl : s.length < cols ops + 1 := by rw [h.1]; omega
          simp only [List.getElem?_append_right (le_refl s.length), Nat.sub_self,
            List.getElem?_cons_zero, List.getElem?_replicate, hl, and_true]
          rw [h.2.2 _ _ (by rw [h.1])]
        · have h1 := h.1
          rw [List.getElem?_eq_none (by simp; omega), if_neg (by omega)]
    · intro c r hle
      rw [hst]
      exact h.2.2 c r (by omega)
  | setBit c r v =>
    constructor
    · intro hv
      obtain ⟨s', g1, g2⟩ := hset c r v hv (by simp [stores])
        (fun c' r' hn => by simp only [stores]; rw [if_neg hn]) (by simp [cols])
      exact ⟨s', g1, g2⟩
    · intro hn
      have := h.2.1 c r
      rw [if_neg (show ¬ (r < c ∧ c < cols ops) from hn)] at this
      exact setBit_none this
  | setBitUnordered x y v =>
    show (_ → ∃ s', setBitUnordered s x y v = some s' ∧ _) ∧ (_ → setBitUnordered s x y v = none)
    rw [setBitUnordered_eq]
    constructor
    · intro hv
      have hv' : x ≠ y ∧ x < cols ops ∧ y < cols ops := hv
      obtain ⟨s', g1, g2⟩ := hset (max x y) (min x y) v (by omega) (by simp [stores])
        (fun c' r' hn => by simp only [stores]; rw [if_neg hn]) (by simp [cols])
      exact ⟨s', g1, g2⟩
    · intro hn
      have := h.2.1 (max x y) (min x y)
      have hn' : ¬ (x ≠ y ∧ x < cols ops ∧ y < cols ops) := hn
      rw [if_neg (by omega)] at this
      exact setBit_none this

theorem run_spec (ops : List Op) : ∀ (before : List Op) (s : State), Holds before s →
    (AllValid before ops → ∃ s', run s ops = some s' ∧ Holds (before ++ ops) s') ∧
      (¬ AllValid before ops → run s ops = none) := by
  induction ops with
  | nil => intro before s h; exact ⟨fun _ => ⟨s, rfl, by simpa using h⟩, fun hn => absurd trivial hn⟩
  | cons op ops ih =>
    intro before s h
    have hs := holds_step h op
    by_cases hv : Valid before op
    · obtain ⟨s', g1, g2⟩ := hs.1 hv
      have := ih _ s' g2
      simp only [AllValid, hv, true_and, run, g1]
      simpa using this
    · simp [AllValid, hv, run, hs.2 hv]

end Verif.BitTriangle
