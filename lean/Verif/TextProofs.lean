import Verif.TextSpec
import Mathlib.Data.List.Induction
import Mathlib.Tactic.Ring

namespace Verif.Text

theorem isDigit_iff (c : Char) : c.isDigit = true ↔ 48 ≤ c.toNat ∧ c.toNat ≤ 57 := by
  simp only [Char.isDigit, Bool.and_eq_true, decide_eq_true_eq, ge_iff_le]
  rfl

theorem digit_toNat {n : ℕ} (h : n < 10) : (digit n).toNat = 48 + n := by
  have : ∀ k < 10, (digit k).toNat = 48 + k := by decide
  exact this n h

theorem digit_isDigit {n : ℕ} (h : n < 10) : (digit n).isDigit = true := by
  rw [isDigit_iff, digit_toNat h]; omega

theorem digitValue_digit {n : ℕ} (h : n < 10) : digitValue (digit n) = n := by
  unfold digitValue; rw [digit_toNat h]; show 48 + n - 48 = n; omega

theorem digitValue_lt {c : Char} (h : c.isDigit = true) : digitValue c < 10 := by
  rw [isDigit_iff] at h
  unfold digitValue; show c.toNat - 48 < 10; omega

theorem digit_digitValue {c : Char} (h : c.isDigit = true) : digit (digitValue c) = c := by
  have hl := digitValue_lt h
  rw [isDigit_iff] at h
  apply Char.toNat_inj.mp
  rw [digit_toNat hl]
  unfold digitValue; show 48 + (c.toNat - 48) = c.toNat; omega

theorem value_append (s : List Char) (c : Char) : value (s ++ [c]) = 10 * value s + digitValue c := by
  simp [value]

theorem decimal_ne_nil (n : ℕ) : decimal n ≠ [] := by
  unfold decimal; split <;> simp

theorem decimal_digits (n : ℕ) : ∀ c ∈ decimal n, c.isDigit = true := by
  induction n using Nat.strong_induction_on with
  | _ n ih =>
    rw [decimal]
    split
    · rename_i h; simpa using digit_isDigit h
    · intro c hc
      rcases List.mem_append.mp hc with h | h
      · exact ih _ (by omega) c h
      · rw [List.mem_singleton] at h; subst h; exact digit_isDigit (by omega)

theorem value_decimal (n : ℕ) : value (decimal n) = n := by
  induction n using Nat.strong_induction_on with
  | _ n ih =>
    rw [decimal]
    split
    · rename_i h; simp [value, digitValue_digit h]
    · rw [value_append, ih _ (by omega), digitValue_digit (by omega)]; omega

theorem decimal_head (n : ℕ) (hn : n ≠ 0) : (decimal n).head? ≠ some '0' := by
  induction n using Nat.strong_induction_on with
  | _ n ih =>
    rw [decimal]
    split
    · rename_i h
      intro he
      have : digit n = digit 0 := by
        have h0 : digit n = '0' := by simpa using he
        rw [h0]; rfl
      have := congrArg digitValue this
      rw [digitValue_digit h, digitValue_digit (by omega)] at this
      exact hn this
    · have h1 := ih (n / 10) (by omega) (by omega)
      rw [List.head?_append]
      cases hd : (decimal (n / 10)).head? with
      | none => exact absurd (List.head?_eq_none_iff.mp hd) (decimal_ne_nil _)
      | some c => rw [hd] at h1; simpa using h1

theorem decimal_isDecimal (n : ℕ) : IsDecimal (decimal n) n where
  digits := decimal_digits n
  nonempty := decimal_ne_nil n
  value := value_decimal n
  noLeadingZero := by
    intro h
    by_cases hn : n = 0
    · subst hn; simp [decimal]
    · exact absurd h (decimal_head n hn)

theorem value_pos {s : List Char} (hne : s ≠ []) (h : s.head? ≠ some '0') (hd : ∀ c ∈ s, c.isDigit = true) :
    0 < value s := by
  induction s using List.reverseRecOn with
  | nil => exact absurd rfl hne
  | append_singleton s c ih =>
    rw [value_append]
    by_cases hs : s = []
    · subst hs
      have : c ≠ '0' := by simpa using h
      have hc : digitValue c ≠ 0 := by
        intro h0
        have := digit_digitValue (hd c (by simp))
        rw [h0] at this
        exact ‹c ≠ '0'› this.symm
      omega
    · have := ih hs (by rw [List.head?_append_of_ne_nil _ hs] at h; exact h)
        (fun c hc => hd c (List.mem_append_left _ hc))
      omega

/-- The decimal representation is unique. -/
theorem IsDecimal.eq {s : List Char} {n : ℕ} (h : IsDecimal s n) : s = decimal n := by
  induction s using List.reverseRecOn generalizing n with
  | nil => exact absurd rfl h.nonempty
  | append_singleton s c ih =>
    have hc := h.digits c (by simp)
    have hv := h.value
    rw [value_append] at hv
    have hlt := digitValue_lt hc
    by_cases hs : s = []
    · subst hs
      have : digitValue c = n := by simpa [Text.value] using hv
      rw [decimal, if_pos (by omega), ← this, digit_digitValue hc]; rfl
    · have hh : s.head? ≠ some '0' := by
        intro h0
        have := h.noLeadingZero (by rw [List.head?_append_of_ne_nil _ hs]; exact h0)
        have := List.length_pos_iff.mpr hs
        rw [List.length_append, List.length_singleton] at *; omega
      have hd : ∀ c ∈ s, c.isDigit = true := fun c hc => h.digits c (List.mem_append_left _ hc)
      have hp := value_pos hs hh hd
      have := ih (n := Text.value s) ⟨hd, hs, rfl, fun h0 => absurd h0 hh⟩
      rw [decimal, if_neg (by omega)]
      have e1 : n / 10 = Text.value s := by omega
      have e2 : n % 10 = digitValue c := by omega
      rw [e1, e2, ← this, digit_digitValue hc]

theorem decimal_inj {m n : ℕ} (h : decimal m = decimal n) : m = n := by
  rw [← value_decimal m, h, value_decimal]

theorem decimal_length_le {n k : ℕ} (hk : 0 < k) : (decimal n).length ≤ k ↔ n < 10 ^ k := by
  induction k generalizing n with
  | zero => omega
  | succ k ih =>
    rw [decimal]
    split
    · simp only [List.length_singleton]
      constructor
      · intro _
        calc n < 10 := by assumption
          _ = 10 ^ 1 := rfl
          _ ≤ 10 ^ (k + 1) := Nat.pow_le_pow_right (by omega) (by omega)
      · omega
    · simp only [List.length_append, List.length_singleton]
      by_cases h0 : k = 0
      · subst h0
        have := List.length_pos_iff.mpr (decimal_ne_nil (n / 10))
        constructor
        · omega
        · intro h; simp at h; omega
      · rw [Nat.add_le_add_iff_right, ih (by omega), pow_succ]
        omega

end Verif.Text
