import Verif.Timer
import Verif.TimerSpec
import Verif.RatioProofs

namespace Verif.Timer

open Verif.Text Verif.F64 Verif.Ratio

theorem decimal_digit {n : ℕ} (h : n < 10) : decimal n = [digit n] := by rw [decimal, if_pos h]

theorem pad3_eq {n : ℕ} (h : n < 1000) : pad3 n = [digit (n / 100), digit (n / 10 % 10), digit (n % 10)] := by
  unfold pad3
  by_cases h1 : n < 10
  · rw [decimal_digit h1, show n / 100 = 0 by omega, show n / 10 % 10 = 0 by omega, Nat.mod_eq_of_lt h1]
    rfl
  · rw [decimal, if_neg h1]
    by_cases h2 : n / 10 < 10
    · rw [decimal_digit h2, show n / 100 = 0 by omega, Nat.mod_eq_of_lt h2]
      rfl
    · rw [decimal, if_neg h2, decimal_digit (by omega : n / 10 / 10 < 10), show n / 10 / 10 = n / 100 by omega]
      rfl

theorem printFile_eq (n : ℕ) : printFile n = ['('] ++ printStream n ++ [')'] := by
  have hlt : n % 1000 < 1000 := Nat.mod_lt _ (by norm_num)
  unfold printFile printStream
  simp only
  rw [pad3_eq hlt, decimal_digit (by omega : n % 1000 / 100 < 10), decimal_digit (by omega : n % 1000 / 10 % 10 < 10),
    decimal_digit (by omega : n % 1000 % 10 < 10)]
  simp

theorem isPart_if (p : Prop) [Decidable p] (n : ℕ) (unit : Char) (h : ¬p → n = 0) :
    IsPart p (if p then decimal n ++ [unit] else []) n unit := by
  unfold IsPart
  by_cases hp : p
  · simp only [hp, decide_true, if_true]
    exact ⟨decimal n, decimal_isDecimal n, rfl⟩
  · simp [hp, h hp]

theorem printStream_isTime (n : ℕ) : IsTime (printStream n) n := by
  have hlt : n % 1000 < 1000 := Nat.mod_lt _ (by norm_num)
  refine ⟨n / 1000 / 60 / 60, n / 1000 / 60 % 60, n / 1000 % 60, n % 1000, _, _, decimal (n / 1000 % 60),
    [digit (n % 1000 / 100), digit (n % 1000 / 10 % 10), digit (n % 1000 % 10)], ?_,
    isPart_if (n / 1000 / 60 / 60 ≠ 0) _ 'h' (by simp),
    isPart_if (n / 1000 / 60 % 60 ≠ 0 ∨ n / 1000 / 60 / 60 ≠ 0) _ 'm' (by omega), decimal_isDecimal _, rfl, ?_, ?_,
    by omega, by omega, by omega⟩
  · unfold printStream
    simp only
    rw [decimal_digit (by omega : n % 1000 / 100 < 10), decimal_digit (by omega : n % 1000 / 10 % 10 < 10),
      decimal_digit (by omega : n % 1000 % 10 < 10)]
    simp
  · intro c hc
    simp only [List.mem_cons, List.not_mem_nil, or_false] at hc
    rcases hc with rfl | rfl | rfl
    · exact digit_isDigit (by omega)
    · exact digit_isDigit (by omega)
    · exact digit_isDigit (by omega)
  · simp only [value, List.foldl]
    rw [digitValue_digit (by omega), digitValue_digit (by omega), digitValue_digit (by omega)]
    omega

/-! ## Reading back -/

theorem readChar_digits (s : List Char) (h : ∀ c ∈ s, c.isDigit = true) (n t : ℕ) :
    s.foldl readChar (n, t) = (s.foldl (fun a c => 10 * a + digitValue c) n, t) := by
  induction s generalizing n with
  | nil => rfl
  | cons c s ih =>
    rw [List.foldl_cons, List.foldl_cons, readChar, if_pos (h c (by simp))]
    exact ih (fun x hx => h x (by simp [hx])) _

theorem readChar_decimal {s : List Char} {n : ℕ} (h : IsDecimal s n) (t : ℕ) : s.foldl readChar (0, t) = (n, t) := by
  rw [readChar_digits s h.digits, ← h.value]
  rfl

theorem isTime_read {text : List Char} {n : ℕ} (h : IsTime text n) : readTime text = n := by
  obtain ⟨hours, minutes, seconds, thousandths, ht, mt, st, ft, e, h1, m1, s1, l1, d1, v1, b1, c1, t1⟩ := h
  have hh : ht.foldl readChar (0, 0) = (0, hours * 3600000) := by
    unfold IsPart at h1
    split at h1
    · obtain ⟨d, hd, rfl⟩ := h1
      rw [List.foldl_append, readChar_decimal hd]
      simp [readChar]
    · rw [h1.1, h1.2]; rfl
  have hm : ∀ t, mt.foldl readChar (0, t) = (0, t + minutes * 60000) := by
    intro t
    unfold IsPart at m1
    split at m1
    · obtain ⟨d, hd, rfl⟩ := m1
      rw [List.foldl_append, readChar_decimal hd]
      simp [readChar]
    · rw [m1.1, m1.2]; rfl
  have hf : ∀ t, ft.foldl readChar (0, t) = (thousandths, t) := by
    intro t
    rw [readChar_digits ft d1, ← v1]
    rfl
  rw [e, readTime]
  simp only [List.foldl_append, hh, hm, readChar_decimal s1]
  simp only [List.foldl_cons, List.foldl_nil]
  have hdot : ∀ a b, readChar (a, b) '.' = (0, b + a * 1000) := by intro a b; simp [readChar]
  have hs : ∀ a b, readChar (a, b) 's' = (0, b + a) := by intro a b; simp [readChar]
  rw [hdot, hf, hs, t1]
  simp only
  ring

/-! ## Rounding -/

theorem toULL_nonneg {d : ℚ} (h0 : 0 ≤ d) (h : d < 2 ^ 64) : ∃ n : ℕ, toULL d = some n ∧ (n : ℚ) ≤ d ∧ d < n + 1 := by
  have hf : 0 ≤ ⌊d⌋ := Int.floor_nonneg.mpr h0
  have : ((⌊d⌋.toNat : ℕ) : ℚ) = ((⌊d⌋ : ℤ) : ℚ) := by
    exact_mod_cast congrArg (Int.cast : ℤ → ℚ) (Int.toNat_of_nonneg hf)
  refine ⟨⌊d⌋.toNat, ?_, ?_, ?_⟩
  · unfold toULL
    rw [if_pos ⟨by linarith, h⟩]
  · rw [this]; exact Int.floor_le _
  · rw [this]; exact Int.lt_floor_add_one _

theorem floatMilliseconds_err (s : ℕ) (hs : s < 2 ^ 50) :
    |rnd (1000 * rnd ((s : ℚ) / 1000000)) - s / 1000| ≤ 1 / 2000 := by
  have hq : (0 : ℚ) ≤ s := by positivity
  have h1 := rnd_le (x := (s : ℚ) / 1000000) (by positivity)
  have h2 := le_rnd (x := (s : ℚ) / 1000000) (by positivity)
  have h3 := rnd_nonneg (x := (s : ℚ) / 1000000) (by positivity)
  have h4 := rnd_le (x := 1000 * rnd ((s : ℚ) / 1000000)) (by positivity)
  have h5 := le_rnd (x := 1000 * rnd ((s : ℚ) / 1000000)) (by positivity)
  rw [abs_le]
  norm_num at h1 h2 h4 h5
  have hq2 : (s : ℚ) < 1125899906842624 := by exact_mod_cast hs
  constructor <;> linarith

theorem millisecondsOf_nearest (s : ℕ) (hs : s < 2 ^ 50) :
    ∃ n : ℕ, millisecondsOf s = some n ∧ 1000 * n ≤ s + 500 ∧ s ≤ 1000 * n + 500 := by
  have herr := floatMilliseconds_err s hs
  have hq : (0 : ℚ) ≤ s := by positivity
  have hq2 : (s : ℚ) < 2 ^ 50 := by exact_mod_cast hs
  unfold millisecondsOf
  simp only
  rw [show rnd ((s : ℤ) : ℚ) = s by
    have := rnd_nat (m := s) (by omega)
    exact_mod_cast this]
  set d := rnd (1000 * rnd ((s : ℚ) / 1000000)) with hd
  have hd0 : 0 ≤ d := rnd_nonneg (by have := rnd_nonneg (x := (s : ℚ) / 1000000) (by positivity); linarith)
  rw [abs_le] at herr
  have hd1 : d < 2 ^ 50 := by linarith
  obtain ⟨n, h1, h2, h3⟩ := toULL_nonneg hd0 (by linarith [show (2:ℚ)^50 < 2^64 by norm_num])
  rw [h1]
  simp only
  have hn : rnd (n : ℚ) = n := rnd_nat (by
    have : (n : ℚ) < 2 ^ 50 := lt_of_le_of_lt h2 hd1
    have : n < 2 ^ 50 := by exact_mod_cast this
    omega)
  rw [hn]
  have hz : 0 ≤ d - n := by linarith
  split
  · rename_i h
    refine ⟨n + 1, rfl, ?_, ?_⟩
    · have h4 := rnd_le hz
      have : (1000 * (n + 1 : ℕ) : ℚ) < s + 501 := by
        push_cast
        norm_num at h4
        linarith
      have : 1000 * (n + 1) < s + 501 := by exact_mod_cast this
      omega
    · have : (s : ℚ) < 1000 * (n + 1 : ℕ) + 501 := by push_cast; linarith
      have : s < 1000 * (n + 1) + 501 := by exact_mod_cast this
      omega
  · rename_i h
    have h4 : d - n < 1 / 2 := by
      by_contra hc
      have := rnd_mono (not_lt.mp hc)
      have h5 : rnd (1 / 2) = 1 / 2 := by
        have := rnd_exact (m := 1) (e := -1) (by norm_num)
        norm_num at this ⊢
        exact this
      rw [h5] at this
      exact h this
    refine ⟨n, rfl, ?_, ?_⟩
    · have : (1000 * n : ℚ) < s + 501 := by linarith
      have : 1000 * n < s + 501 := by exact_mod_cast this
      omega
    · have : (s : ℚ) < 1000 * n + 501 := by linarith
      have : s < 1000 * n + 501 := by exact_mod_cast this
      omega

theorem rnd_5005 : rnd (500500 / 1000000) = 4508103226997866 * 2 ^ (-53 : ℤ) := by
  have := rnd_eq (x := 500500 / 1000000) (m := 4508103226997866) (e := -53) (by norm_num) (by norm_num)
    (by left; rw [abs_lt]; norm_num)
  exact_mod_cast this

theorem rnd_5004 : rnd (1000 * (4508103226997866 * 2 ^ (-53 : ℤ))) = 8804889115230207 * 2 ^ (-44 : ℤ) := by
  have := rnd_eq (x := 1000 * (4508103226997866 * 2 ^ (-53 : ℤ))) (m := 8804889115230207) (e := -44) (by norm_num) (by norm_num)
    (by rw [abs_lt, abs_le]; norm_num)
  exact_mod_cast this

theorem millisecondsOf_half : millisecondsOf 500500 = some 500 := by
  unfold millisecondsOf
  simp only
  rw [show rnd ((500500 : ℤ) : ℚ) = 500500 by
    have := rnd_nat (m := 500500) (by norm_num)
    exact_mod_cast this, rnd_5005, rnd_5004]
  have hfl : toULL (8804889115230207 * 2 ^ (-44 : ℤ)) = some 500 := by
    unfold toULL
    rw [if_pos (by norm_num)]
    congr 1
    have : ⌊(8804889115230207 * 2 ^ (-44 : ℤ) : ℚ)⌋ = 500 := by rw [Int.floor_eq_iff]; norm_num
    rw [this]; rfl
  rw [hfl]
  simp only
  rw [if_neg]
  have h1 : rnd ((500 : ℕ) : ℚ) = 500 := by
    have := rnd_nat (m := 500) (by norm_num)
    exact_mod_cast this
  rw [h1]
  have h2 : rnd (8804889115230207 * 2 ^ (-44 : ℤ) - 500) = 8796093022207 * 2 ^ (-44 : ℤ) := by
    have := rnd_exact (m := 8796093022207) (e := -44) (by norm_num)
    rw [← show ((8796093022207 : ℤ) : ℚ) * 2 ^ (-44 : ℤ) = 8804889115230207 * 2 ^ (-44 : ℤ) - 500 by norm_num, this]
    norm_num
  rw [h2]
  norm_num

/-! ## Spans below zero -/

theorem millisecondsOf_small (s : ℕ) (h0 : 0 < s) (h : s < 1000) : millisecondsOf (-(s : ℤ)) = some 0 := by
  have herr := floatMilliseconds_err s (by omega)
  have hq : (0 : ℚ) < s := by exact_mod_cast h0
  have hq2 : (s : ℚ) ≤ 999 := by exact_mod_cast (by omega : s ≤ 999)
  rw [abs_le] at herr
  unfold millisecondsOf
  simp only
  have hr : rnd ((-(s : ℤ) : ℤ) : ℚ) = -s := by
    push_cast
    rw [rnd_neg, rnd_nat (by omega)]
  rw [hr, show -(s : ℚ) / 1000000 = -(s / 1000000) by ring, rnd_neg,
    show (1000 : ℚ) * -rnd (s / 1000000) = -(1000 * rnd (s / 1000000)) by ring, rnd_neg]
  set d := rnd (1000 * rnd ((s : ℚ) / 1000000)) with hd
  have hd0 : 0 ≤ d := rnd_nonneg (by have := rnd_nonneg (x := (s : ℚ) / 1000000) (by positivity); linarith)
  have hfl : toULL (-d) = some 0 := by
    unfold toULL
    rw [if_pos ⟨by linarith, by norm_num; linarith⟩]
    congr 1
    have : ⌊-d⌋ ≤ 0 := by
      have := Int.floor_le (-d)
      have h2 : ((⌊-d⌋ : ℤ) : ℚ) ≤ 0 := by linarith
      exact_mod_cast h2
    omega
  rw [hfl]
  simp only
  rw [if_neg]
  have : rnd (-d - rnd ((0 : ℕ) : ℚ)) ≤ 0 := by
    rw [Nat.cast_zero, rnd_zero, sub_zero, rnd_neg]
    have := rnd_nonneg hd0
    linarith
  intro hc
  exact absurd (hc.trans this) (by norm_num)

theorem millisecondsOf_negative (s : ℕ) (h : 1000 ≤ s) (h2 : s < 2 ^ 50) : millisecondsOf (-(s : ℤ)) = none := by
  have hq2 : (1000 : ℚ) ≤ s := by exact_mod_cast h
  unfold millisecondsOf
  simp only
  have hr : rnd ((-(s : ℤ) : ℤ) : ℚ) = -s := by
    push_cast
    rw [rnd_neg, rnd_nat (by omega)]
  rw [hr, show -(s : ℚ) / 1000000 = -(s / 1000000) by ring, rnd_neg,
    show (1000 : ℚ) * -rnd (s / 1000000) = -(1000 * rnd (s / 1000000)) by ring, rnd_neg]
  have h3 : (1 : ℚ) ≤ rnd (1000 * rnd ((s : ℚ) / 1000000)) := by
    have e1 : rnd (1 / 1000) = 4611686018427388 * 2 ^ (-62 : ℤ) := by
      have := rnd_eq (x := 1 / 1000) (m := 4611686018427388) (e := -62) (by norm_num) (by norm_num)
        (by left; rw [abs_lt]; norm_num)
      exact_mod_cast this
    have e2 : rnd (1000 * (4611686018427388 * 2 ^ (-62 : ℤ))) = 4503599627370496 * 2 ^ (-52 : ℤ) := by
      have := rnd_eq (x := 1000 * (4611686018427388 * 2 ^ (-62 : ℤ))) (m := 4503599627370496) (e := -52) (by norm_num)
        (by norm_num) (by rw [abs_lt, abs_le]; norm_num)
      exact_mod_cast this
    have e3 : (1 : ℚ) = rnd (1000 * rnd (1 / 1000)) := by rw [e1, e2]; norm_num
    rw [e3]
    refine rnd_mono (mul_le_mul_of_nonneg_left (rnd_mono ?_) (by norm_num))
    linarith
  have hfl : toULL (-rnd (1000 * rnd ((s : ℚ) / 1000000))) = none := by
    unfold toULL
    rw [if_neg (fun h => by linarith [h.1])]
  rw [hfl]

end Verif.Timer
