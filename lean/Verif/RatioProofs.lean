import Verif.Ratio
import Verif.RatioSpec
import Verif.F64Proofs
import Verif.TextProofs

namespace Verif.Ratio

open Verif.Text Verif.F64

/-- The last number that `oneDecimal` computes before it drops the fraction. -/
def scaled (d : ℚ) : ℚ := rnd (rnd (d * 10) + 1 / 2)

theorem scaled_nonneg {d : ℚ} (h : 0 ≤ d) : 0 ≤ scaled d := by
  have := rnd_nonneg (x := d * 10) (by linarith)
  exact rnd_nonneg (by linarith)

theorem scaled_mono {a b : ℚ} (h : a ≤ b) : scaled a ≤ scaled b := by
  have := rnd_mono (x := a * 10) (y := b * 10) (by linarith)
  exact rnd_mono (by linarith)

theorem scaled_le {d : ℚ} (h : 0 ≤ d) :
    scaled d ≤ (d * 10 * (1 + 1 / 2 ^ 53) + 1 / 2) * (1 + 1 / 2 ^ 53) := by
  have h1 := rnd_le (x := d * 10) (by linarith)
  have h2 := rnd_nonneg (x := d * 10) (by linarith)
  have h3 := rnd_le (x := rnd (d * 10) + 1 / 2) (by linarith)
  unfold scaled
  refine h3.trans ?_
  gcongr

theorem le_scaled {d : ℚ} (h : 0 ≤ d) :
    (d * 10 * (1 - 1 / 2 ^ 53) + 1 / 2) * (1 - 1 / 2 ^ 53) ≤ scaled d := by
  have h1 := le_rnd (x := d * 10) (by linarith)
  have h2 := rnd_nonneg (x := d * 10) (by linarith)
  have h3 := le_rnd (x := rnd (d * 10) + 1 / 2) (by linarith)
  unfold scaled
  refine le_trans ?_ h3
  have : (0 : ℚ) ≤ 1 - 1 / 2 ^ 53 := by norm_num
  nlinarith

theorem isTenths_decimal (l : ℕ) : IsTenths (decimal (l / 10) ++ ['.'] ++ decimal (l % 10)) l := by
  have h10 : l % 10 < 10 := Nat.mod_lt _ (by norm_num)
  have e : decimal (l % 10) = [digit (l % 10)] := by rw [decimal, if_pos h10]
  refine ⟨decimal (l / 10), l / 10, digit (l % 10), by rw [e]; simp, decimal_isDecimal _, digit_isDigit h10, ?_⟩
  rw [digitValue_digit h10]; omega

theorem oneDecimal_some {d : ℚ} (h0 : 0 ≤ d) (h : scaled d < 2 ^ 64) :
    ∃ l : ℕ, oneDecimal d = some (decimal (l / 10) ++ ['.'] ++ decimal (l % 10)) ∧
      (l : ℚ) ≤ scaled d ∧ scaled d < l + 1 := by
  have hn := scaled_nonneg h0
  have hf : 0 ≤ ⌊scaled d⌋ := Int.floor_nonneg.mpr hn
  refine ⟨⌊scaled d⌋.toNat, ?_, ?_, ?_⟩
  · unfold oneDecimal toULL
    rw [if_pos ⟨by show -1 < scaled d; linarith, h⟩]
    rfl
  · have : ((⌊scaled d⌋.toNat : ℕ) : ℚ) = ((⌊scaled d⌋ : ℤ) : ℚ) := by
      exact_mod_cast congrArg (Int.cast : ℤ → ℚ) (Int.toNat_of_nonneg hf)
    rw [this]; exact Int.floor_le _
  · have : ((⌊scaled d⌋.toNat : ℕ) : ℚ) = ((⌊scaled d⌋ : ℤ) : ℚ) := by
      exact_mod_cast congrArg (Int.cast : ℤ → ℚ) (Int.toNat_of_nonneg hf)
    rw [this]; exact Int.lt_floor_add_one _

theorem oneDecimal_none {d : ℚ} (h : scaled d ≤ -1 ∨ 2 ^ 64 ≤ scaled d) : oneDecimal d = none := by
  unfold oneDecimal toULL
  rw [if_neg (by
    show ¬ (-1 < scaled d ∧ scaled d < 2 ^ 64)
    rintro ⟨h1, h2⟩
    rcases h with h | h <;> linarith)]

theorem scaled_lt {d : ℚ} (h0 : 0 ≤ d) (h : d ≤ 2 ^ 60) : scaled d < 2 ^ 64 := by
  refine lt_of_le_of_lt (scaled_le h0) ?_
  have : (d * 10 * (1 + 1 / 2 ^ 53) + 1 / 2) * (1 + 1 / 2 ^ 53) ≤
      ((2 : ℚ) ^ 60 * 10 * (1 + 1 / 2 ^ 53) + 1 / 2) * (1 + 1 / 2 ^ 53) := by gcongr
  refine lt_of_le_of_lt this ?_
  norm_num

/-! ## Ties -/

/-- Ten times a number of twentieths is exact, though neither factor need be: the error of the first
rounding is at most two fifths of a unit, and ties go to even. -/
theorem rnd_tie (k : ℕ) (h0 : 0 < k) (hk : k < 2 ^ 50) : rnd (rnd ((k : ℚ) / 20) * 10) = k / 2 := by
  have hkq : (0 : ℚ) < k := by exact_mod_cast h0
  have hkq1 : (1 : ℚ) ≤ k := by exact_mod_cast h0
  have hkq2 : (k : ℚ) < 2 ^ 50 := by exact_mod_cast hk
  set x : ℚ := (k : ℚ) / 20 with hx
  have hxp : 0 < x := by rw [hx]; positivity
  set e := Int.log 2 x with he
  have hle := log_le hxp
  have hlt := lt_log x
  rw [← he] at hle hlt
  have he1 : e < 46 := by
    have : (2 : ℚ) ^ e < 2 ^ (46 : ℤ) := by
      refine lt_of_le_of_lt hle ?_
      rw [hx, show (2 : ℚ) ^ (46 : ℤ) = 2 ^ 46 from by norm_num]
      rw [div_lt_iff₀ (by norm_num)]
      linarith
    exact (zpow_lt_zpow_iff_right₀ (by norm_num)).mp this
  have hu : ulp x = 2 ^ (e - 52) := rfl
  set u := ulp x with hudef
  have hup : 0 < u := ulp_pos x
  have hxl : 2 ^ 52 * u ≤ x := ulp_le hxp
  have hxr : x < 2 ^ 53 * u := lt_ulp x
  obtain ⟨j, hj⟩ : ∃ j : ℕ, 46 - e = j := ⟨(46 - e).toNat, by omega⟩
  -- one in units
  have hone : (1 : ℚ) = 2 ^ (j + 6) * u := by
    rw [hu, ← zpow_natCast, ← zpow_add₀ (by norm_num)]
    have : ((j + 6 : ℕ) : ℤ) + (e - 52) = 0 := by push_cast; omega
    rw [this, zpow_zero]
  have hK : x = ((k * 2 ^ (j + 4) : ℕ) : ℚ) / 5 * u := by
    have : x = k / 20 * (2 ^ (j + 6) * u) := by rw [← hone, hx]; ring
    rw [this]; push_cast; rw [pow_add, pow_add]; ring
  set K : ℕ := k * 2 ^ (j + 4) with hKdef
  set m := roundEven (x / u) with hm
  have hy : rnd x = m * u := rnd_pos_eq hxp
  have hxu : x / u = (K : ℚ) / 5 := by rw [hK]; field_simp
  have herr := roundEven_err (x / u)
  rw [← hm, hxu] at herr
  -- the error is at most two fifths
  have h5 : |5 * m - (K : ℤ)| ≤ 2 := by
    have : |((5 * m - (K : ℤ) : ℤ) : ℚ)| ≤ 5 / 2 := by
      push_cast
      have e1 : (5 : ℚ) * m - K = 5 * (m - K / 5) := by ring
      rw [e1, abs_mul, abs_of_pos (by norm_num : (0 : ℚ) < 5)]
      linarith
    rw [← Int.cast_abs] at this
    have h3 : ((|5 * m - (K : ℤ)| : ℤ) : ℚ) < ((3 : ℤ) : ℚ) := lt_of_le_of_lt this (by norm_num)
    have : |5 * m - (K : ℤ)| < 3 := by exact_mod_cast h3
    omega
  have hdiff : |rnd x * 10 - k / 2| ≤ 4 * u := by
    have e1 : rnd x * 10 - k / 2 = 2 * (((5 * m - (K : ℤ) : ℤ) : ℚ)) * u := by
      rw [hy]
      have : (k : ℚ) / 2 = 10 * x := by rw [hx]; ring
      rw [this, hK]; push_cast; ring
    rw [e1, abs_mul, abs_mul, abs_of_pos hup, abs_of_pos (by norm_num : (0 : ℚ) < 2), ← Int.cast_abs]
    have : ((|5 * m - (K : ℤ)| : ℤ) : ℚ) ≤ ((2 : ℤ) : ℚ) := by exact_mod_cast h5
    push_cast at this ⊢
    nlinarith
  have hyl : 2 ^ 52 * u ≤ rnd x := (rnd_pos_bounds hxp).1
  have hyr : rnd x ≤ 2 ^ 53 * u := (rnd_pos_bounds hxp).2
  have hu3 : (2 : ℚ) ^ (e - 49) = 8 * u := by
    rw [hu, show (8 : ℚ) = 2 ^ (3 : ℤ) from by norm_num, ← zpow_add₀ (by norm_num)]; congr 1; ring
  have hu4 : (2 : ℚ) ^ (e - 48) = 16 * u := by
    rw [hu, show (16 : ℚ) = 2 ^ (4 : ℤ) from by norm_num, ← zpow_add₀ (by norm_num)]; congr 1; ring
  by_cases hc : rnd x * 10 < 2 ^ 56 * u
  · -- the result is in units of 8 u
    have hq : (k : ℚ) / 2 = ((k * 2 ^ (j + 2) : ℕ) : ℤ) * 2 ^ (e - 49) := by
      rw [hu3]
      have : (k : ℚ) / 2 = k / 2 * (2 ^ (j + 6) * u) := by rw [← hone]; ring
      rw [this]; push_cast; rw [pow_add, pow_add]; ring
    rw [hq]
    apply rnd_eq
    · rw [zpow_add₀ (by norm_num), hu3, show (2 : ℚ) ^ (52 : ℤ) = 2 ^ 52 from by norm_num]
      linarith
    · rw [zpow_add₀ (by norm_num), hu3, show (2 : ℚ) ^ (53 : ℤ) = 2 ^ 53 from by norm_num]
      linarith
    · right
      constructor
      · rw [← hq, hu3]; linarith
      · rw [pow_add]; push_cast
        rw [show (k : ℤ) * (2 ^ j * 4) = 2 * (k * 2 ^ j * 2) from by ring]
        exact Int.mul_emod_right _ _
  · have hq : (k : ℚ) / 2 = ((k * 2 ^ (j + 1) : ℕ) : ℤ) * 2 ^ (e - 48) := by
      rw [hu4]
      have : (k : ℚ) / 2 = k / 2 * (2 ^ (j + 6) * u) := by rw [← hone]; ring
      rw [this]; push_cast; rw [pow_add, pow_add]; ring
    rw [hq]
    apply rnd_eq
    · rw [zpow_add₀ (by norm_num), hu4, show (2 : ℚ) ^ (52 : ℤ) = 2 ^ 52 from by norm_num]
      linarith
    · rw [zpow_add₀ (by norm_num), hu4, show (2 : ℚ) ^ (53 : ℤ) = 2 ^ 53 from by norm_num]
      linarith
    · left
      rw [← hq, hu4]; linarith

/-- A number of halves below 2^51 is exact. -/
theorem rnd_half {k : ℕ} (hk : k ≤ 2 ^ 53) : rnd ((k : ℚ) / 2) = k / 2 := by
  have := rnd_exact (m := k) (e := -1) (by rw [abs_of_nonneg (by omega)]; exact_mod_cast hk)
  have e : ((k : ℤ) : ℚ) * 2 ^ (-1 : ℤ) = k / 2 := by
    rw [zpow_neg_one]; push_cast; ring
  rw [e] at this
  exact this

/-- `oneDecimal` of a rounded quotient rounds as the quotient does. -/
theorem scaled_quotient {n d : ℕ} (hn : n < 2 ^ 45) (hd0 : 0 < d) (hd : d < 2 ^ 50) (l : ℕ)
    (h1 : (l : ℚ) ≤ scaled (rnd ((n : ℚ) / d))) (h2 : scaled (rnd ((n : ℚ) / d)) < l + 1) :
    RoundsUp n d l := by
  have hnq : (n : ℚ) < 2 ^ 45 := by exact_mod_cast hn
  have hdq : (d : ℚ) < 2 ^ 50 := by exact_mod_cast hd
  have hd0q : (0 : ℚ) < d := by exact_mod_cast hd0
  have hn0q : (0 : ℚ) ≤ n := by positivity
  set x : ℚ := (n : ℚ) / d with hx
  have hx0 : 0 ≤ x := by positivity
  have hxd : x * d = n := by rw [hx]; field_simp
  -- the exact answer
  set L := (20 * n + d) / (2 * d) with hL
  have hL1 : 2 * d * L ≤ 20 * n + d := by
    have := Nat.div_mul_le_self (20 * n + d) (2 * d)
    rw [hL]; linarith
  have hL2 : 20 * n + d < 2 * d * (L + 1) := by
    have := Nat.lt_mul_div_succ (20 * n + d) (by omega : 0 < 2 * d)
    rw [hL]; exact this
  have hL2q : (20 : ℚ) * n + d + 1 ≤ 2 * d * (L + 1) := by exact_mod_cast hL2
  have hL1q : (2 : ℚ) * d * L ≤ 20 * n + d := by exact_mod_cast hL1
  suffices h : l = L by rw [h]; exact ⟨hL1, hL2⟩
  have hlow : (L : ℚ) ≤ scaled (rnd x) := by
    by_cases h0 : L = 0
    · rw [h0]; push_cast; exact scaled_nonneg (rnd_nonneg hx0)
    · have hLle : L ≤ 20 * n + 1 := by nlinarith
      have hk : (2 * L - 1) < 2 ^ 50 := by
        by_contra hcon
        have : 2 * d * L ≤ 20 * n + d := hL1
        have h2L : 2 ^ 50 + 1 ≤ 2 * L := by omega
        have : d * (2 ^ 50 + 1) ≤ d * (2 * L) := Nat.mul_le_mul_left _ h2L
        nlinarith
      have htie := rnd_tie (2 * L - 1) (by omega) hk
      have hcast : ((2 * L - 1 : ℕ) : ℚ) = 2 * L - 1 := by
        rw [Nat.cast_sub (by omega)]; push_cast; ring
      rw [hcast] at htie
      have hle : (2 * (L : ℚ) - 1) / 20 ≤ x := by
        rw [div_le_iff₀ (by norm_num)]
        have : (2 * (L : ℚ) - 1) * d ≤ x * 20 * d := by nlinarith
        exact le_of_mul_le_mul_right this hd0q
      have h1 := rnd_mono hle
      have h2 : rnd (rnd ((2 * (L : ℚ) - 1) / 20) * 10) ≤ rnd (rnd x * 10) := rnd_mono (by linarith)
      rw [htie] at h2
      have h3 : rnd (L : ℚ) ≤ scaled (rnd x) := rnd_mono (by linarith)
      rwa [rnd_nat (by omega)] at h3
  have hup : scaled (rnd x) < L + 1 := by
    have ha := rnd_le hx0
    have hb := scaled_le (rnd_nonneg hx0)
    have hc : (rnd x * 10 * (1 + 1 / 2 ^ 53) + 1 / 2) * (1 + 1 / 2 ^ 53) ≤
        (x * (1 + 1 / 2 ^ 53) * 10 * (1 + 1 / 2 ^ 53) + 1 / 2) * (1 + 1 / 2 ^ 53) := by gcongr
    refine lt_of_le_of_lt (hb.trans hc) ?_
    have key : (x * (1 + 1 / 2 ^ 53) * 10 * (1 + 1 / 2 ^ 53) + 1 / 2) * (1 + 1 / 2 ^ 53) * d <
        (L + 1 : ℚ) * d := by
      have : (x * (1 + 1 / 2 ^ 53) * 10 * (1 + 1 / 2 ^ 53) + 1 / 2) * (1 + 1 / 2 ^ 53) * d =
        (x * d) * (10 * (1 + 1 / 2 ^ 53) ^ 3) + (1 / 2 * (1 + 1 / 2 ^ 53)) * d := by ring
      rw [this, hxd]
      have c1 : (10 * (1 + 1 / 2 ^ 53) ^ 3 : ℚ) ≤ 10 + 31 / 2 ^ 53 := by norm_num
      have c2 := mul_le_mul_of_nonneg_left c1 hn0q
      linarith
    exact lt_of_mul_lt_mul_right key hd0q.le
  have a1 : (l : ℚ) < L + 1 := by linarith
  have a2 : (L : ℚ) < l + 1 := by linarith
  have b1 : l < L + 1 := by exact_mod_cast a1
  have b2 : L < l + 1 := by exact_mod_cast a2
  omega

/-! ## Units -/

/-- The amount after the first division and `k` rounds of the loop. -/
def amount (base : ℚ) (l : ℚ) : ℕ → ℚ
  | 0 => rnd (rnd l / base)
  | k + 1 => rnd (amount base l k / base)

theorem amount_mono {base a b : ℚ} (hb : 0 < base) (h : a ≤ b) (k : ℕ) :
    amount base a k ≤ amount base b k := by
  induction k with
  | zero => exact rnd_mono (by have := rnd_mono h; gcongr)
  | succ k ih => exact rnd_mono (by gcongr)

theorem amount_nonneg {base a : ℚ} (hb : 0 < base) (h : 0 ≤ a) (k : ℕ) : 0 ≤ amount base a k := by
  induction k with
  | zero => exact rnd_nonneg (div_nonneg (rnd_nonneg h) hb.le)
  | succ k ih => exact rnd_nonneg (div_nonneg ih hb.le)

theorem amount_le {base a : ℚ} (hb : 0 < base) (h : 0 ≤ a) (k : ℕ) :
    amount base a k ≤ a / base ^ (k + 1) * (1 + 1 / 2 ^ 53) ^ (k + 2) := by
  induction k with
  | zero =>
    have h1 := rnd_le h
    have h2 := rnd_le (div_nonneg (rnd_nonneg h) hb.le)
    refine h2.trans ?_
    have : rnd a / base ≤ a * (1 + 1 / 2 ^ 53) / base := by gcongr
    have := mul_le_mul_of_nonneg_right this (show (0 : ℚ) ≤ 1 + 1 / 2 ^ 53 by norm_num)
    refine this.trans (le_of_eq ?_)
    rw [zero_add, pow_one]; ring
  | succ k ih =>
    have h2 := rnd_le (div_nonneg (amount_nonneg hb h k) hb.le)
    refine h2.trans ?_
    have : amount base a k / base ≤ a / base ^ (k + 1) * (1 + 1 / 2 ^ 53) ^ (k + 2) / base := by gcongr
    have := mul_le_mul_of_nonneg_right this (show (0 : ℚ) ≤ 1 + 1 / 2 ^ 53 by norm_num)
    refine this.trans (le_of_eq ?_)
    rw [pow_succ base (k + 1), pow_succ (1 + 1 / 2 ^ 53 : ℚ) (k + 2)]
    field_simp

theorem le_amount {base a : ℚ} (hb : 0 < base) (h : 0 ≤ a) (k : ℕ) :
    a / base ^ (k + 1) * (1 - 1 / 2 ^ 53) ^ (k + 2) ≤ amount base a k := by
  induction k with
  | zero =>
    have h1 := le_rnd h
    have h2 := le_rnd (div_nonneg (rnd_nonneg h) hb.le)
    refine le_trans ?_ h2
    have : a * (1 - 1 / 2 ^ 53) / base ≤ rnd a / base := by gcongr
    have := mul_le_mul_of_nonneg_right this (show (0 : ℚ) ≤ 1 - 1 / 2 ^ 53 by norm_num)
    refine le_trans (le_of_eq ?_) this
    rw [zero_add, pow_one]; ring
  | succ k ih =>
    have h2 := le_rnd (div_nonneg (amount_nonneg hb h k) hb.le)
    refine le_trans ?_ h2
    have : a / base ^ (k + 1) * (1 - 1 / 2 ^ 53) ^ (k + 2) / base ≤ amount base a k / base := by gcongr
    have := mul_le_mul_of_nonneg_right this (show (0 : ℚ) ≤ 1 - 1 / 2 ^ 53 by norm_num)
    refine le_trans (le_of_eq ?_) this
    rw [pow_succ base (k + 1), pow_succ (1 - 1 / 2 ^ 53 : ℚ) (k + 2)]
    field_simp

/-- The loop stops at the first amount below `stop`, or at `unitCount`. -/
theorem unitLoop_eq {unitCount : ℕ} {stop base l : ℚ} (i k : ℕ) (hik : i ≤ k) (hk : k ≤ unitCount)
    (h1 : ∀ j, i ≤ j → j < k → stop ≤ amount base l j) (h2 : k < unitCount → amount base l k < stop) :
    unitLoop unitCount stop base i (amount base l i) = (k, amount base l k) := by
  obtain ⟨n, rfl⟩ : ∃ n, k = i + n := ⟨k - i, by omega⟩
  clear hik
  induction n generalizing i with
  | zero =>
    rw [unitLoop, if_neg]
    · rfl
    · rintro ⟨h, h'⟩
      have := h2 h
      rw [Nat.add_zero] at this
      linarith
  | succ n ih =>
    rw [unitLoop, if_pos ⟨by omega, h1 i (le_refl _) (by omega)⟩]
    have := ih (i + 1) (by omega) (fun j hj1 hj2 => h1 j (by omega) (by omega))
      (fun h => by rw [show i + 1 + n = i + (n + 1) from by omega]; exact h2 (by omega))
    rw [show i + 1 + n = i + (n + 1) from by omega] at this
    exact this

/-- Where the amounts of `withSIPrefix` reach the stop: at 999.95 of the unit. -/
def siLimit (k : ℕ) : ℕ := 999950 * 1000 ^ k

theorem amount_at_limit (k : ℕ) (hk : k < 4) : amount 1000 (siLimit k) k = rnd (99995 / 100) := by
  have key : ∀ (n : ℕ), n ≤ 2 ^ 53 → rnd ((n * 1000 : ℚ) / 1000) = n := by
    intro n hn
    rw [mul_div_assoc, div_self (by norm_num), mul_one]; exact rnd_nat hn
  have r : ∀ (n : ℕ), n ≤ 2 ^ 53 → rnd (n : ℚ) = n := fun n hn => rnd_nat hn
  have e0 : (999950 : ℚ) / 1000 = 99995 / 100 := by norm_num
  have a1 : rnd (999950 : ℚ) = 999950 := r 999950 (by norm_num)
  have a2 : rnd (999950000 : ℚ) = 999950000 := r 999950000 (by norm_num)
  have a3 : rnd (999950000000 : ℚ) = 999950000000 := r 999950000000 (by norm_num)
  have a4 : rnd (999950000000000 : ℚ) = 999950000000000 := r 999950000000000 (by norm_num)
  have d1 : (999950000 : ℚ) / 1000 = 999950 := by norm_num
  have d2 : (999950000000 : ℚ) / 1000 = 999950000 := by norm_num
  have d3 : (999950000000000 : ℚ) / 1000 = 999950000000 := by norm_num
  have c0 : ((siLimit 0 : ℕ) : ℚ) = 999950 := by norm_num [siLimit]
  have c1 : ((siLimit 1 : ℕ) : ℚ) = 999950000 := by norm_num [siLimit]
  have c2 : ((siLimit 2 : ℕ) : ℚ) = 999950000000 := by norm_num [siLimit]
  have c3 : ((siLimit 3 : ℕ) : ℚ) = 999950000000000 := by norm_num [siLimit]
  match k, hk with
  | 0, _ => simp only [amount, c0, a1, e0]
  | 1, _ => simp only [amount, c1, a2, d1, a1, e0]
  | 2, _ => simp only [amount, c2, a3, d2, a2, d1, a1, e0]
  | 3, _ => simp only [amount, c3, a4, d3, a3, d2, a2, d1, a1, e0]

theorem amount_below_limit (k : ℕ) (hk : k < 4) (l : ℕ) (hl : l < siLimit k) :
    amount 1000 l k < rnd (99995 / 100) := by
  have h0 : (0 : ℚ) ≤ l := by positivity
  have h1 := amount_le (base := 1000) (by norm_num) h0 k
  have h2 := le_rnd (x := 99995 / 100) (by norm_num)
  have h3 : (l : ℚ) + 1 ≤ siLimit k := by exact_mod_cast hl
  refine lt_of_le_of_lt h1 (lt_of_lt_of_le ?_ h2)
  clear hl h1 h2 h0
  have hcases : k = 0 ∨ k = 1 ∨ k = 2 ∨ k = 3 := by omega
  unfold siLimit at h3
  push_cast at h3
  rcases hcases with rfl | rfl | rfl | rfl <;> norm_num at h3 ⊢ <;> linarith

theorem amount_above_limit (k : ℕ) (hk : k < 4) (l : ℕ) (hl : siLimit k ≤ l) :
    rnd (99995 / 100) ≤ amount 1000 l k := by
  rw [← amount_at_limit k hk]
  exact amount_mono (by norm_num) (by exact_mod_cast hl) k

theorem siLimit_mono {j k : ℕ} (h : j ≤ k) : siLimit j ≤ siLimit k := by
  unfold siLimit
  exact Nat.mul_le_mul_left _ (Nat.pow_le_pow_right (by norm_num) h)

/-- In which round the loop of `withSIPrefix` ends. -/
theorem siLoop_eq (l k : ℕ) (hk : k ≤ 4) (h1 : ∀ j < k, siLimit j ≤ l) (h2 : k < 4 → l < siLimit k) :
    unitLoop siUnits.length (rnd (99995 / 100)) 1000 0 (rnd (rnd l / 1000)) = (k, amount 1000 l k) := by
  have := unitLoop_eq (unitCount := siUnits.length) (stop := rnd (99995 / 100)) (base := 1000) (l := l)
    0 k (by omega) hk
    (fun j _ hj => amount_above_limit j (by omega) l (h1 j hj))
    (fun h => amount_below_limit k h l (h2 h))
  exact this

/-- The number that `withSIPrefix` prints is nearest. -/
theorem si_nearest (l k L : ℕ) (hk : k < 4) (hl : l < siLimit k)
    (h1 : (L : ℚ) ≤ scaled (amount 1000 l k)) (h2 : scaled (amount 1000 l k) < L + 1) :
    Nearest l (1000 ^ (k + 1)) L := by
  have hl0 : (0 : ℚ) ≤ l := by positivity
  have ha0 := amount_nonneg (base := 1000) (by norm_num) hl0 k
  have a1 := amount_le (base := 1000) (by norm_num) hl0 k
  have a2 := le_amount (base := 1000) (by norm_num) hl0 k
  have b1 := scaled_le ha0
  have b2 := le_scaled ha0
  have hlq : (l : ℚ) + 1 ≤ siLimit k := by exact_mod_cast hl
  have c1 : (L : ℚ) ≤ (l / 1000 ^ (k + 1) * (1 + 1 / 2 ^ 53) ^ (k + 2) * 10 * (1 + 1 / 2 ^ 53) + 1 / 2) *
      (1 + 1 / 2 ^ 53) := by
    refine h1.trans (b1.trans ?_)
    gcongr
  have c2 : (l / 1000 ^ (k + 1) * (1 - 1 / 2 ^ 53) ^ (k + 2) * 10 * (1 - 1 / 2 ^ 53) + 1 / 2) *
      (1 - 1 / 2 ^ 53) < (L : ℚ) + 1 := by
    refine lt_of_le_of_lt (le_trans ?_ b2) h2
    have : (0 : ℚ) ≤ 1 - 1 / 2 ^ 53 := by norm_num
    gcongr
  clear a1 a2 b1 b2 h1 h2 ha0
  -- all is a multiple of 20
  suffices h : (2 : ℚ) * 1000 ^ (k + 1) * L < 20 * l + 1000 ^ (k + 1) + 20 ∧
      (20 : ℚ) * l < 2 * 1000 ^ (k + 1) * L + 1000 ^ (k + 1) + 20 by
    obtain ⟨g1, g2⟩ := h
    have g1' : 2 * 1000 ^ (k + 1) * L < 20 * l + 1000 ^ (k + 1) + 20 := by exact_mod_cast g1
    have g2' : 20 * l < 2 * 1000 ^ (k + 1) * L + 1000 ^ (k + 1) + 20 := by exact_mod_cast g2
    have hD : 1000 ^ (k + 1) = 20 * (50 * 1000 ^ k) := by rw [pow_succ]; ring
    unfold Nearest
    rw [hD] at g1' g2' ⊢
    have e1 : 2 * (20 * (50 * 1000 ^ k)) * L = 20 * (2 * (50 * 1000 ^ k) * L) := by ring
    rw [e1] at g1' g2' ⊢
    generalize 2 * (50 * 1000 ^ k) * L = X at *
    generalize 50 * 1000 ^ k = Y at *
    omega
  have hcases : k = 0 ∨ k = 1 ∨ k = 2 ∨ k = 3 := by omega
  unfold siLimit at hlq
  push_cast at hlq
  clear hl
  rcases hcases with rfl | rfl | rfl | rfl <;> norm_num at hlq c1 c2 ⊢ <;> constructor <;> linarith

/-! ## Bytes -/

theorem byteStop : rnd (102395 / 100) = 9006759450089882 * 2 ^ (-43 : ℤ) := by
  have := rnd_eq (x := 102395 / 100) (m := 9006759450089882) (e := -43) (by norm_num) (by norm_num)
    (by left; rw [abs_lt]; norm_num)
  exact_mod_cast this

/-- Where the amounts of `bytesInUnit` reach the stop: at the first number of bytes that is at least
1023.95 of the unit. -/
def byteLimit : ℕ → ℕ
  | 0 => 1048525
  | 1 => 1073689396
  | 2 => 1099457940685
  | _ => 1125844931261236

theorem byteLimit_le (k : ℕ) : byteLimit k ≤ 2 ^ 53 := by
  unfold byteLimit; split <;> norm_num

theorem amount_byte (b k : ℕ) (hb : b ≤ 2 ^ 53) : amount 1024 b k = b / 1024 ^ (k + 1) := by
  have key : ∀ j : ℕ, rnd ((b : ℚ) / 1024 ^ j) = b / 1024 ^ j := by
    intro j
    have := rnd_exact (m := b) (e := -(10 * j : ℕ)) (by rw [abs_of_nonneg (by omega)]; exact_mod_cast hb)
    rw [zpow_neg, zpow_natCast, pow_mul] at this
    norm_num at this
    rw [div_eq_mul_inv]
    exact this
  induction k with
  | zero =>
    have h0 := key 0
    have h1 := key 1
    rw [pow_zero, div_one] at h0
    rw [pow_one] at h1
    rw [amount, h0, h1, zero_add, pow_one]
  | succ k ih =>
    rw [amount, ih, div_div, ← pow_succ]
    exact key _

theorem byte_below_limit (k : ℕ) (hk : k < 4) (b : ℕ) (hb : b < byteLimit k) :
    amount 1024 b k < rnd (102395 / 100) := by
  have hcases : k = 0 ∨ k = 1 ∨ k = 2 ∨ k = 3 := by omega
  rw [amount_byte _ _ (hb.le.trans (byteLimit_le _)), byteStop]
  have h3 : (b : ℚ) + 1 ≤ byteLimit k := by exact_mod_cast hb
  rcases hcases with rfl | rfl | rfl | rfl <;>
  · norm_num [byteLimit] at h3 ⊢
    linarith

theorem byte_above_limit (k : ℕ) (hk : k < 4) (b : ℕ) (hb : byteLimit k ≤ b) :
    rnd (102395 / 100) ≤ amount 1024 b k := by
  refine le_trans ?_ (amount_mono (a := byteLimit k) (by norm_num) (by exact_mod_cast hb) k)
  have hcases : k = 0 ∨ k = 1 ∨ k = 2 ∨ k = 3 := by omega
  rcases hcases with rfl | rfl | rfl | rfl <;> rw [amount_byte _ _ (byteLimit_le _), byteStop] <;>
  · norm_num [byteLimit]

theorem byteLoop_eq (b k : ℕ) (hk : k ≤ 4) (h1 : ∀ j < k, byteLimit j ≤ b) (h2 : k < 4 → b < byteLimit k) :
    unitLoop byteUnits.length (rnd (102395 / 100)) 1024 0 (rnd (rnd b / 1024)) = (k, amount 1024 b k) := by
  have := unitLoop_eq (unitCount := byteUnits.length) (stop := rnd (102395 / 100)) (base := 1024) (l := b)
    0 k (by omega) hk
    (fun j _ hj => byte_above_limit j (by omega) b (h1 j hj))
    (fun h => byte_below_limit k h b (h2 h))
  exact this

/-- Rounding to tenths is exact for numbers below 2^11 with 40 binary places. -/
theorem scaled_dyadic (P L : ℕ) (hL : L < 2 ^ 14) (d : ℚ) (hd : d * 10 = P / 2 ^ 39)
    (h1 : (L : ℚ) ≤ scaled d) (h2 : scaled d < L + 1) :
    L * 2 ^ 39 ≤ P + 2 ^ 38 ∧ P + 2 ^ 38 < (L + 1) * 2 ^ 39 := by
  have hex : ∀ Q : ℕ, Q ≤ 2 ^ 53 → rnd ((Q : ℚ) / 2 ^ 39) = Q / 2 ^ 39 := by
    intro Q hQ
    have := rnd_exact (m := Q) (e := -39) (by rw [abs_of_nonneg (by omega)]; exact_mod_cast hQ)
    have e : ((Q : ℤ) : ℚ) * 2 ^ (-39 : ℤ) = Q / 2 ^ 39 := by
      rw [zpow_neg]; norm_num; ring
    rwa [e] at this
  constructor
  · by_contra hcon
    have hQ1 : P + 2 ^ 38 + 1 ≤ L * 2 ^ 39 := by omega
    obtain ⟨Q, hQ⟩ : ∃ Q, L * 2 ^ 39 = Q + 2 ^ 38 + 1 := ⟨L * 2 ^ 39 - 2 ^ 38 - 1, by omega⟩
    have hPQ : (P : ℚ) ≤ Q := by exact_mod_cast (by omega : P ≤ Q)
    have hQq : (L : ℚ) * 2 ^ 39 = Q + 2 ^ 38 + 1 := by exact_mod_cast hQ
    have r1 : rnd (d * 10) ≤ Q / 2 ^ 39 := by
      rw [← hex Q (by omega), hd]
      exact rnd_mono (by gcongr)
    have r2 : scaled d ≤ ((Q + 2 ^ 38 : ℕ) : ℚ) / 2 ^ 39 := by
      rw [← hex (Q + 2 ^ 38) (by omega)]
      apply rnd_mono
      push_cast
      linarith
    have r3 : (L : ℚ) ≤ ((Q + 2 ^ 38 : ℕ) : ℚ) / 2 ^ 39 := h1.trans r2
    rw [le_div_iff₀ (by norm_num)] at r3
    push_cast at r3
    linarith
  · by_contra hcon
    have hP : (L + 1) * 2 ^ 39 ≤ P + 2 ^ 38 := by omega
    have hPq : ((L : ℚ) + 1) * 2 ^ 39 ≤ P + 2 ^ 38 := by exact_mod_cast hP
    have r1 : ((2 * L + 1 : ℕ) : ℚ) / 2 ≤ rnd (d * 10) := by
      rw [← rnd_half (k := 2 * L + 1) (by omega), hd]
      apply rnd_mono
      rw [div_le_div_iff₀ (by norm_num) (by norm_num)]
      push_cast
      linarith
    have r2 : ((L + 1 : ℕ) : ℚ) ≤ scaled d := by
      rw [← rnd_nat (m := L + 1) (by omega)]
      apply rnd_mono
      push_cast at r1 ⊢
      linarith
    push_cast at r2
    linarith

end Verif.Ratio
