import Verif.RatioProofs

/-!
# Properties of the ratios and units of `mathic::ColumnPrinter`: C48, C49, C66, C67
-/

namespace Verif.Ratio

open Verif.Text Verif.F64

/-! ## C48: the tables of units -/

/-- C48, exactly: `withSIPrefix` reads outside of its table of units if and only if the number is at
least 999.95 T; for all smaller numbers it is defined. -/
theorem si_defined_iff (l : ℕ) : withSIPrefix l = none ↔ 999950000000000 ≤ l := by
  have hL : siLimit 3 = 999950000000000 := by norm_num [siLimit]
  have hm : ∀ j < 4, siLimit j ≤ siLimit 3 := fun j hj => siLimit_mono (by omega)
  constructor
  · intro h
    by_contra hlt
    rw [← hL, not_le] at hlt
    unfold withSIPrefix at h
    split at h
    · cases h
    · -- the first limit that is above
      obtain ⟨k, hk, h1, h2⟩ : ∃ k < 4, (∀ j < k, siLimit j ≤ l) ∧ l < siLimit k := by
        have hex : ∃ k, l < siLimit k := ⟨3, hlt⟩
        classical
        refine ⟨Nat.find hex, ?_, fun j hj => not_lt.mp (Nat.find_min hex hj), Nat.find_spec hex⟩
        exact lt_of_le_of_lt (Nat.find_min' hex hlt) (by norm_num)
      rw [siLoop_eq l k (by omega) h1 (fun _ => h2)] at h
      have ha := amount_nonneg (base := 1000) (by norm_num) (show (0 : ℚ) ≤ l by positivity) k
      have hb : amount 1000 l k ≤ 2 ^ 60 := by
        have h3 := amount_below_limit k hk l h2
        have h4 := rnd_le (x := 99995 / 100) (by norm_num)
        refine (h3.le.trans h4).trans ?_
        norm_num
      obtain ⟨L, hL, _⟩ := oneDecimal_some ha (scaled_lt ha hb)
      obtain ⟨u, hu⟩ : ∃ u, siUnits[k]? = some u := ⟨_, List.getElem?_eq_getElem hk⟩
      simp only [withUnit, hL, hu] at h
      cases h
  · intro h
    rw [← hL] at h
    unfold withSIPrefix
    rw [if_neg (by rw [hL] at h; omega),
      siLoop_eq l 4 (le_refl _) (fun j hj => (hm j hj).trans h) (fun h => absurd h (lt_irrefl _))]
    simp only [withUnit]
    have : siUnits[4]? = none := rfl
    rw [this]
    cases oneDecimal (amount 1000 (↑l) 4) <;> rfl

/-- C48, exactly: `bytesInUnit` reads outside of its table of units if and only if the number of
bytes is at least 1125844931261236, which is the first at or above 1023.95 TB. -/
theorem bytes_defined_iff (b : ℕ) : bytesInUnit b = none ↔ 1125844931261236 ≤ b := by
  have hm : ∀ j < 4, byteLimit j ≤ byteLimit 3 := by decide
  constructor
  · intro h
    by_contra hlt
    have hlt : b < byteLimit 3 := not_le.mp hlt
    unfold bytesInUnit at h
    split at h
    · cases h
    · obtain ⟨k, hk, h1, h2⟩ : ∃ k < 4, (∀ j < k, byteLimit j ≤ b) ∧ b < byteLimit k := by
        have hex : ∃ k, b < byteLimit k := ⟨3, hlt⟩
        classical
        refine ⟨Nat.find hex, ?_, fun j hj => not_lt.mp (Nat.find_min hex hj), Nat.find_spec hex⟩
        exact lt_of_le_of_lt (Nat.find_min' hex hlt) (by norm_num)
      rw [byteLoop_eq b k (by omega) h1 (fun _ => h2)] at h
      have ha := amount_nonneg (base := 1024) (by norm_num) (show (0 : ℚ) ≤ b by positivity) k
      have hb : amount 1024 b k ≤ 2 ^ 60 := by
        have h3 := byte_below_limit k hk b h2
        have h4 := rnd_le (x := 102395 / 100) (by norm_num)
        refine (h3.le.trans h4).trans ?_
        norm_num
      obtain ⟨L, hL, _⟩ := oneDecimal_some ha (scaled_lt ha hb)
      obtain ⟨u, hu⟩ : ∃ u, byteUnits[k]? = some u := ⟨_, List.getElem?_eq_getElem hk⟩
      simp only [withUnit, hL, hu] at h
      cases h
  · intro h
    have h : byteLimit 3 ≤ b := h
    unfold bytesInUnit
    rw [if_neg (by simp only [byteLimit] at h; omega),
      byteLoop_eq b 4 (le_refl _) (fun j hj => (hm j hj).trans h) (fun h => absurd h (lt_irrefl _))]
    simp only [withUnit]
    have : byteUnits[4]? = none := rfl
    rw [this]
    cases oneDecimal (amount 1024 (↑b) 4) <;> rfl

/-- C48 is violated: there are 64-bit numbers for which the tables of units are read outside of
their bounds. -/
theorem units_refuted : (∃ l < 2 ^ 64, withSIPrefix l = none) ∧ (∃ b < 2 ^ 64, bytesInUnit b = none) :=
  ⟨⟨10 ^ 15, by norm_num, (si_defined_iff _).mpr (by norm_num)⟩,
    ⟨2 ^ 50, by norm_num, (bytes_defined_iff _).mpr (by norm_num)⟩⟩

/-- C48, what holds. Missing: all numbers from 999.95 T or 1023.95 TB on. -/
theorem units_partial (l : ℕ) :
    (l < 999950000000000 → (withSIPrefix l).isSome = true) ∧
      (l < 1125844931261236 → (bytesInUnit l).isSome = true) := by
  constructor <;> intro h <;> rw [Option.isSome_iff_ne_none]
  · rw [ne_eq, si_defined_iff]; omega
  · rw [ne_eq, bytes_defined_iff]; omega

/-! ## C67: what the units say -/

/-- C67: up to 999 the number itself is printed, from there on a number from 1.0 to 999.9 with one
decimal and a prefix, and no other such number is nearer. -/
theorem si_nearest_tenth (l : ℕ) (hl : l < 999950000000000) :
    (l < 1000 ∧ ∃ s, withSIPrefix l = some s ∧ IsDecimal s l) ∨
    (1000 ≤ l ∧ ∃ num L unit value, withSIPrefix l = some (num ++ unit) ∧ IsTenths num L ∧
      siValue unit = some value ∧ Nearest l value L ∧ 10 ≤ L ∧ L ≤ 9999) := by
  by_cases h0 : l < 1000
  · left
    exact ⟨h0, decimal l, by rw [withSIPrefix, if_pos h0], decimal_isDecimal l⟩
  · right
    refine ⟨by omega, ?_⟩
    have hL : siLimit 3 = 999950000000000 := by norm_num [siLimit]
    obtain ⟨k, hk, h1, h2⟩ : ∃ k < 4, (∀ j < k, siLimit j ≤ l) ∧ l < siLimit k := by
      have hex : ∃ k, l < siLimit k := ⟨3, by rw [hL]; exact hl⟩
      classical
      refine ⟨Nat.find hex, ?_, fun j hj => not_lt.mp (Nat.find_min hex hj), Nat.find_spec hex⟩
      exact lt_of_le_of_lt (Nat.find_min' hex (by rw [hL]; exact hl)) (by norm_num)
    have ha := amount_nonneg (base := 1000) (by norm_num) (show (0 : ℚ) ≤ l by positivity) k
    have hb : amount 1000 l k ≤ 2 ^ 60 := by
      have h3 := amount_below_limit k hk l h2
      have h4 := rnd_le (x := 99995 / 100) (by norm_num)
      refine (h3.le.trans h4).trans ?_
      norm_num
    obtain ⟨L, e1, e2, e3⟩ := oneDecimal_some ha (scaled_lt ha hb)
    have hn := si_nearest l k L hk h2 e2 e3
    obtain ⟨u, hu, hv⟩ : ∃ u, siUnits[k]? = some u ∧ siValue u = some (1000 ^ (k + 1)) := by
      have : k = 0 ∨ k = 1 ∨ k = 2 ∨ k = 3 := by omega
      rcases this with rfl | rfl | rfl | rfl <;> exact ⟨_, rfl, rfl⟩
    refine ⟨_, L, u, 1000 ^ (k + 1), ?_, isTenths_decimal L, hv, hn, ?_, ?_⟩
    · unfold withSIPrefix
      rw [if_neg h0, siLoop_eq l k (by omega) h1 (fun _ => h2)]
      simp only [withUnit, e1, hu]
    · obtain ⟨n1, n2⟩ := hn
      by_contra hcon
      have hL9 : L ≤ 9 := by omega
      have hge : 999950 * 1000 ^ k ≤ 1000 * l := by
        rcases Nat.eq_zero_or_pos k with rfl | hk0
        · omega
        · have := h1 (k - 1) (by omega)
          rw [siLimit] at this
          obtain ⟨j, rfl⟩ : ∃ j, k = j + 1 := ⟨k - 1, by omega⟩
          rw [Nat.add_sub_cancel] at this
          rw [pow_succ]
          generalize 1000 ^ j = X at *
          omega
      have : 2 * 1000 ^ (k + 1) * L ≤ 2 * 1000 ^ (k + 1) * 9 := Nat.mul_le_mul_left _ hL9
      have hp : 0 < 1000 ^ k := by positivity
      rw [pow_succ] at *
      omega
    · obtain ⟨n1, n2⟩ := hn
      by_contra hcon
      have hL4 : 10000 ≤ L := by omega
      have : 2 * 1000 ^ (k + 1) * 10000 ≤ 2 * 1000 ^ (k + 1) * L := Nat.mul_le_mul_left _ hL4
      rw [siLimit] at h2
      rw [pow_succ] at *
      omega

/-- C67: up to 1023 the number of bytes is printed, from there on a number with one decimal and a
unit, rounded to the nearest tenth with halves up. -/
theorem bytes_nearest_tenth (b : ℕ) (hb : b < 1125844931261236) :
    (b < 1024 ∧ ∃ s, bytesInUnit b = some (s ++ ['B']) ∧ IsDecimal s b) ∨
    (1024 ≤ b ∧ ∃ num L unit value, bytesInUnit b = some (num ++ unit) ∧ IsTenths num L ∧
      byteValue unit = some value ∧ RoundsUp b value L ∧ 10 ≤ L ∧ L ≤ 10239) := by
  by_cases h0 : b < 1024
  · left
    exact ⟨h0, decimal b, by rw [bytesInUnit, if_pos h0], decimal_isDecimal b⟩
  · right
    refine ⟨by omega, ?_⟩
    have hlt : b < byteLimit 3 := hb
    obtain ⟨k, hk, h1, h2⟩ : ∃ k < 4, (∀ j < k, byteLimit j ≤ b) ∧ b < byteLimit k := by
      have hex : ∃ k, b < byteLimit k := ⟨3, hlt⟩
      classical
      refine ⟨Nat.find hex, ?_, fun j hj => not_lt.mp (Nat.find_min hex hj), Nat.find_spec hex⟩
      exact lt_of_le_of_lt (Nat.find_min' hex hlt) (by norm_num)
    have ha := amount_nonneg (base := 1024) (by norm_num) (show (0 : ℚ) ≤ b by positivity) k
    have hst : amount 1024 b k ≤ 1024 := by
      have h3 := byte_below_limit k hk b h2
      have h4 := rnd_le (x := 102395 / 100) (by norm_num)
      refine (h3.le.trans h4).trans ?_
      norm_num
    obtain ⟨L, e1, e2, e3⟩ := oneDecimal_some ha (scaled_lt ha (hst.trans (by norm_num)))
    have hL13 : L < 2 ^ 14 := by
      have h5 := scaled_le ha
      have h6 : (amount 1024 b k * 10 * (1 + 1 / 2 ^ 53) + 1 / 2) * (1 + 1 / 2 ^ 53) ≤
        ((1024 : ℚ) * 10 * (1 + 1 / 2 ^ 53) + 1 / 2) * (1 + 1 / 2 ^ 53) := by gcongr
      have h7 : (L : ℚ) < ((2 ^ 14 : ℕ) : ℚ) := by
        refine lt_of_le_of_lt (e2.trans (h5.trans h6)) ?_
        norm_num
      exact_mod_cast h7
    have hamt := amount_byte b k (h2.le.trans (byteLimit_le k))
    have hd : amount 1024 b k * 10 = ((5 * b * 1024 ^ (3 - k) : ℕ) : ℚ) / 2 ^ 39 := by
      rw [hamt]
      have : k = 0 ∨ k = 1 ∨ k = 2 ∨ k = 3 := by omega
      push_cast
      rcases this with rfl | rfl | rfl | rfl <;> norm_num <;> ring
    have hn := scaled_dyadic (5 * b * 1024 ^ (3 - k)) L hL13 _ hd e2 e3
    have hR : RoundsUp b (1024 ^ (k + 1)) L := by
      have : k = 0 ∨ k = 1 ∨ k = 2 ∨ k = 3 := by omega
      unfold RoundsUp
      rcases this with rfl | rfl | rfl | rfl <;> norm_num at hn ⊢ <;> omega
    obtain ⟨u, hu, hv⟩ : ∃ u, byteUnits[k]? = some u ∧ byteValue u = some (1024 ^ (k + 1)) := by
      have : k = 0 ∨ k = 1 ∨ k = 2 ∨ k = 3 := by omega
      rcases this with rfl | rfl | rfl | rfl <;> exact ⟨_, rfl, rfl⟩
    refine ⟨_, L, u, 1024 ^ (k + 1), ?_, isTenths_decimal L, hv, hR, ?_⟩
    · unfold bytesInUnit
      rw [if_neg h0, byteLoop_eq b k (by omega) h1 (fun _ => h2)]
      simp only [withUnit, e1, hu]
    · have hprev : k = 0 ∨ byteLimit (k - 1) ≤ b := by
        by_cases hk0 : k = 0
        · exact .inl hk0
        · exact .inr (h1 (k - 1) (by omega))
      unfold RoundsUp at hR
      have : k = 0 ∨ k = 1 ∨ k = 2 ∨ k = 3 := by omega
      rcases this with rfl | rfl | rfl | rfl <;> norm_num [byteLimit] at hR h2 hprev ⊢ <;> omega

/-! ## C66: ratios to the nearest tenth -/

/-- C66, what holds: `ratioInteger` prints the ratio rounded to the nearest tenth, halves up.
Missing: numerators from 2^45 on, and denominators from 2^50 on. -/
theorem ratio_nearest_partial (n d : ℕ) (hn : n < 2 ^ 45) (hd0 : 0 < d) (hd : d < 2 ^ 50) :
    ∃ s L, ratioInteger n d = some s ∧ IsTenths s L ∧ RoundsUp n d L := by
  have hx : (0 : ℚ) ≤ (n : ℚ) / d := by positivity
  have hle : rnd ((n : ℚ) / d) ≤ 2 ^ 60 := by
    have h1 := rnd_le hx
    have h2 : (n : ℚ) / d ≤ 2 ^ 45 := by
      have hnq : (n : ℚ) ≤ 2 ^ 45 := by exact_mod_cast hn.le
      have hdq : (1 : ℚ) ≤ d := by exact_mod_cast hd0
      rw [div_le_iff₀ (by linarith)]
      linarith
    refine h1.trans ?_
    have : (n : ℚ) / d * (1 + 1 / 2 ^ 53) ≤ 2 ^ 45 * (1 + 1 / 2 ^ 53) := by gcongr
    refine this.trans ?_
    norm_num
  obtain ⟨L, e1, e2, e3⟩ := oneDecimal_some (rnd_nonneg hx) (scaled_lt (rnd_nonneg hx) hle)
  refine ⟨_, L, ?_, isTenths_decimal L, scaled_quotient hn hd0 hd L e2 e3⟩
  unfold ratioInteger
  rw [if_neg (by omega), rnd_nat (by omega), rnd_nat (by omega)]
  exact e1

/-- C66, what holds of `percentInteger`. Missing as in `ratio_nearest_partial`. -/
theorem percent_nearest_partial (n d : ℕ) (hn : n * 100 < 2 ^ 45) (hd0 : 0 < d) (hd : d < 2 ^ 50) :
    ∃ s L, percentInteger n d = some (s ++ ['%']) ∧ IsTenths s L ∧ RoundsUp (100 * n) d L := by
  obtain ⟨s, L, h1, h2, h3⟩ := ratio_nearest_partial (n * 100) d hn hd0 hd
  refine ⟨s, L, ?_, h2, by rw [Nat.mul_comm]; exact h3⟩
  unfold percentInteger
  rw [Nat.mod_eq_of_lt (by omega), h1]
  rfl

/-- C66: the denominator zero. -/
theorem ratio_zero (n : ℕ) : ratioInteger n 0 = some (if n = 0 then "0/0".toList else "?/0".toList) := by
  unfold ratioInteger
  rw [if_pos rfl]
  rfl

/-- C66 for all 64-bit numbers whose ratio is at most 2^60: the number printed is within a twentieth
of the ratio, apart from an error of the order of the precision of `double`. -/
theorem ratio_close (n d : ℕ) (hd0 : 0 < d) (hr : n ≤ 2 ^ 60 / 2 * d) :
    ∃ s L, ratioInteger n d = some s ∧ IsTenths s L ∧
      |(L : ℚ) / 10 - n / d| ≤ 1 / 20 + (n / d + 1) / 2 ^ 50 := by
  have hdq : (0 : ℚ) < d := by exact_mod_cast hd0
  have hnq : (0 : ℚ) ≤ n := by positivity
  set x : ℚ := (n : ℚ) / d with hxdef
  have hx : 0 ≤ x := by positivity
  have hxle : x ≤ 2 ^ 59 := by
    rw [hxdef, div_le_iff₀ hdq]
    have : ((n : ℕ) : ℚ) ≤ ((2 ^ 60 / 2 * d : ℕ) : ℚ) := by exact_mod_cast hr
    norm_num at this ⊢
    exact this
  -- the quotient
  have hn1 := rnd_le hnq
  have hn2 := le_rnd hnq
  have hd1 := rnd_le hdq.le
  have hd2 := le_rnd hdq.le
  have hrd : 0 < rnd (d : ℚ) := lt_of_lt_of_le (by norm_num; exact hd0) hd2
  have hq0 : 0 ≤ rnd (n : ℚ) / rnd (d : ℚ) := div_nonneg (rnd_nonneg hnq) hrd.le
  have hxd : x * d = n := by rw [hxdef]; field_simp
  have q1 : rnd (n : ℚ) / rnd (d : ℚ) ≤ x * (1 + 3 / 2 ^ 53) := by
    rw [div_le_iff₀ hrd]
    have : x * (1 + 3 / 2 ^ 53) * (d * (1 - 1 / 2 ^ 53)) ≤ x * (1 + 3 / 2 ^ 53) * rnd d :=
      mul_le_mul_of_nonneg_left hd2 (by positivity)
    refine le_trans ?_ this
    refine hn1.trans ?_
    rw [← hxd]
    have h0 : 0 ≤ x * d := by positivity
    nlinarith
  have q2 : x * (1 - 3 / 2 ^ 53) ≤ rnd (n : ℚ) / rnd (d : ℚ) := by
    rw [le_div_iff₀ hrd]
    have : x * (1 - 3 / 2 ^ 53) * rnd d ≤ x * (1 - 3 / 2 ^ 53) * (d * (1 + 1 / 2 ^ 53)) :=
      mul_le_mul_of_nonneg_left hd1 (mul_nonneg hx (by norm_num))
    refine le_trans this ?_
    refine le_trans ?_ hn2
    rw [← hxd]
    have h0 : 0 ≤ x * d := by positivity
    nlinarith
  set q := rnd (rnd (n : ℚ) / rnd (d : ℚ)) with hqdef
  have hq : 0 ≤ q := rnd_nonneg hq0
  have p1 : q ≤ x * (1 + 5 / 2 ^ 53) := by
    have h1 := rnd_le hq0
    have h2 := mul_le_mul_of_nonneg_right q1 (show (0 : ℚ) ≤ 1 + 1 / 2 ^ 53 by norm_num)
    refine h1.trans (h2.trans ?_)
    nlinarith
  have p2 : x * (1 - 5 / 2 ^ 53) ≤ q := by
    have h1 := le_rnd hq0
    have h2 := mul_le_mul_of_nonneg_right q2 (show (0 : ℚ) ≤ 1 - 1 / 2 ^ 53 by norm_num)
    refine le_trans (le_trans ?_ h2) h1
    nlinarith
  obtain ⟨L, e1, e2, e3⟩ := oneDecimal_some hq (scaled_lt hq (p1.trans (by nlinarith)))
  refine ⟨_, L, ?_, isTenths_decimal L, ?_⟩
  · unfold ratioInteger
    rw [if_neg (by omega)]
    exact e1
  · have b1 := scaled_le hq
    have b2 := le_scaled hq
    rw [abs_le]
    constructor <;> nlinarith

/-- C66 is violated: a ratio that does not fit, in tenths, into 64 bits is undefined behaviour, and
`percentInteger` of equal numbers gives 0.0% if a hundred times the number wraps around to zero. -/
theorem ratio_refuted : ratioInteger (2 ^ 64 - 1) 1 = none ∧
    percentInteger (2 ^ 62) (2 ^ 62) = some ['0', '.', '0', '%'] := by
  constructor
  · unfold ratioInteger
    rw [if_neg (by norm_num)]
    apply oneDecimal_none
    right
    have h0 : ((1 : ℕ) : ℚ) = 1 := by norm_num
    have h1 : rnd ((1 : ℕ) : ℚ) = 1 := by rw [rnd_nat (by norm_num), h0]
    rw [h1, div_one]
    have hn : (0 : ℚ) ≤ ((2 ^ 64 - 1 : ℕ) : ℚ) := by positivity
    have h2 := le_rnd hn
    have h3 := le_rnd (rnd_nonneg hn)
    have h4 := le_scaled (rnd_nonneg (rnd_nonneg hn))
    refine le_trans ?_ h4
    have hc : ((2 ^ 64 - 1 : ℕ) : ℚ) = 2 ^ 64 - 1 := by norm_num
    rw [hc] at h2 h3 ⊢
    norm_num at h2 h3 ⊢
    linarith
  · have e : (2 ^ 62 * 100 % 2 ^ 64 : ℕ) = 0 := by norm_num
    unfold percentInteger ratioInteger
    rw [e, if_neg (by norm_num)]
    have h0 : rnd ((0 : ℕ) : ℚ) = 0 := by rw [rnd_nat (by norm_num)]; norm_num
    rw [h0, zero_div, rnd_zero]
    have hs : scaled 0 = 1 / 2 := by
      unfold scaled
      rw [zero_mul, rnd_zero, zero_add]
      have := rnd_half (k := 1) (by norm_num)
      norm_num at this ⊢
      exact this
    obtain ⟨L, h1, h2, h3⟩ := oneDecimal_some (d := 0) (le_refl _) (by rw [hs]; norm_num)
    rw [hs] at h2 h3
    have : L = 0 := by
      have : (L : ℚ) < 1 := by linarith
      have : L < 1 := by exact_mod_cast this
      omega
    subst this
    rw [h1]
    simp [decimal, digit]

/-- A negative number is undefined behaviour too: `oneDecimal(-1)`. -/
theorem negative_refuted : oneDecimal (-1) = none := by
  apply oneDecimal_none
  left
  have h10 : rnd (-1 * 10) = -10 := by
    rw [neg_one_mul, rnd_neg]
    have := rnd_nat (m := 10) (by norm_num)
    norm_num at this ⊢
    exact this
  unfold scaled
  rw [h10]
  have e : (-10 + 1 / 2 : ℚ) = -((19 : ℕ) / 2) := by norm_num
  rw [e, rnd_neg, rnd_half (by norm_num)]
  norm_num

/-! ## C49: the width of `percentIntegerFixed` -/

/-- C49: there are at least six characters. -/
theorem fixed_length_ge (n d : ℕ) (s : List Char) (h : percentIntegerFixed n d = some s) :
    6 ≤ s.length := by
  unfold percentIntegerFixed at h
  split at h
  · cases h
  · split at h
    · cases h; omega
    · cases h
      simp only [List.length_append, List.length_replicate]; omega

/-- C49: there are exactly six for all ratios up to 999.9%, even if a hundred times the numerator
wraps around, and for the denominator zero. -/
theorem fixed_length (n d : ℕ) (hd : d = 0 ∨ n * 100 * 10 ≤ 9999 * d) :
    ∃ s, percentIntegerFixed n d = some s ∧ s.length = 6 := by
  have key : ∀ s, percentInteger n d = some s → s.length ≤ 6 →
      ∃ s, percentIntegerFixed n d = some s ∧ s.length = 6 := by
    intro s h1 h2
    refine ⟨List.replicate (6 - s.length) ' ' ++ s, ?_, ?_⟩
    · unfold percentIntegerFixed
      rw [h1]
      simp only
      rw [if_neg (by omega)]
    · simp only [List.length_append, List.length_replicate]; omega
  by_cases h0 : d = 0
  · subst h0
    by_cases hn : n * 100 % 2 ^ 64 = 0
    · exact key ['0', '/', '0', '%'] (by unfold percentInteger ratioInteger; rw [if_pos rfl, if_pos hn]; rfl) (by simp)
    · exact key ['?', '/', '0', '%'] (by unfold percentInteger ratioInteger; rw [if_pos rfl, if_neg hn]; rfl) (by simp)
  · have hd : n * 100 * 10 ≤ 9999 * d := by rcases hd with h | h; exacts [absurd h h0, h]
    have hm : n * 100 % 2 ^ 64 * 10 ≤ 9999 * d :=
      le_trans (Nat.mul_le_mul_right _ (Nat.mod_le _ _)) hd
    generalize hN : n * 100 % 2 ^ 64 = N at hm
    have hdq : (0 : ℚ) < d := by exact_mod_cast Nat.pos_of_ne_zero h0
    have hNq : (0 : ℚ) ≤ N := by positivity
    have hmq : (N : ℚ) * 10 ≤ 9999 * d := by exact_mod_cast hm
    have hn1 := rnd_le hNq
    have hd2 := le_rnd hdq.le
    have hrd : 0 < rnd (d : ℚ) := lt_of_lt_of_le (by norm_num; omega) hd2
    have hq0 : 0 ≤ rnd (N : ℚ) / rnd (d : ℚ) := div_nonneg (rnd_nonneg hNq) hrd.le
    have q1 : rnd (N : ℚ) / rnd (d : ℚ) ≤ 99991 / 100 := by
      rw [div_le_iff₀ hrd]
      norm_num at hn1 hd2 ⊢
      linarith
    have q2 : rnd (rnd (N : ℚ) / rnd (d : ℚ)) ≤ 99992 / 100 := by
      refine (rnd_le hq0).trans ?_
      have := mul_le_mul_of_nonneg_right q1 (show (0 : ℚ) ≤ 1 + 1 / 2 ^ 53 by norm_num)
      refine this.trans ?_
      norm_num
    have hq := rnd_nonneg hq0
    obtain ⟨L, e1, e2, e3⟩ := oneDecimal_some hq (scaled_lt hq (q2.trans (by norm_num)))
    have hL : L ≤ 9999 := by
      have h5 := scaled_le hq
      have h6 : (rnd (rnd (N : ℚ) / rnd (d : ℚ)) * 10 * (1 + 1 / 2 ^ 53) + 1 / 2) * (1 + 1 / 2 ^ 53) ≤
        ((99992 / 100 : ℚ) * 10 * (1 + 1 / 2 ^ 53) + 1 / 2) * (1 + 1 / 2 ^ 53) := by gcongr
      have h7 : (L : ℚ) < ((10000 : ℕ) : ℚ) := by
        refine lt_of_le_of_lt (e2.trans (h5.trans h6)) ?_
        norm_num
      have : L < 10000 := by exact_mod_cast h7
      omega
    refine key (decimal (L / 10) ++ ['.'] ++ decimal (L % 10) ++ ['%']) ?_ ?_
    · unfold percentInteger ratioInteger
      rw [hN, if_neg h0, e1]
      rfl
    · have l1 : (decimal (L / 10)).length ≤ 3 := (decimal_length_le (by norm_num)).mpr (by norm_num; omega)
      have l2 : (decimal (L % 10)).length ≤ 1 := (decimal_length_le (by norm_num)).mpr (by norm_num; omega)
      simp only [List.length_append, List.length_singleton]
      omega

/-! Examples: the hypotheses are met. -/

example : ∃ s, percentIntegerFixed 9999 1000 = some s ∧ s.length = 6 :=
  fixed_length 9999 1000 (.inr (by norm_num))

example : ∃ s L, ratioInteger 7 4 = some s ∧ IsTenths s L ∧ RoundsUp 7 4 L :=
  ratio_nearest_partial 7 4 (by norm_num) (by norm_num) (by norm_num)

#guard (ratioInteger 7 4) == some "1.8".toList
#guard (percentInteger 3 100) == some "3.0%".toList
#guard (percentIntegerFixed 3 100) == some "  3.0%".toList
#guard (percentIntegerFixed 10 1) == some "1000.0%".toList
#guard (ratioDouble 1 (1 / 10000000000)) == some "?/0".toList
-- The header says "123.4G".
#guard (withSIPrefix 123456789) == some "123.5M".toList
#guard (withSIPrefix 999949) == some "999.9k".toList
#guard (withSIPrefix 999950) == some "1.0M".toList
#guard (bytesInUnit 1536) == some "1.5kB".toList
#guard (bytesInUnit 1048524) == some "1023.9kB".toList
#guard (bytesInUnit 1048525) == some "1.0MB".toList

end Verif.Ratio
