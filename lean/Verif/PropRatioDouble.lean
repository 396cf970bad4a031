import Verif.PropRatio

/-!
# Property C73: ratios of `double`

Full statement: `oneDecimal`, `ratioDouble` and `percentDouble` print the nearest tenth up to an error of
the order of the precision of `double`, for all numbers; a denominator that is smaller in absolute value
than 10^-9 is reported as a division by zero. What is missing: negative ratios, for which it does not
hold, and ratios from 2^59 on.
-/

namespace Verif.Ratio

open Verif.Text Verif.F64

/-- `s` is a number with one decimal within a twentieth of `x`, apart from the precision of `double`. -/
def Close (s : List Char) (x : ℚ) : Prop :=
  ∃ L : ℕ, IsTenths s L ∧ |(L : ℚ) / 10 - x| ≤ 1 / 20 + (x + 1) / 2 ^ 50

/-- The constant 0.000000001 as a `double` is a bit larger. -/
theorem epsilon_eq : rnd (1 / 1000000000) = 4835703278458517 * 2 ^ (-82 : ℤ) := by
  have h := rnd_eq (x := 1 / 1000000000) (m := 4835703278458517) (e := -82) (by norm_num) (by norm_num)
    (.inl (by rw [abs_lt]; constructor <;> norm_num))
  rw [h]
  norm_num

theorem epsilon_gt : 1 / 10 ^ 9 < rnd (1 / 1000000000) := by
  rw [epsilon_eq]
  norm_num

/-- Between the constant and 10^-9 there is no `double`. -/
theorem lt_epsilon {d : ℚ} (hd : rnd d = d) : d < rnd (1 / 1000000000) ↔ d < 1 / 10 ^ 9 := by
  constructor
  · intro h
    by_contra hc
    have := rnd_mono (not_lt.mp hc)
    rw [hd] at this
    norm_num at this h
    linarith
  · exact fun h => h.trans epsilon_gt

theorem abs_lt_epsilon {d : ℚ} (hd : rnd d = d) :
    (-rnd (1 / 1000000000) < d ∧ d < rnd (1 / 1000000000)) ↔ |d| < 1 / 10 ^ 9 := by
  have hd' : rnd (-d) = -d := by rw [rnd_neg, hd]
  rw [abs_lt, neg_lt, lt_epsilon hd', lt_epsilon hd, neg_lt]

/-- The last step of all of these functions: a `double` that is close to a number. -/
theorem oneDecimal_near {x q : ℚ} (hx : 0 ≤ x) (hq : 0 ≤ q) (hle : x ≤ 2 ^ 59) (p1 : q ≤ x * (1 + 5 / 2 ^ 53))
    (p2 : x * (1 - 5 / 2 ^ 53) ≤ q) : ∃ s, oneDecimal q = some s ∧ Close s x := by
  obtain ⟨L, e1, e2, e3⟩ := oneDecimal_some hq (scaled_lt hq (p1.trans (by nlinarith)))
  refine ⟨_, e1, L, isTenths_decimal L, ?_⟩
  have b1 := scaled_le hq
  have b2 := le_scaled hq
  rw [abs_le]
  constructor <;> nlinarith

/-- C73 for `oneDecimal`. -/
theorem oneDecimal_close_partial (d : ℚ) (h0 : 0 ≤ d) (h : d ≤ 2 ^ 59) : ∃ s, oneDecimal d = some s ∧ Close s d :=
  oneDecimal_near h0 h0 h (by nlinarith) (by nlinarith)

/-- C73 for `percentDouble` of a ratio. -/
theorem percentDouble1_close_partial (r : ℚ) (h0 : 0 ≤ r) (h : r * 100 ≤ 2 ^ 59) :
    ∃ s, percentDouble1 r = some (s ++ ['%']) ∧ Close s (r * 100) := by
  have hx : 0 ≤ r * 100 := by positivity
  have h1 := rnd_le hx
  have h2 := le_rnd hx
  obtain ⟨s, e1, e2⟩ := oneDecimal_near hx (rnd_nonneg hx) h (by nlinarith) (by nlinarith)
  exact ⟨s, by rw [percentDouble1, e1]; rfl, e2⟩

/-- C73 for `ratioDouble`: division by zero. -/
theorem ratioDouble_zero (n d : ℚ) (hn : rnd n = n) (hd : rnd d = d) (h : |d| < 1 / 10 ^ 9) :
    ratioDouble n d = some (if |n| < 1 / 10 ^ 9 then "0/0".toList else "?/0".toList) := by
  unfold ratioDouble
  simp only
  rw [if_pos ((abs_lt_epsilon hd).mpr h)]
  by_cases h' : |n| < 1 / 10 ^ 9
  · rw [if_pos ((abs_lt_epsilon hn).mpr h'), if_pos h']
    rfl
  · rw [if_neg (fun hc => h' ((abs_lt_epsilon hn).mp hc)), if_neg h']
    rfl

/-- C73 for `ratioDouble`: ratios that are not negative. -/
theorem ratioDouble_close_partial (n d : ℚ) (hd : rnd d = d) (h : 1 / 10 ^ 9 ≤ |d|) (h0 : 0 ≤ n / d)
    (hle : n / d ≤ 2 ^ 59) : ∃ s, ratioDouble n d = some s ∧ Close s (n / d) := by
  have h1 := rnd_le h0
  have h2 := le_rnd h0
  obtain ⟨s, e1, e2⟩ := oneDecimal_near h0 (rnd_nonneg h0) hle (by nlinarith) (by nlinarith)
  refine ⟨s, ?_, e2⟩
  unfold ratioDouble
  simp only
  rw [if_neg (fun hc => absurd ((abs_lt_epsilon hd).mp hc) (not_lt.mpr h))]
  exact e1

/-- C73 for `percentDouble`: division by zero. -/
theorem percentDouble_zero (n d : ℚ) (hn : rnd (n * 100) = n * 100) (hd : rnd d = d) (h : |d| < 1 / 10 ^ 9) :
    percentDouble n d = some (if |n * 100| < 1 / 10 ^ 9 then "0/0%".toList else "?/0%".toList) := by
  unfold percentDouble
  rw [hn, ratioDouble_zero _ d hn hd h]
  split <;> rfl

/-- C73 for `percentDouble`: ratios that are not negative. -/
theorem percentDouble_close_partial (n d : ℚ) (hd : rnd d = d) (h : 1 / 10 ^ 9 ≤ |d|) (h0 : 0 ≤ n / d)
    (hle : n / d * 100 ≤ 2 ^ 59) : ∃ s, percentDouble n d = some (s ++ ['%']) ∧ Close s (n / d * 100) := by
  have hx : 0 ≤ n / d * 100 := by positivity
  -- the product, with either sign
  have hprod : n / d * 100 * (1 - 1 / 2 ^ 53) ≤ rnd (n * 100) / d ∧
      rnd (n * 100) / d ≤ n / d * 100 * (1 + 1 / 2 ^ 53) := by
    have key : ∀ a b : ℚ, 0 < b → 0 ≤ a → a / b * 100 * (1 - 1 / 2 ^ 53) ≤ rnd (a * 100) / b ∧
        rnd (a * 100) / b ≤ a / b * 100 * (1 + 1 / 2 ^ 53) := by
      intro a b hb ha
      have ha' : 0 ≤ a * 100 := by positivity
      have h1 := rnd_le ha'
      have h2 := le_rnd ha'
      rw [le_div_iff₀ hb, div_le_iff₀ hb]
      have e1 : a / b * 100 * (1 - 1 / 2 ^ 53) * b = a * 100 * (1 - 1 / 2 ^ 53) := by field_simp
      have e2 : a / b * 100 * (1 + 1 / 2 ^ 53) * b = a * 100 * (1 + 1 / 2 ^ 53) := by field_simp
      rw [e1, e2]
      exact ⟨h2, h1⟩
    rcases lt_trichotomy d 0 with hneg | rfl | hpos
    · have hn : n ≤ 0 := by
        by_contra hc
        have := div_neg_of_pos_of_neg (not_le.mp hc) hneg
        linarith
      have := key (-n) (-d) (by linarith) (by linarith)
      rwa [neg_div_neg_eq, neg_mul, rnd_neg, neg_div_neg_eq] at this
    · norm_num at h
    · have hn : 0 ≤ n := by
        by_contra hc
        have := div_neg_of_neg_of_pos (not_le.mp hc) hpos
        linarith
      exact key n d hpos hn
  obtain ⟨k1, k2⟩ := hprod
  have hq0 : 0 ≤ rnd (n * 100) / d := le_trans (mul_nonneg hx (by norm_num)) k1
  have h1 := rnd_le hq0
  have h2 := le_rnd hq0
  have h3 := mul_le_mul_of_nonneg_right k2 (show (0 : ℚ) ≤ 1 + 1 / 2 ^ 53 by norm_num)
  have h4 := mul_le_mul_of_nonneg_right k1 (show (0 : ℚ) ≤ 1 - 1 / 2 ^ 53 by norm_num)
  obtain ⟨s, e1, e2⟩ := oneDecimal_near hx (rnd_nonneg hq0) hle (by nlinarith) (by nlinarith)
  refine ⟨s, ?_, e2⟩
  unfold percentDouble ratioDouble
  simp only
  rw [if_neg (fun hc => absurd ((abs_lt_epsilon hd).mp hc) (not_lt.mpr h)), e1]
  rfl

/-- C73 is violated: the ratio -1 is undefined behaviour, and -1/8 is printed as 0.0. -/
theorem ratioDouble_refuted : ratioDouble (-1) 1 = none ∧
    ratioDouble (-1) 8 = some "0.0".toList ∧ ¬ Close "0.0".toList (-1 / 8) := by
  have hbig : ∀ d : ℚ, rnd d = d → 1 ≤ d →
      ¬ (-rnd (1 / 1000000000) < d ∧ d < rnd (1 / 1000000000)) := by
    intro d hd h1 hc
    have := (abs_lt_epsilon hd).mp hc
    rw [abs_of_pos (by linarith)] at this
    norm_num at this
    linarith
  have r1 : rnd 1 = 1 := by have := rnd_nat (m := 1) (by norm_num); norm_num at this; exact this
  have r8 : rnd 8 = 8 := by have := rnd_nat (m := 8) (by norm_num); norm_num at this; exact this
  have q1 : rnd (-1 / 1) = -1 := by
    rw [div_one, rnd_neg, r1]
  have q8 : rnd (-1 / 8) = -1 / 8 := by
    have := rnd_exact (m := -1) (e := -3) (by norm_num)
    norm_num at this ⊢
    exact this
  refine ⟨?_, ?_, ?_⟩
  · unfold ratioDouble
    simp only
    rw [if_neg (hbig 1 r1 (le_refl _)), q1]
    exact negative_refuted
  · unfold ratioDouble
    simp only
    rw [if_neg (hbig 8 r8 (by norm_num)), q8]
    have hs : scaled (-1 / 8) = -3 / 4 := by
      have h1 : rnd (-1 / 8 * 10) = -5 / 4 := by
        have := rnd_exact (m := -5) (e := -2) (by norm_num)
        norm_num at this ⊢
        exact this
      have h2 : rnd (-3 / 4) = -3 / 4 := by
        have := rnd_exact (m := -3) (e := -2) (by norm_num)
        norm_num at this ⊢
        exact this
      unfold scaled
      rw [h1, show (-5 / 4 + 1 / 2 : ℚ) = -3 / 4 by norm_num, h2]
    unfold oneDecimal toULL
    change (match (if -1 < scaled (-1 / 8) ∧ scaled (-1 / 8) < 2 ^ 64 then some ⌊scaled (-1 / 8)⌋.toNat else none) with
      | none => none
      | some l => some (decimal (l / 10) ++ ['.'] ++ decimal (l % 10))) = _
    rw [hs, if_pos (by norm_num)]
    have hf : (⌊(-3 / 4 : ℚ)⌋).toNat = 0 := by
      have : ⌊(-3 / 4 : ℚ)⌋ = -1 := by norm_num
      rw [this]; rfl
    rw [hf]
    simp [decimal, digit]
  · rintro ⟨L, _, h⟩
    have hL : (0 : ℚ) ≤ L := by positivity
    rw [abs_le] at h
    norm_num at h
    linarith [h.2]

/-! Examples: the hypotheses are met. -/

example : ∃ s, ratioDouble (-7) (-4) = some s ∧ Close s (7 / 4) := by
  have r4 : rnd (-4) = -4 := by
    have := rnd_int (m := -4) (by norm_num)
    norm_num at this; exact this
  have := ratioDouble_close_partial (-7) (-4) r4 (by norm_num) (by norm_num) (by norm_num)
  norm_num at this ⊢
  exact this

#guard ratioDouble (-7) (-4) == some "1.8".toList
#guard ratioDouble 3 (1 / 2 ^ 40) == some "?/0".toList
#guard ratioDouble (1 / 2 ^ 40) (-1 / 2 ^ 40) == some "0/0".toList
#guard percentDouble 1 3 == some "33.3%".toList
#guard percentDouble1 (7565 / 10000) == some "75.7%".toList
#guard percentDouble1 (1 / 8) == some "12.5%".toList

end Verif.Ratio
