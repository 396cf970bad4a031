import Verif.F64
import Mathlib.Tactic.Linarith
import Mathlib.Tactic.Ring
import Mathlib.Tactic.FieldSimp
import Mathlib.Tactic.Positivity
import Mathlib.Tactic.NormNum
import Mathlib.Algebra.Order.Field.Power

namespace Verif.F64

theorem roundEven_bounds (x : ℚ) : ⌊x⌋ ≤ roundEven x ∧ roundEven x ≤ ⌊x⌋ + 1 := by
  unfold roundEven; split_ifs <;> omega

theorem roundEven_mono {x y : ℚ} (h : x ≤ y) : roundEven x ≤ roundEven y := by
  have hf := Int.floor_mono h
  rcases lt_or_eq_of_le hf with hlt | heq
  · have := (roundEven_bounds x).2
    have := (roundEven_bounds y).1
    omega
  · unfold roundEven
    rw [heq]
    split_ifs <;> first | omega | (exfalso; linarith)

theorem roundEven_err (x : ℚ) : |(roundEven x : ℚ) - x| ≤ 1 / 2 := by
  have h1 := Int.floor_le x
  have h2 := Int.lt_floor_add_one x
  unfold roundEven
  rw [abs_le]
  split_ifs <;> push_cast <;> constructor <;> linarith

theorem roundEven_int (n : ℤ) : roundEven n = n := by
  unfold roundEven
  rw [Int.floor_intCast, if_pos (by norm_num)]

/-- An integer that is nearer than 1/2, or at 1/2 and even. -/
theorem roundEven_eq {x : ℚ} {n : ℤ} (h : |x - n| < 1 / 2 ∨ (|x - n| ≤ 1 / 2 ∧ n % 2 = 0)) :
    roundEven x = n := by
  have hle : |x - n| ≤ 1 / 2 := by rcases h with h | h; exacts [h.le, h.1]
  rw [abs_le] at hle
  have h1 := Int.floor_le x
  have h2 := Int.lt_floor_add_one x
  have e : ⌊x⌋ = n ∨ ⌊x⌋ = n - 1 := by
    have a1 : ((⌊x⌋ : ℤ) : ℚ) < n + 1 := by linarith [hle.2]
    have a2 : (n : ℚ) - 2 < ((⌊x⌋ : ℤ) : ℚ) := by linarith [hle.1]
    have b1 : ⌊x⌋ < n + 1 := by exact_mod_cast a1
    have b2 : n - 2 < ⌊x⌋ := by exact_mod_cast a2
    omega
  unfold roundEven
  rcases e with e | e <;> rw [e] <;> push_cast
  · rcases h with h | ⟨h, he⟩
    · rw [abs_lt] at h
      rw [if_pos (by linarith)]
    · split_ifs with g1 g2
      · rfl
      · linarith
      · rfl
  · rcases h with h | ⟨h, he⟩
    · rw [abs_lt] at h
      rw [if_neg (by linarith), if_pos (by linarith)]
      ring
    · rw [if_neg (by linarith)]
      split_ifs with g1 g2
      · ring
      · omega
      · ring

theorem ulp_pos (x : ℚ) : 0 < ulp x := by unfold ulp; positivity

theorem log_le {x : ℚ} (h : 0 < x) : (2 : ℚ) ^ Int.log 2 x ≤ x := by
  have := Int.zpow_log_le_self (b := 2) (by norm_num) h
  simpa using this

theorem lt_log (x : ℚ) : x < (2 : ℚ) ^ (Int.log 2 x + 1) := by
  have := Int.lt_zpow_succ_log_self (b := 2) (by norm_num) x
  simpa using this

theorem log_eq {x : ℚ} {e : ℤ} (h1 : (2 : ℚ) ^ e ≤ x) (h2 : x < (2 : ℚ) ^ (e + 1)) : Int.log 2 x = e := by
  have hx : 0 < x := lt_of_lt_of_le (by positivity) h1
  have a : Int.log 2 x < e + 1 := by
    have := lt_of_le_of_lt (log_le hx) h2
    exact (zpow_lt_zpow_iff_right₀ (by norm_num)).mp this
  have b : e < Int.log 2 x + 1 := by
    have := lt_of_le_of_lt h1 (lt_log x)
    exact (zpow_lt_zpow_iff_right₀ (by norm_num)).mp this
  omega

theorem zpow_ulp (x : ℚ) : (2 : ℚ) ^ Int.log 2 x = 2 ^ 52 * ulp x := by
  unfold ulp
  rw [show (2 : ℚ) ^ 52 = (2 : ℚ) ^ (52 : ℤ) from by norm_num, ← zpow_add₀ (by norm_num)]
  congr 1; ring

theorem zpow_ulp' (x : ℚ) : (2 : ℚ) ^ (Int.log 2 x + 1) = 2 ^ 53 * ulp x := by
  rw [zpow_add₀ (by norm_num), zpow_ulp]; ring

theorem ulp_le {x : ℚ} (h : 0 < x) : 2 ^ 52 * ulp x ≤ x := by
  rw [← zpow_ulp]; exact log_le h

theorem lt_ulp (x : ℚ) : x < 2 ^ 53 * ulp x := by
  rw [← zpow_ulp']; exact lt_log x

theorem rnd_zero : rnd 0 = 0 := by simp [rnd, rndPos]

theorem rnd_pos_eq {x : ℚ} (h : 0 < x) : rnd x = roundEven (x / ulp x) * ulp x := by
  simp [rnd, rndPos, h.ne', not_lt.mpr h.le]

theorem rnd_neg (x : ℚ) : rnd (-x) = -rnd x := by
  rcases lt_trichotomy x 0 with h | h | h
  · simp only [rnd, if_pos h, if_neg (by linarith : ¬ -x < 0), neg_neg]
  · subst h; simp [rnd, rndPos]
  · simp only [rnd, if_neg (by linarith : ¬ x < 0), if_pos (by linarith : -x < 0), neg_neg]

/-- The rounding error is at most half a unit in the last place. -/
theorem rnd_ulp {x : ℚ} (h : 0 < x) : |rnd x - x| ≤ ulp x / 2 := by
  rw [rnd_pos_eq h]
  have hu := ulp_pos x
  have := roundEven_err (x / ulp x)
  have e : (roundEven (x / ulp x) : ℚ) * ulp x - x = ((roundEven (x / ulp x) : ℚ) - x / ulp x) * ulp x := by
    field_simp
  rw [e, abs_mul, abs_of_pos hu]
  nlinarith

/-- The relative rounding error. -/
theorem rnd_err {x : ℚ} (h : 0 ≤ x) : |rnd x - x| ≤ x / 2 ^ 53 := by
  rcases eq_or_lt_of_le h with h | h
  · subst h; simp [rnd_zero]
  · have := rnd_ulp h
    have := ulp_le h
    linarith

theorem rnd_nonneg {x : ℚ} (h : 0 ≤ x) : 0 ≤ rnd x := by
  have := rnd_err h
  rw [abs_le] at this
  linarith [this.1]

theorem rnd_le {x : ℚ} (h : 0 ≤ x) : rnd x ≤ x * (1 + 1 / 2 ^ 53) := by
  have := rnd_err h
  rw [abs_le] at this
  linarith [this.2]

theorem le_rnd {x : ℚ} (h : 0 ≤ x) : x * (1 - 1 / 2 ^ 53) ≤ rnd x := by
  have := rnd_err h
  rw [abs_le] at this
  linarith [this.1]

theorem rnd_pos_bounds {x : ℚ} (h : 0 < x) : 2 ^ 52 * ulp x ≤ rnd x ∧ rnd x ≤ 2 ^ 53 * ulp x := by
  rw [rnd_pos_eq h]
  have hu := ulp_pos x
  have h1 : ((2 ^ 52 : ℤ) : ℚ) ≤ x / ulp x := by
    rw [le_div_iff₀ hu]; push_cast; exact ulp_le h
  have h2 : x / ulp x ≤ ((2 ^ 53 : ℤ) : ℚ) := by
    rw [div_le_iff₀ hu]; push_cast; exact (lt_ulp x).le
  have h3 := roundEven_mono h1
  have h4 := roundEven_mono h2
  rw [roundEven_int] at h3 h4
  have h3' : ((2 ^ 52 : ℤ) : ℚ) ≤ (roundEven (x / ulp x) : ℚ) := by exact_mod_cast h3
  have h4' : (roundEven (x / ulp x) : ℚ) ≤ ((2 ^ 53 : ℤ) : ℚ) := by exact_mod_cast h4
  push_cast at h3' h4'
  constructor <;> nlinarith

theorem rnd_mono_pos {x y : ℚ} (hx : 0 < x) (h : x ≤ y) : rnd x ≤ rnd y := by
  have hy : 0 < y := lt_of_lt_of_le hx h
  have hl : Int.log 2 x ≤ Int.log 2 y := Int.log_mono_right hx h
  rcases lt_or_eq_of_le hl with hlt | heq
  · have h1 := (rnd_pos_bounds hx).2
    have h2 := (rnd_pos_bounds hy).1
    rw [← zpow_ulp'] at h1
    rw [← zpow_ulp] at h2
    have : (2 : ℚ) ^ (Int.log 2 x + 1) ≤ 2 ^ Int.log 2 y :=
      zpow_le_zpow_right₀ (by norm_num) (by omega)
    linarith
  · have hu : ulp x = ulp y := by unfold ulp; rw [heq]
    rw [rnd_pos_eq hx, rnd_pos_eq hy, hu]
    have hp := ulp_pos y
    have : roundEven (x / ulp y) ≤ roundEven (y / ulp y) :=
      roundEven_mono (by gcongr)
    have : (roundEven (x / ulp y) : ℚ) ≤ (roundEven (y / ulp y) : ℚ) := by exact_mod_cast this
    nlinarith

/-- Rounding keeps the order. -/
theorem rnd_mono {x y : ℚ} (h : x ≤ y) : rnd x ≤ rnd y := by
  rcases lt_trichotomy x 0 with hx | hx | hx
  · rcases lt_or_ge y 0 with hy | hy
    · have := rnd_mono_pos (x := -y) (y := -x) (by linarith) (by linarith)
      rw [rnd_neg, rnd_neg] at this
      linarith
    · have h1 := rnd_nonneg (x := -x) (by linarith)
      have h2 := rnd_nonneg hy
      rw [rnd_neg] at h1
      linarith
  · subst hx; rw [rnd_zero]; exact rnd_nonneg h
  · exact rnd_mono_pos hx h

/-- The value of a rounding: `m` of 53 bits times a power of two that is nearest to `x`. -/
theorem rnd_eq {x : ℚ} {m : ℤ} {e : ℤ} (h1 : (2 : ℚ) ^ (e + 52) ≤ x) (h2 : x < (2 : ℚ) ^ (e + 53))
    (h : |x - m * 2 ^ e| < 2 ^ e / 2 ∨ (|x - m * 2 ^ e| ≤ 2 ^ e / 2 ∧ m % 2 = 0)) : rnd x = m * 2 ^ e := by
  have hx : 0 < x := lt_of_lt_of_le (by positivity) h1
  have hl : Int.log 2 x = e + 52 := log_eq h1 (by rw [show e + 52 + 1 = e + 53 from by ring]; exact h2)
  have hu : ulp x = 2 ^ e := by unfold ulp; rw [hl]; congr 1; ring
  have hp : (0 : ℚ) < 2 ^ e := by positivity
  have he : |x / 2 ^ e - m| = |x - m * 2 ^ e| / 2 ^ e := by
    rw [← abs_of_pos hp, ← abs_div, abs_of_pos hp]
    congr 1
    field_simp
  rw [rnd_pos_eq hx, hu, roundEven_eq]
  rw [he]
  rcases h with h | ⟨h, hm⟩
  · left; rw [div_lt_iff₀ hp]; linarith
  · right; refine ⟨?_, hm⟩; rw [div_le_iff₀ hp]; linarith

/-- Numbers with 53 bits are exact. -/
theorem rnd_exact {m : ℤ} {e : ℤ} (hm : |m| ≤ 2 ^ 53) : rnd (m * 2 ^ e) = m * 2 ^ e := by
  have key : ∀ m : ℤ, 0 < m → m ≤ 2 ^ 53 → rnd (m * 2 ^ e) = m * 2 ^ e := by
    intro m h0 hm
    have hp : (0 : ℚ) < 2 ^ e := by positivity
    have hm0 : (0 : ℚ) < m := by exact_mod_cast h0
    have hx : (0 : ℚ) < m * 2 ^ e := by positivity
    have hmq : (m : ℚ) ≤ 2 ^ 53 := by exact_mod_cast hm
    rcases eq_or_lt_of_le hm with heq | hlt
    · have e1 : (m : ℚ) * 2 ^ e = ((2 ^ 52 : ℤ) : ℚ) * 2 ^ (e + 1) := by
        rw [heq, zpow_add₀ (by norm_num)]; push_cast; ring
      rw [e1]
      apply rnd_eq
      · rw [show e + 1 + 52 = 52 + (e + 1) from by ring, zpow_add₀ (by norm_num)]
        apply le_of_eq; push_cast; norm_num
      · have h53 : (2 : ℚ) ^ (e + 1 + 53) = 2 ^ 53 * 2 ^ (e + 1) := by
          rw [zpow_add₀ (by norm_num) (e + 1) 53, mul_comm]; norm_num
        have hp1 : (0 : ℚ) < 2 ^ (e + 1) := by positivity
        rw [h53]
        push_cast
        nlinarith
      · left; rw [sub_self, abs_zero]; positivity
    · -- scale by the number of missing bits
      set l := Int.log 2 ((m : ℚ) * 2 ^ e) with hl
      have hle : l < e + 53 := by
        have := lt_of_le_of_lt (log_le hx) (show (m : ℚ) * 2 ^ e < 2 ^ (e + 53) by
          rw [zpow_add₀ (by norm_num)]
          have : (m : ℚ) < 2 ^ 53 := by exact_mod_cast hlt
          have h53 : (2 : ℚ) ^ (53 : ℤ) = 2 ^ 53 := by norm_num
          rw [h53]
          nlinarith)
        exact (zpow_lt_zpow_iff_right₀ (by norm_num)).mp this
      obtain ⟨k, hk⟩ : ∃ k : ℕ, e - (l - 52) = k := ⟨(e - (l - 52)).toNat, by omega⟩
      have e1 : (m : ℚ) * 2 ^ e = ((m * 2 ^ k : ℤ) : ℚ) * 2 ^ (l - 52) := by
        push_cast
        rw [mul_assoc, ← zpow_natCast, ← zpow_add₀ (by norm_num)]
        congr 2; omega
      rw [e1]
      apply rnd_eq
      · rw [← e1, show l - 52 + 52 = l from by ring]; exact log_le hx
      · rw [← e1, show l - 52 + 53 = l + 1 from by ring]; exact lt_log _
      · left; rw [sub_self, abs_zero]; positivity
  rcases lt_trichotomy m 0 with h | h | h
  · have := key (-m) (by omega) (by rw [abs_of_neg h] at hm; exact hm)
    push_cast at this
    rw [neg_mul, rnd_neg] at this
    linarith
  · subst h; simp [rnd_zero]
  · exact key m h (by rw [abs_of_pos h] at hm; exact hm)

theorem rnd_int {m : ℤ} (hm : |m| ≤ 2 ^ 53) : rnd m = m := by
  have := rnd_exact (e := 0) hm
  simpa using this

theorem rnd_nat {m : ℕ} (hm : m ≤ 2 ^ 53) : rnd m = m := by
  have := rnd_int (m := m) (by rw [abs_of_nonneg (by omega)]; exact_mod_cast hm)
  exact_mod_cast this

end Verif.F64
