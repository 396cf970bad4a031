import Verif.TimerProofs

/-!
# C57 and C69: times
-/

namespace Verif.Timer

open Verif.Text

/-- C57 for `print(std::ostream&)`. -/
theorem printStream_spec (milliseconds : ℕ) : IsTime (printStream milliseconds) milliseconds := printStream_isTime _

/-- C57 for `print(FILE*)`: the same in parentheses. -/
theorem printFile_spec (milliseconds : ℕ) : ∃ text, IsTime text milliseconds ∧ printFile milliseconds = ['('] ++ text ++ [')'] :=
  ⟨_, printStream_isTime _, printFile_eq _⟩

/-- C57: what is printed reads back. -/
theorem print_reads_back (milliseconds : ℕ) : readTime (printStream milliseconds) = milliseconds :=
  isTime_read (printStream_isTime _)

/-- C57: a text is the time of one number of milliseconds only. -/
theorem isTime_unique {text : List Char} {a b : ℕ} (ha : IsTime text a) (hb : IsTime text b) : a = b := by
  rw [← isTime_read ha, isTime_read hb]

/-- C57 with the clock: printing shows what `getMilliseconds` gives. -/
theorem print_shows (t : Timer) (clock : ℤ) (n : ℕ) (h : t.getMilliseconds clock = some n) :
    ∃ text, IsTime text n ∧ t.printTo clock = some text ∧ t.print clock = some (['('] ++ text ++ [')']) := by
  refine ⟨printStream n, printStream_isTime n, ?_, ?_⟩
  · rw [Timer.printTo, h]; rfl
  · rw [Timer.print, h, ← printFile_eq]; rfl

/-- C69: the number of milliseconds is one that is nearest to the time since the last reset, for a clock in
microseconds and up to 2^50 of them. -/
theorem getMilliseconds_partial (start clock : ℤ) (h0 : start ≤ clock) (h1 : clock - start < 2 ^ 50) :
    ∃ n : ℕ, (reset start).getMilliseconds clock = some n ∧ |clock - start - 1000 * n| ≤ 500 := by
  obtain ⟨s, hs⟩ := Int.eq_ofNat_of_zero_le (Int.sub_nonneg.mpr h0)
  rw [hs] at h1
  obtain ⟨n, h2, h3, h4⟩ := millisecondsOf_nearest s (by omega)
  refine ⟨n, ?_, ?_⟩
  · unfold Timer.getMilliseconds Timer.span reset
    simp only
    rw [hs, if_pos (by omega)]
    exact h2
  · rw [hs, abs_le]; omega

/-- C69 does not hold as stated: half a millisecond is sometimes dropped. 500500 microseconds are shown as 500
milliseconds. -/
theorem getMilliseconds_refuted :
    ¬ ∀ start clock : ℤ, start ≤ clock → clock - start < 2 ^ 50 →
      (reset start).getMilliseconds clock = some ((clock - start + 500) / 1000).toNat := by
  intro h
  have := h 0 500500 (by norm_num) (by norm_num)
  have h2 : (reset 0).getMilliseconds 500500 = some 500 := millisecondsOf_half
  rw [h2] at this
  injection this with this
  revert this
  decide

/-- A clock that has gone back by a millisecond or more is undefined behaviour, by less gives zero. -/
theorem getMilliseconds_back (start clock : ℤ) (h0 : clock < start) (h1 : start - clock < 2 ^ 50) :
    (reset start).getMilliseconds clock = if start - clock < 1000 then some 0 else none := by
  obtain ⟨s, hs⟩ := Int.eq_ofNat_of_zero_le (by omega : 0 ≤ start - clock)
  have hs' : clock - start = -(s : ℤ) := by omega
  unfold Timer.getMilliseconds Timer.span reset
  simp only
  rw [hs', if_pos (by omega)]
  split
  · exact millisecondsOf_small s (by omega) (by omega)
  · exact millisecondsOf_negative s (by omega) (by omega)

/-- A difference of clocks that does not fit into 64 bits is undefined behaviour. -/
theorem getMilliseconds_overflow (start clock : ℤ) (h : 2 ^ 63 ≤ clock - start ∨ clock - start < -2 ^ 63) :
    (reset start).getMilliseconds clock = none := by
  unfold Timer.getMilliseconds Timer.span reset
  simp only
  rw [if_neg (by omega)]
  rfl

example : (reset (-2 ^ 62)).getMilliseconds (2 ^ 62) = none := getMilliseconds_overflow _ _ (.inl (by norm_num))

/-! ## Cases -/

#guard printStream 3723004 = "1h2m3.004s".toList
#guard printStream 3600000 = "1h0m0.000s".toList
#guard printStream 60010 = "1m0.010s".toList
#guard printStream 999 = "0.999s".toList
#guard printFile 3723004 = "(1h2m3.004s)".toList
#guard printFile 59100 = "(59.100s)".toList
#guard readTime "1h2m3.004s".toList = 3723004

example : ∃ n : ℕ, (reset 100).getMilliseconds 1499 = some n ∧ |1499 - 100 - 1000 * (n : ℤ)| ≤ 500 :=
  getMilliseconds_partial 100 1499 (by norm_num) (by norm_num)

end Verif.Timer
