import Verif.DisplayProofs

/-!
# C55 and C56: automatic line breaking
-/

namespace Verif.Display

open Verif.Text

/-- C55 in full: `display` prints exactly what `Shows` says, for all messages on which `isspace` is defined. Strings are
printed up to their first NUL. -/
theorem display_iff (pre msg out : Str) (hp : Plain msg) : display msg pre = some out ↔ Shows cut pre msg out := by
  constructor
  · intro h
    obtain ⟨out', ho⟩ := shows_exists cut pre msg.length msg (le_refl _)
    rw [display_shows ho hp] at h
    injection h with h
    rw [← h]
    exact ho
  · exact fun h => display_shows h hp

/-- The behaviour is undefined exactly for messages with a byte between 128 and 254. -/
theorem display_undefined_iff (pre msg : Str) : display msg pre = none ↔ ¬ Plain msg := by
  constructor
  · intro h hp
    obtain ⟨out, ho⟩ := shows_exists cut pre msg.length msg (le_refl _)
    rw [display_shows ho hp] at h
    cases h
  · intro h
    cases hd : display msg pre with
    | none => rfl
    | some out =>
      rw [display] at hd
      obtain ⟨o, ho, _⟩ := Option.map_eq_some_iff.mp hd
      exact absurd (printLoop_plain ho) h

/-- What is printed is determined by the specification. -/
theorem shows_unique {pre msg a b : Str} (hp : Plain msg) (ha : Shows cut pre msg a) (hb : Shows cut pre msg b) : a = b := by
  have := display_shows ha hp
  rw [display_shows hb hp] at this
  injection this with this
  exact this.symm

/-- C55 for messages without NUL: each printed line is the prefix followed by a part of the message, and the words of
these parts are the words of the message. White space at the end of the message may make an incomplete line. -/
theorem display_words_partial (pre msg : Str) (hp : Plain msg) (hn : nul ∉ msg) :
    ∃ (ls : List Str) (last : Str),
      display msg pre = some (ls.flatMap (fun l => cut pre ++ l ++ ['\n']) ++ last) ∧
      (last = [] ∨ ∃ g, IsGap g ∧ last = cut pre ++ g) ∧
      ls.flatMap wordsOf = wordsOf msg ∧ ∀ l ∈ ls, '\n' ∉ l := by
  obtain ⟨out, ho⟩ := shows_exists cut pre msg.length msg (le_refl _)
  obtain ⟨ls, last, h1, h2, h3, h4, _⟩ := shows_words ho (fun w hw => cut_eq (fun h => hn (wordsOf_mem w hw nul h)))
    (fun g hg => cut_gap hg)
  exact ⟨ls, last, by rw [display_shows ho hp, h1], h2, h3, h4⟩

/-- C56: a printed line is longer than 79 only with at most one word after the prefix. `cut pre` is all that is printed
of the prefix. -/
theorem display_fits (pre msg : Str) (hp : Plain msg) :
    ∃ (ls : List Str) (last : Str),
      display msg pre = some (ls.flatMap (fun l => cut pre ++ l ++ ['\n']) ++ last) ∧
      (last = [] ∨ ∃ g, IsGap g ∧ last = cut pre ++ g) ∧ (∀ l ∈ ls, '\n' ∉ l) ∧
      ∀ l ∈ ls, 79 < (cut pre).length + l.length → (wordsOf l).length ≤ 1 := by
  obtain ⟨out, ho⟩ := shows_exists cut pre msg.length msg (le_refl _)
  obtain ⟨ls, last, h1, h2, h4, h5⟩ := shows_fits ho
  exact ⟨ls, last, by rw [display_shows ho hp, h1], h2, h4, h5⟩

/-- The words are kept if there is no prefix. -/
theorem display_keeps_words_partial (msg : Str) (hp : Plain msg) (hn : nul ∉ msg) :
    ∃ out, display msg [] = some out ∧ wordsOf out = wordsOf msg := by
  obtain ⟨ls, last, h1, h2, h3, _⟩ := display_words_partial [] msg hp hn
  refine ⟨_, h1, ?_⟩
  rw [← h3]
  have hlast : ∀ c ∈ last, isSpace c = true := by
    rcases h2 with rfl | ⟨g, hg, rfl⟩
    · simp
    · intro c hc; exact (hg c (by simpa [cut] using hc)).1
  clear h1 h3
  induction ls with
  | nil =>
    have := wordsOf_gap last [] hlast
    rw [List.append_nil] at this
    simp [this, wordsOf]
  | cons l ls ih =>
    have ih := ih (by simp_all)
    simp only [List.flatMap_cons, cut, List.nil_append, List.append_assoc, List.singleton_append] at ih ⊢
    rw [wordsOf_append _ _ (by intro c hc; simp at hc; rw [← hc]; exact isSpace_newline),
      List.cons_append, wordsOf_space _ _ isSpace_newline, ih]

/-- C55 does not hold as stated: the part of a word after a NUL is not printed. -/
theorem display_words_refuted : ∃ msg out, Plain msg ∧ display msg [] = some out ∧ wordsOf out ≠ wordsOf msg := by
  have hp : Plain ['a', nul, 'b'] := by simp [Plain, nul]
  exact ⟨['a', nul, 'b'], ['a', '\n'], hp, display_word _ ⟨by simp, by decide⟩ hp, by decide⟩

/-- And messages that are not in ASCII, such as the byte 195 with which "Æ" starts in UTF-8, are undefined behaviour. -/
theorem display_defined_refuted : ∃ msg, display msg [] = none :=
  ⟨[Char.ofNat 195], (display_undefined_iff _ _).mpr (by simp [Plain])⟩

/-! ## Cases -/

/-- A message with indentation, a line that must be broken, and an empty line. -/
def sample : Str := ("  " ++ String.join (List.replicate 12 "sevenxx ") ++ "\n\nend").toList

#guard display sample "> ".toList = some (">   " ++ String.join (List.replicate 8 "sevenxx ") ++ "sevenxx\n" ++
  ">   sevenxx sevenxx sevenxx\n> \n> end\n").toList
#guard display "NOTE".toList "p:".toList = some "p:NOTE\n".toList
#guard displayNote "a  b".toList = some "NOTE: a  b\n".toList
#guard displayError "a".toList = some "ERROR: a\n".toList
#guard displayInternalError "a".toList = some "INTERNAL ERROR: a\n".toList
-- A word that does not fit after the indentation leaves a line with indentation alone.
#guard display (" ".toList ++ List.replicate 79 'x') [] = some (" \n ".toList ++ List.replicate 79 'x' ++ ['\n'])
#guard display (List.replicate 90 'x') [] = some (List.replicate 90 'x' ++ ['\n'])
-- White space alone at the end is printed without an end of line.
#guard display "a\n ".toList [] = some "a\n ".toList

example : Plain "ab cd".toList ∧ nul ∉ "ab cd".toList := by constructor <;> simp [Plain, nul]

end Verif.Display
