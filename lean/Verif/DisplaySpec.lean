import Verif.Display

/-!
# What automatic line breaking is
-/

namespace Verif.Display

open Verif.Text

/-- White space other than the end of a line. -/
def IsGap (s : Str) : Prop := ∀ c ∈ s, isSpace c = true ∧ c ≠ '\n'

/-- A word. -/
def IsWord (s : Str) : Prop := s ≠ [] ∧ ∀ c ∈ s, isSpace c = false

/-- An item is a word with the white space in front of it. -/
abbrev Item := Str × Str

/-- A line of the message: indentation, words, white space at the end. -/
structure Line (line indent : Str) (items : List Item) (trail : Str) : Prop where
  all : line = indent ++ items.flatMap (fun i => i.1 ++ i.2) ++ trail
  indentGap : IsGap indent
  gaps : ∀ i ∈ items, IsGap i.1
  words : ∀ i ∈ items, IsWord i.2
  first : ∀ i, items.head? = some i → i.1 = []
  apart : ∀ i ∈ items.tail, i.1 ≠ []
  trailGap : IsGap trail
  blank : items = [] → trail = []

/-- The words of a printed line with the white space between them. `f` says what becomes of a string
when it is printed. -/
def textOf (f : Str → Str) : List Item → Str
  | [] => []
  | (_, word) :: rest => f word ++ rest.flatMap (fun i => f i.1 ++ f i.2)

/-- A printed line without its end. -/
def lineOf (f : Str → Str) (pre indent : Str) (group : List Item) : Str :=
  f pre ++ f indent ++ textOf f group

/-- A line of the message is broken into printed lines: the words are kept in order; only the first
printed line may have no word; more than one word only where they fit; and a line is broken
only where the next word does not fit and there is something on the line. -/
structure Broken (pre indent : Str) (items : List Item) (groups : List (List Item)) : Prop where
  all : groups.flatten = items
  nonempty : groups ≠ []
  words : ∀ g ∈ groups.tail, g ≠ []
  fits : ∀ g ∈ groups, g.length ≤ 1 ∨ (lineOf id pre indent g).length ≤ 79
  firstFits : ∀ g, groups.head? = some g → g ≠ [] → pre ++ indent ≠ [] → (lineOf id pre indent g).length ≤ 79
  full : groups.IsChain fun g h => ∀ i, h.head? = some i →
    lineOf id pre indent g ≠ [] ∧ 79 < (lineOf id pre indent g).length + (i.1.length + i.2.length)

/-- The printed lines. -/
def linesOf (f : Str → Str) (pre indent : Str) (groups : List (List Item)) : Str :=
  groups.flatMap fun g => lineOf f pre indent g ++ ['\n']

/-- What is printed for a message: all its lines one after the other, broken. White space without a word at
the end of the message gives no complete line. -/
inductive Shows (f : Str → Str) (pre : Str) : Str → Str → Prop
  | nil : Shows f pre [] []
  | line (line rest indent trail : Str) (items : List Item) (groups : List (List Item)) (out : Str) :
      '\n' ∉ line → Line line indent items trail → Broken pre indent items groups → Shows f pre rest out →
      Shows f pre (line ++ '\n' :: rest) (linesOf f pre indent groups ++ out)
  | last (line indent trail : Str) (items : List Item) (groups : List (List Item)) :
      '\n' ∉ line → Line line indent items trail → items ≠ [] → Broken pre indent items groups →
      Shows f pre line (linesOf f pre indent groups)
  | blank (line : Str) : line ≠ [] → IsGap line → Shows f pre line (f pre ++ f line)

/-- The characters for which `isspace` is defined: bytes that are not negative as `char`, and -1. -/
def Plain (s : Str) : Prop := ∀ c ∈ s, c.toNat < 128 ∨ c.toNat = 255

/-- A string up to its first NUL. -/
def cut : Str → Str
  | [] => []
  | c :: s => if c = nul then [] else c :: cut s

/-- Words from left to right: the maximal strings without white space. -/
def wordsOf : Str → List Str
  | [] => []
  | c :: s =>
    if isSpace c then wordsOf s
    else match s with
      | [] => [[c]]
      | d :: _ =>
        if isSpace d then [c] :: wordsOf s
        else match wordsOf s with
          | [] => [[c]]
          | w :: ws => (c :: w) :: ws

end Verif.Display
