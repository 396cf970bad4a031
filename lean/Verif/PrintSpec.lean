import Verif.Text
import Verif.Geobucket
import Mathlib.Data.Nat.Size

/-!
# What printed text should look like
-/

namespace Verif.Print

open Verif.Text (decimal)

variable {E : Type}

/-- The entries at depth `k` of a complete binary tree in the usual order. -/
def depth (t : List E) (k : ℕ) : List E := (t.drop (2 ^ k - 1)).take (2 ^ k)

/-- A row: a label and entries. -/
def row (sh : E → List Char) (label : ℕ) (l : List E) : List Char :=
  "\n ".toList ++ decimal label ++ [':'] ++ l.flatMap (fun e => ' ' :: sh e)

/-- A row for each depth, with labels. -/
def table (sh : E → List Char) (label : ℕ → ℕ) (t : List E) : List Char :=
  (List.range (Nat.size t.length)).flatMap (fun k => row sh (label k) (depth t k))

/-- How entries may be written to be told apart: different entries differently, without certain characters. -/
structure Legible (sh : E → List Char) (bad : List Char) : Prop where
  inj : ∀ e e', sh e = sh e' → e = e'
  clean : ∀ e, ∀ ch ∈ sh e, ch ∉ bad

/-- The entries of a bucket that are shown: all of up to four, else the first two and the last two. -/
def glimpse (l : List E) : List E := if l.length ≤ 4 then l else l.take 2 ++ l.drop (l.length - 2)

/-- Buckets that differ at most in entries that are not shown. -/
def Alike (b b' : Geobucket.Bucket E) : Prop := b.es.length = b'.es.length ∧ b.cap = b'.cap ∧ glimpse b.es = glimpse b'.es

/-- As many opening as closing braces. -/
def Balanced (l : List Char) : Prop := l.count '{' = l.count '}'

end Verif.Print
