import Verif.NameFactory

/-!
# What the lookup of names by prefix is
-/

namespace Verif.NameFactory

/-- `p` is a prefix of `n`. -/
def IsPrefixOf (p n : Str) : Prop := ∃ rest, n = p ++ rest

/-- Lexicographic order: the strings differ first in a place where the left one has the smaller
character or where it ends. -/
def LexLt (s t : Str) : Prop :=
  (∃ c rest, t = s ++ c :: rest) ∨ ∃ pre a b s' t', s = pre ++ a :: s' ∧ t = pre ++ b :: t' ∧ a < b

/-- Increasing order. -/
def Increasing (l : List Str) : Prop := l.Pairwise fun a b => ¬ LexLt b a

/-- `n` is what the prefix `p` stands for among `names`: the name `p` itself or else the only name
with that prefix. -/
def StandsFor (names : List Str) (p n : Str) : Prop :=
  n ∈ names ∧ (n = p ∨ p ∉ names ∧ IsPrefixOf p n ∧ ∀ m ∈ names, IsPrefixOf p m → m = n)

/-- No name has the prefix. -/
def NoName (names : List Str) (p : Str) : Prop := ∀ n ∈ names, ¬ IsPrefixOf p n

/-- The prefix is no name and there are two names with it. -/
def TwoNames (names : List Str) (p : Str) : Prop :=
  p ∉ names ∧ ∃ m ∈ names, ∃ n ∈ names, m ≠ n ∧ IsPrefixOf p m ∧ IsPrefixOf p n

/-- The names that have been registered. -/
def names {P : Type} (f : Factory P) : List Str := f.pairs.map Prod.fst

/-- What was registered under a name is `product`. -/
def Registered {P : Type} (f : Factory P) (n : Str) (product : Option P) : Prop := (n, product) ∈ f.pairs

/-- `s` contains `t`. -/
def Contains (s t : Str) : Prop := ∃ a b, s = a ++ t ++ b

end Verif.NameFactory
