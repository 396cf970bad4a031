import Verif.QueueVisit

/-!
# What a visitor of a priority queue gets to see

Stated with the entries held, in the order of the visit, and the answers of the visitor; no part of the
model but the kinds of answers is used.
-/

namespace Verif.Visit

variable {E : Type}

/-- A visitor that answers `ask` has been shown `got` of the entries `l` in order: a first part of `l`, up to
and including the first entry at which it did not go on; `a` is the last answer, or `go` if there was
nothing to show. -/
def Shown (l : List E) (ask : List E → Ans) (got : List E) (a : Ans) : Prop :=
  got <+: l ∧ (∀ p, p <+: got → p ≠ [] → p ≠ got → ask p = .go) ∧
    (a = .go → got = l ∧ (got ≠ [] → ask got = .go)) ∧ (a ≠ .go → got ≠ [] ∧ ask got = a)

/-- `l'` is `l` after a visitor that leaves `edit` has been shown the first `n` entries. -/
def Edited (l : List E) (edit : List E → E) (n : ℕ) (l' : List E) : Prop :=
  l'.length = l.length ∧
    ∀ i, l'[i]? = if i < n ∧ i < l.length then some (edit (l.take (i + 1))) else l[i]?

/-- No entry that was not less than another has become less than it. -/
def KeepsOrder (lt : E → E → Bool) (l l' : List E) : Prop :=
  ∀ (i j : ℕ) (a b a' b' : E), l[i]? = some a → l[j]? = some b → l'[i]? = some a' → l'[j]? = some b' →
    lt a b = false → lt a' b' = false

end Verif.Visit
