import Verif.HashTable

/-!
# Specification for `HashTable`

The entries in the order in which their keys were first inserted; a handle is a position in that
list. There are no chains, no hash values and no growing.
-/

namespace Verif.HashTable

variable {K V : Type*}

/-- Position of the key, if present. -/
def specFind (eq : K → K → Bool) (l : List (K × V)) (k : K) : Option ℕ :=
  l.findIdx? (fun e => eq e.1 k)

/-- One call on the list; handles that have not been given out are not allowed. -/
def specStep (eq : K → K → Bool) (l : List (K × V)) : Op K V → Option (Out K V × List (K × V))
  | .insert k v =>
    match specFind eq l k with
    | some h => some (.inserted false h, l)
    | none => some (.inserted true l.length, l ++ [(k, v)])
  | .lookup k => some (.found (specFind eq l k), l)
  | .getEntry h =>
    match l[h]? with
    | none => none
    | some e => some (.entry e.1 e.2, l)
  | .setValue h v =>
    match l[h]? with
    | none => none
    | some e => some (.done, l.set h (e.1, v))

/-- A history of calls on the list. -/
def specRun (eq : K → K → Bool) (l : List (K × V)) :
    List (Op K V) → Option (List (Out K V) × List (K × V))
  | [] => some ([], l)
  | op :: ops =>
    match specStep eq l op with
    | none => none
    | some (o, l') =>
      match specRun eq l' ops with
      | none => none
      | some (os, l'') => some (o :: os, l'')

/-- What the configuration has to provide: key equality is an equivalence and equal keys have
equal hash values. -/
structure Conf.Lawful (c : Conf K) : Prop where
  refl : ∀ a, c.eq a a = true
  symm : ∀ a b, c.eq a b = true → c.eq b a = true
  trans : ∀ a b d, c.eq a b = true → c.eq b d = true → c.eq a d = true
  hash : ∀ a b, c.eq a b = true → c.hash a = c.hash b

/-- The bits of the table size when there are `n` keys, from `start` bits: two more each time that more
than a tenth of the bins are needed. -/
def bitsFor (start : ℕ) : ℕ → ℕ
  | 0 => start
  | n + 1 => if 2 ^ bitsFor start n / 10 < n + 1 then bitsFor start n + 2 else bitsFor start n

end Verif.HashTable
