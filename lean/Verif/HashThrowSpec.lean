import Verif.HashTableSpec
import Verif.HashThrow

/-!
# Specification of `HashTable` with exceptions

All entries that were ever made, in order, each with a mark that says whether a key is found in the table by
looking for it. There are no chains, no hash values and no counts.
-/

namespace Verif.HashTable

variable {K V : Type*}

/-- An entry that a handle was made for. -/
structure Entry (K V : Type*) where
  key : K
  value : V
  linked : Bool

/-- The position of the entry that a search finds. -/
def findEntry (eq : K → K → Bool) (l : List (Entry K V)) (k : K) : Option ℕ :=
  l.findIdx? (fun e => e.linked && eq e.key k)

/-- The answer of a call that does not throw; `none` if the handle was never given out. -/
def answer (eq : K → K → Bool) (l : List (Entry K V)) : Op K V → Option (Out K V × List (Entry K V))
  | .insert k v =>
    match findEntry eq l k with
    | some h => some (.inserted false h, l)
    | none => some (.inserted true l.length, l ++ [⟨k, v, true⟩])
  | .lookup k => some (.found (findEntry eq l k), l)
  | .getEntry h =>
    match l[h]? with
    | none => none
    | some e => some (.entry e.key e.value, l)
  | .setValue h v =>
    match l[h]? with
    | none => none
    | some e => some (.done, l.set h { e with value := v })

/-- The key that a call looks for. -/
def Op.key? : Op K V → Option K
  | .insert k _ => some k
  | .lookup k => some k
  | _ => none

/-- The call throws for sure, and before the table grows. -/
def Must (eq : K → K → Bool) (l : List (Entry K V)) (op : Op K V) : Option Fault → Prop
  | some .hash => op.key?.isSome
  | some (.equal 0) => ∃ k, op.key? = some k ∧ findEntry eq l k ≠ none
  | some .alloc => ∃ k v, op = .insert k v ∧ findEntry eq l k = none
  | some .copy => ∃ k v, op = .insert k v ∧ findEntry eq l k = none
  | _ => False

/-- The call may throw before the table grows. -/
def May (eq : K → K → Bool) (l : List (Entry K V)) (op : Op K V) : Option Fault → Prop
  | some (.equal _) => op.key?.isSome ∧ ∃ e ∈ l, e.linked = true
  | ft => Must eq l op ft

/-- Entries are no longer found, and nothing else. -/
def Shrunk (l l' : List (Entry K V)) : Prop :=
  List.Forall₂ (fun e e' => e'.key = e.key ∧ e'.value = e.value ∧ (e'.linked = true → e.linked = true)) l l'

/-- What is allowed to happen on a history: each call either gives the right answer, or throws and changes nothing,
or throws while the table grows and loses entries. -/
inductive Behaves (eq : K → K → Bool) :
    List (Entry K V) → List (Op K V × Option Fault) → Option (List (Option (Out K V))) → Prop
  | nil (l) : Behaves eq l [] (some [])
  | misuse {l op ft cs} : answer eq l op = none → Behaves eq l ((op, ft) :: cs) none
  | answered {l op ft cs o l' r} : answer eq l op = some (o, l') → ¬ Must eq l op ft → Behaves eq l' cs r →
      Behaves eq l ((op, ft) :: cs) (r.map (some o :: ·))
  | threw {l op ft cs r} : May eq l op ft → Behaves eq l cs r → Behaves eq l ((op, ft) :: cs) (r.map (none :: ·))
  | lost {l k v i cs l' r} : findEntry eq l k = none → Shrunk (l ++ [⟨k, v, true⟩]) l' → Behaves eq l' cs r →
      Behaves eq l ((.insert k v, some (.rehash i)) :: cs) (r.map (none :: ·))

/-- The calls of a history that did not throw. -/
def answeredCalls : List (Op K V × Option Fault) → List (Option (Out K V)) → List (Op K V)
  | (op, _) :: cs, some _ :: os => op :: answeredCalls cs os
  | _ :: cs, none :: os => answeredCalls cs os
  | _, _ => []

/-- Not while the table grows. -/
def Fault.Mild : Option Fault → Prop
  | some .table => False
  | some (.rehash _) => False
  | _ => True

/-- How many keys are compared with `k` by a search in the order given that stops at the first equal one. -/
def searched (eq : K → K → Bool) (k : K) : List K → ℕ
  | [] => 0
  | k' :: ks => if eq k' k then 1 else searched eq k ks + 1

end Verif.HashTable
