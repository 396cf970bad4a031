import Verif.DivSim
import Verif.KDTreeSpec
import Mathlib.Data.Multiset.Count

/-!
# Specification for the simulation of divisor finders

A correct finder is one that answers calls like a multiset of monomials does.
-/

namespace Verif.DivSim

variable {n : ℕ}

/-- Divisibility of monomials. -/
def Divides (a b : Mono n) : Prop := ∀ v < n, a.1.getD v 0 ≤ b.1.getD v 0

instance (a b : Mono n) : Decidable (Divides a b) := inferInstanceAs (Decidable (∀ v < n, _))

instance (S : Multiset (Mono n)) (m : Mono n) : Decidable (∃ d ∈ S, Divides d m) := Multiset.decidableExistsMultiset

/-- The calls that the simulation makes. -/
inductive Call (n : ℕ) where
  | insert (e : Mono n)
  | findDivisor (m : Mono n)
  | findAllDivisors (m : Mono n)
  deriving DecidableEq

/-- What it looks at: how many monomials are put out, whether there is a divisor. -/
inductive Answer where
  | count (k : ℕ)
  | found (b : Bool)
  deriving DecidableEq

/-- What a multiset of monomials answers, and the multiset afterwards. With `mini`, a monomial that has a divisor is
not inserted, and insertion puts out the multiples. -/
def ideal (mini : Bool) (S : Multiset (Mono n)) : Call n → Answer × Multiset (Mono n)
  | .insert e =>
    if mini then
      if ∃ d ∈ S, Divides d e then (.count 0, S)
      else (.count (S.filter (fun x => Divides e x)).card, e ::ₘ S.filter (fun x => ¬ Divides e x))
    else (.count 0, e ::ₘ S)
  | .findDivisor m => (.found (decide (∃ d ∈ S, Divides d m)), S)
  | .findAllDivisors m => (.count (S.filter (fun d => Divides d m)).card, S)

/-- The answers to a history of calls. -/
def answers (mini : Bool) : Multiset (Mono n) → List (Call n) → List Answer
  | _, [] => []
  | S, c :: cs => (ideal mini S c).1 :: answers mini (ideal mini S c).2 cs

/-- The answer of a finder to a call. -/
def Finder.call (F : Finder (Mono n)) (s : F.State) : Call n → Option (Answer × F.State)
  | .insert e => (F.insert s e).map (fun r => (.count r.1.length, r.2))
  | .findDivisor m => (F.findDivisor s m).map (fun r => (.found r.1.isSome, r.2))
  | .findAllDivisors m => (F.findAllDivisors s m).map (fun r => (.count r.1.length, r.2))

/-- The answers of a finder to a history of calls. -/
def Finder.calls (F : Finder (Mono n)) (s : F.State) : List (Call n) → Option (List Answer × F.State)
  | [] => some ([], s)
  | c :: cs =>
    match F.call s c with
    | none => none
    | some (a, s) =>
      match F.calls s cs with
      | none => none
      | some (as, s) => some (a :: as, s)

/-- The finder is correct for the histories in `H`. -/
def Finder.Correct (F : Finder (Mono n)) (mini : Bool) (H : List (Call n) → Prop) : Prop :=
  ∀ cs, H cs → ∃ s s', F.init = some s ∧ F.calls s cs = some (answers mini 0 cs, s')

/-- What is inserted. -/
def insertedBy : List (Call n) → Multiset (Mono n)
  | [] => 0
  | .insert e :: cs => e ::ₘ insertedBy cs
  | _ :: cs => insertedBy cs

/-- No monomial is inserted more than `k` times. -/
def AtMost (k : ℕ) (cs : List (Call n)) : Prop := ∀ e, (insertedBy cs).count e ≤ k

/-- The calls that events stand for. -/
def asked (findAll : Bool) (es : List (Event n)) : List (Call n) :=
  es.map (fun e =>
    match e.type with
    | .insertUnknown | .insertKnown => .insert e.monomial
    | _ => if findAll then .findAllDivisors e.monomial else .findDivisor e.monomial)

/-- The contracts of the standard library. -/
structure Lib.Lawful (lib : Lib) : Prop where
  sortVars : DivMask.IsSort lib.sortVars
  sort : DivList.IsSortFn lib.sort
  partition : KDTree.IsPartition lib.partition

/-- How many events are insertions. -/
def insertions (es : List (Event n)) : ℕ :=
  es.countP (fun e => decide (e.type = .insertUnknown) || decide (e.type = .insertKnown))

end Verif.DivSim
