import Verif.PairQueue
import Verif.PQSpec

/-!
# What a pair queue should do

The state of a pair queue as its client sees it is kept in a `Ledger`, computed from the calls made
and what they returned; nothing of the implementation enters. `Hist` are the histories of calls
that the documentation allows.
-/

namespace Verif.PairQueue

variable {D : Type}

/-- How a call ended; a `pop` ends with the pair that was on top. -/
inductive Outcome where
  | done
  | popped (x : ℕ × ℕ)
  | threw

/-- Columns so far, indices retired, pairs held. -/
structure Ledger where
  count : ℕ
  retired : List ℕ
  held : List (ℕ × ℕ)

/-- A pair that involves no retired index. -/
def Alive (retired : List ℕ) (x : ℕ × ℕ) : Prop := x.1 ∉ retired ∧ x.2 ∉ retired

instance (retired : List ℕ) (x : ℕ × ℕ) : Decidable (Alive retired x) := by
  unfold Alive; infer_instance

/-- The effect that a call should have. -/
def Ledger.after (L : Ledger) : Op → Outcome → Ledger
  | .add rows, .done => ⟨L.count + 1, L.retired, L.held ++ rows.map (fun r => (L.count, r))⟩
  | .pop, .popped x => { L with held := L.held.erase x }
  | .retire i, .done =>
    ⟨L.count, i :: L.retired, L.held.filter (fun x => decide (Alive (i :: L.retired) x))⟩
  | _, _ => L

/-- The ledger of a history, the latest call first. -/
def ledger : List (Op × Outcome) → Ledger
  | [] => ⟨0, [], []⟩
  | (op, o) :: h => (ledger h).after op o

/-- The order on pairs that the configuration defines. -/
def Conf.ltPair (cf : Conf D) (x y : ℕ × ℕ) : Bool :=
  cf.lt x.1 x.2 (cf.compute x.1 x.2) y.1 y.2 (cf.compute y.1 y.2)

/-- The calls that the documentation allows: rows less than the new column, not retired, in weakly
descending order; `pop` if something is held; `retireIndex` on an index that exists, if it is
supported. -/
def Legal (cf : Conf D) (L : Ledger) : Op → Prop
  | .add rows => (∀ r ∈ rows, r < L.count ∧ r ∉ L.retired) ∧
      Descending cf.ltPair (rows.map (fun r => (L.count, r)))
  | .pop => L.held ≠ []
  | .retire i => cf.support = true ∧ i < L.count

/-- What a call is seen to do: from `s` it ends in `s'` with this outcome. -/
inductive Seen (cf : Conf D) (f : Faults) (s : State D) : Op → Outcome → State D → Prop where
  | add {rows s'} (h : step cf f s (.add rows) = .ok s') : Seen cf f s (.add rows) .done s'
  | pop {x s'} (hx : topPair s = some x) (h : step cf f s .pop = .ok s') :
      Seen cf f s .pop (.popped x) s'
  | retire {i s'} (h : step cf f s (.retire i) = .ok s') : Seen cf f s (.retire i) .done s'
  | threw {op s'} (h : step cf f s op = .exn s') : Seen cf f s op .threw s'

/-- The faults that the code is prepared for: nothing throws but the construction of pair data
for a new column. -/
def Benign (op : Op) (f : Faults) : Prop :=
  (∀ a b, f.compare a b = false) ∧
    match op with
    | .add _ => True
    | _ => ∀ c r, f.compute c r = false

/-- As `Benign`, and `computePairData` never throws. -/
def NoCompute (_ : Op) (f : Faults) : Prop :=
  (∀ a b, f.compare a b = false) ∧ ∀ c r, f.compute c r = false

/-- A history of legal calls from a new queue to a state, with faults as `P` allows. -/
inductive Hist (cf : Conf D) (P : Op → Faults → Prop) : List (Op × Outcome) → State D → Prop where
  | start : Hist cf P [] init
  | call {h s op o f s'} (hs : Hist cf P h s) (hl : Legal cf (ledger h) op) (hf : P op f)
      (hseen : Seen cf f s op o s') : Hist cf P ((op, o) :: h) s'

/-- The pairs that a history has added. -/
def added : List (Op × Outcome) → List (ℕ × ℕ)
  | [] => []
  | (.add rows, .done) :: h => rows.map (fun r => ((ledger h).count, r)) ++ added h
  | _ :: h => added h

/-- The pairs that a history has popped, the latest first. -/
def popped : List (Op × Outcome) → List (ℕ × ℕ)
  | [] => []
  | (_, .popped x) :: h => x :: popped h
  | _ :: h => popped h

/-- How often pair data was constructed. -/
def constructs : List (Event D) → ℕ
  | [] => 0
  | .construct _ _ :: l => constructs l + 1
  | _ :: l => constructs l

/-- How often pair data was destructed. -/
def destructs : List (Event D) → ℕ
  | [] => 0
  | .destruct _ _ _ :: l => destructs l + 1
  | _ :: l => destructs l

end Verif.PairQueue
