import Verif.PQSpec

/-!
# Specification of a queue whose comparisons are no order or throw

Independent of any implementation. What is left of a priority queue is a bag: `pop` returns some entry
and takes it away. Contents are compared by weights, as in `PQSpec.lean`.
-/

namespace Verif

variable {E M : Type*} [AddCommMonoid M]

/-- Nothing is less than anything. `PQStep never` asks of `top` and `pop` only that what they return is
held. -/
def never (_ _ : E) : Bool := false

/-- What the client sees of a call: the value returned, or an exception. -/
inductive PQSeen (E : Type*) where
  | ret (o : Option E)
  | threw
deriving DecidableEq

/-- One call: one that returns is right about contents, one that throws changes them as `thrown`
says. -/
inductive BagStep (thrown : List E → PQOp E → List E → Prop) (w : E → M) :
    List E → PQOp E → PQSeen E → List E → Prop where
  | ret {t t' op o} (h : PQStep never w t op o t') : BagStep thrown w t op (.ret o) t'
  | threw {t t' op} (h : thrown t op t') : BagStep thrown w t op .threw t'

/-- A history of calls. -/
inductive BagTrace (thrown : List E → PQOp E → List E → Prop) (w : E → M) :
    List E → List (PQOp E) → List (PQSeen E) → List E → Prop where
  | nil {t} : BagTrace thrown w t [] [] t
  | cons {t t₁ t₂ op seen ops seens} (h : BagStep thrown w t op seen t₁)
      (hs : BagTrace thrown w t₁ ops seens t₂) :
      BagTrace thrown w t (op :: ops) (seen :: seens) t₂

/-- What one would wish for a call that throws: it has changed nothing, or only the order in which
entries come out is in doubt, so that contents are as after the call. -/
inductive Clean (w : E → M) : List E → PQOp E → List E → Prop where
  | nothing {t op t'} (h : wsum w t' = wsum w t) : Clean w t op t'
  | done {t op o t'} (h : PQStep never w t op o t') : Clean w t op t'

/-- A call that throws and loses an entry `v` of the kind `P` besides doing what it is asked for, and
leaves an entry `y` twice. -/
inductive LosesOne (P : E → Prop) (w : E → M) : List E → PQOp E → List E → Prop where
  | push {t t' e} (v y : E) (hv : P v) (hy : y ∈ t') (h : wsum w t' + w v = wsum w t + w e + w y) :
      LosesOne P w t (.push e) t'
  | pushRange {t t'} (l₁ : List E) (e : E) (l₂ : List E) (v y : E) (hv : P v) (hy : y ∈ t')
      (h : wsum w t' + w v = wsum w t + wsum w (l₁ ++ [e]) + w y) :
      LosesOne P w t (.pushRange (l₁ ++ e :: l₂)) t'
  | pop {t t'} (x v y : E) (hx : x ∈ t) (hv : P v) (hy : y ∈ t')
      (h : wsum w t' + w v + w x = wsum w t + w y) : LosesOne P w t .pop t'
  | decreaseTop {t t' e} (x v y : E) (hx : x ∈ t) (hv : P v) (hy : y ∈ t')
      (h : wsum w t' + w v + w x = wsum w t + w e + w y) : LosesOne P w t (.decreaseTop e) t'

/-- A push that throws after it has put the entry into the queue. -/
inductive PushesOnly (w : E → M) : List E → PQOp E → List E → Prop where
  | push {t t' e} (h : wsum w t' = wsum w t + w e) : PushesOnly w t (.push e) t'
  | pushRange {t t'} (l₁ : List E) (e : E) (l₂ : List E)
      (h : wsum w t' = wsum w t + wsum w (l₁ ++ [e])) :
      PushesOnly w t (.pushRange (l₁ ++ e :: l₂)) t'

/-- By how many entries a call changes a queue without deduplication. For a range the exception of one
push ends the call early, so that the number is not known. -/
def PQOp.sizeChange {E : Type*} : PQOp E → Option ℤ
  | .push _ => some 1
  | .pop => some (-1)
  | .top => some 0
  | .decreaseTop _ => some 0
  | _ => none

end Verif
