import Verif.DivMask

/-!
# Specification for `DivMask`
-/

namespace Verif.DivMask

variable {T : Type*}

/-- What divisibility of monomials means to the masks: no exponent of a divisor is larger. -/
def Conf.Lawful (c : Conf T) : Prop :=
  ∀ a b, c.divides a b = true → ∀ v < c.varCount, c.getExponent a v ≤ c.getExponent b v

/-- The contract of `std::sort` as far as it matters: it permutes. -/
def IsSort (sort : List VarData → List VarData) : Prop := ∀ l, (sort l).Perm l

/-- The tests that a calculator can have: built by the constructor or `rebuildDefault`, or by
`rebuild` from any entries. -/
inductive Built (c : Conf T) : Bits → Prop where
  | default {bits} (h : rebuildDefault c = some bits) : Built c bits
  | rebuild {bits} (sort : List VarData → List VarData) (hs : IsSort sort) (entries : List T)
      (h : DivMask.rebuild c sort entries = some bits) : Built c bits

/-- The number of tests on variable `v`. -/
def testsOn (bits : Bits) (v : ℕ) : ℕ := bits.countP (fun b => b.1 == v)

end Verif.DivMask
