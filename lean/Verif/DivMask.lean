import Mathlib.Data.Nat.Notation
import Mathlib.Data.Int.Notation
import Mathlib.Data.List.Basic

/-!
# Model of `mathic::DivMask` (src/mathic/DivMask.h)

Exponents are integers of a C++ type that is `int` or wider: arithmetic on a signed type is
undefined (`none`) on overflow, on an unsigned type it wraps around. The statistics that
`MATHIC_TRACK_DIV_MASK_HIT_RATIO` turns on are left out, and so is the branch under the constant
`useRank = false` (src/mathic/DivMask.h:261-286).
-/

namespace Verif.DivMask

/-- The type `Configuration::Exponent`. -/
inductive ExpTy where
  | signed (w : ℕ)
  | unsigned (w : ℕ)

/-- The result of an arithmetic operation in the exponent type, from the exact result. -/
def ExpTy.fit : ExpTy → ℤ → Option ℤ
  | .signed w, x => if -2 ^ (w - 1) ≤ x ∧ x < 2 ^ (w - 1) then some x else none
  | .unsigned w, x => some (x % 2 ^ w)

/-- The part of a configuration that masks use: `getVarCount`, `getExponent`, `divides`. -/
structure Conf (T : Type*) where
  ty : ExpTy
  varCount : ℕ
  getExponent : T → ℕ → ℤ
  divides : T → T → Bool

/-- `MaskType` is `unsigned int` (src/mathic/DivMask.h:163). -/
abbrev Mask := BitVec 32

/-- `sizeof(MaskType) * BitsPerByte` (src/mathic/DivMask.h:215, 316). -/
def totalBits : ℕ := 32

/-- `getMaxMask` (src/mathic/DivMask.h:41). -/
def maxMask : Mask := ~~~0

/-- `DivMask::canDivide` (src/mathic/DivMask.h:56-57, 112). -/
def canDivide (a b : Mask) : Bool := (a &&& ~~~b) == 0

/-- `combineAnd` (src/mathic/DivMask.h:116). -/
def combineAnd (a b : Mask) : Mask := a &&& b

/-- `BitContainer`: the tests of a calculator, pairs of a variable and a bound
(src/mathic/DivMask.h:196-200). -/
abbrev Bits := List (ℕ × ℤ)

variable {T : Type*}

/-- `Calculator<C,true>::compute` (src/mathic/DivMask.h:329-342). -/
def compute (c : Conf T) (bits : Bits) (t : T) : Mask :=
  bits.foldl (fun mask b => (mask <<< 1) ||| (if c.getExponent t b.1 > b.2 then 1 else 0)) 0

/-- The inner loop of `rebuildDefault` (src/mathic/DivMask.h:321-325) from index `i`, for `n`
more rounds. -/
def defaultLoop (ty : ExpTy) (var : ℕ) (i : ℕ) (exp : ℤ) (acc : Bits) : ℕ → Option Bits
  | 0 => some acc
  | n + 1 =>
    if i = 0 then defaultLoop ty var (i + 1) 1 (acc ++ [(var, exp)]) n
    else
      match ty.fit (exp * 2) with
      | none => none
      | some e => defaultLoop ty var (i + 1) e (acc ++ [(var, exp)]) n

/-- The outer loop of `rebuildDefault` (src/mathic/DivMask.h:317-326), for `n` more variables. -/
def defaultVars (ty : ExpTy) (varCount : ℕ) (var : ℕ) (acc : Bits) : ℕ → Option Bits
  | 0 => some acc
  | n + 1 =>
    match defaultLoop ty var 0 0 acc
        (totalBits / varCount + (if var < totalBits % varCount then 1 else 0)) with
    | none => none
    | some acc' => defaultVars ty varCount (var + 1) acc' n

/-- `rebuildDefault` (src/mathic/DivMask.h:312-327). -/
def rebuildDefault (c : Conf T) : Option Bits := defaultVars c.ty c.varCount 0 [] c.varCount

/-- The loop for minimum and maximum (src/mathic/DivMask.h:220-228 and 288-296). It starts
with the exponent of variable 0, whatever `var` is. -/
def minMax (c : Conf T) (first : T) (entries : List T) (var : ℕ) : ℤ × ℤ :=
  entries.foldl (fun m t =>
    let e := c.getExponent t var
    (if e < m.1 then e else m.1, if m.2 < e then e else m.2))
    (c.getExponent first 0, c.getExponent first 0)

/-- `VarData` (src/mathic/DivMask.h:147-161) without the unused `bitsForVar`. -/
structure VarData where
  var : ℕ
  split : ℕ

/-- The body of the first loop of `rebuild` (src/mathic/DivMask.h:220-238). -/
def varData (c : Conf T) (first : T) (entries : List T) (var : ℕ) : Option VarData :=
  let m := minMax c first entries var
  match c.ty.fit (m.2 - m.1) with
  | none => none
  | some d =>
    match c.ty.fit (m.1 + d / 2) with
    | none => none
    | some average =>
      let split := entries.countP (fun t => c.getExponent t var < average)
      some ⟨var, if split > entries.length / 2 then entries.length - split else split⟩

/-- The loop that distributes bits to variables (src/mathic/DivMask.h:244-250). -/
def distribute (varCount : ℕ) : List VarData → ℕ → List ℕ → Option (List ℕ)
  | [], _, bs => some bs
  | d :: ds, i, bs =>
    if d.var < bs.length then
      distribute varCount ds (i + 1)
        (bs.set d.var (totalBits / varCount + (if i < totalBits % varCount then 1 else 0)))
    else none

/-- The loop over the bits of one variable (src/mathic/DivMask.h:304-306) from bit `i`, for `n`
more bits. -/
def bitLoop (ty : ExpTy) (var : ℕ) (min increment : ℤ) (i : ℕ) : ℕ → Option Bits
  | 0 => some []
  | n + 1 =>
    match ty.fit (increment * i) with
    | none => none
    | some p =>
      match ty.fit (min + p) with
      | none => none
      | some e => (bitLoop ty var min increment (i + 1) n).map ((var, e) :: ·)

/-- The body of the last loop of `rebuild` (src/mathic/DivMask.h:254-308). -/
def varBits (c : Conf T) (first : T) (entries : List T) (bitsForVar : ℕ) (var : ℕ) : Option Bits :=
  if bitsForVar = 0 then some []
  else
    let m := minMax c first entries var
    match c.ty.fit (m.2 - m.1) with
    | none => none
    | some d =>
      let increment := if d / bitsForVar = 0 then 1 else d / bitsForVar
      bitLoop c.ty var m.1 increment 0 bitsForVar

/-- The last loop of `rebuild` (src/mathic/DivMask.h:253-309), for the variables from `var` on. -/
def allBits (c : Conf T) (first : T) (entries : List T) : List ℕ → ℕ → Option Bits
  | [], _ => some []
  | b :: bs, var =>
    match varBits c first entries b var with
    | none => none
    | some l => (allBits c first entries bs (var + 1)).map (l ++ ·)

/-- `rebuild` (src/mathic/DivMask.h:202-310). `sort` is what `std::sort` does to the data of the
variables (src/mathic/DivMask.h:240); the order of variables with the same split is not
specified. -/
def rebuild (c : Conf T) (sort : List VarData → List VarData) (entries : List T) : Option Bits :=
  match entries with
  | [] => rebuildDefault c
  | first :: _ =>
    match (List.range c.varCount).mapM (varData c first entries) with
    | none => none
    | some datas =>
      match distribute c.varCount (sort datas) 0 (List.replicate c.varCount 0) with
      | none => none
      | some bs => allBits c first entries bs 0

/-- An entry with its mask: `Extender<T, UseDivMask>` (src/mathic/DivMask.h:394-475). Without masks
the mask is not there in the code and not used in the model. -/
structure Ext (T : Type*) where
  mask : Mask
  t : T

/-- Construction of an entry with its mask (src/mathic/DivMask.h:402, 438). -/
def Ext.make (c : Conf T) (bits : Bits) (t : T) : Ext T := ⟨compute c bits t, t⟩

/-- `Extender::divides` (src/mathic/DivMask.h:405-423 and 447-449). -/
def Ext.divides (c : Conf T) (useMask : Bool) (a b : Ext T) : Bool :=
  if useMask then
    if canDivide a.mask b.mask then c.divides a.t b.t else false
  else c.divides a.t b.t

/-- `HasDivMask::updateToLowerBound` (src/mathic/DivMask.h:370-372) for a sequence of entries after
`resetDivMask` (src/mathic/DivMask.h:365). -/
def lowerBound (masks : List Mask) : Mask := masks.foldl combineAnd maxMask

end Verif.DivMask
