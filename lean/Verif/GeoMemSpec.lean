import Verif.GeoMem

/-!
# Specification of the memory of a geobucket

The areas that a geobucket uses, and what it means that they do not get into each other's way.
-/

namespace Verif.GeoMem

open Geobucket (Conf Storage)

variable {E : Type}

/-- The areas: two for each bucket, and two temporary ones. -/
inductive Id where
  | main (i : ℕ)
  | other (i : ℕ)
  | tmp
  | tmp2
deriving DecidableEq

/-- The capacity of the largest bucket, which is the last one. -/
def State.last (s : State E) : ℕ :=
  match s.buckets.getLast? with
  | none => 0
  | some b => b.cap

/-- Where an area begins and how long it is, `none` if there is no such area. As documented
(src/mathic/Geobucket.h:105-124, 298-303): a bucket has an area of its capacity, two of them with
double buffers, or one of the size of the largest bucket. -/
def State.area (c : Conf E) (s : State E) : Id → Option (ℕ × ℕ)
  | .main i => (s.buckets[i]?).map (fun b => (b.start, if c.storage = .sameSize then s.last else b.cap))
  | .other i => (s.buckets[i]?).bind (fun b => b.other.map (fun o => (o, b.cap)))
  | .tmp => some (s.tmp, s.last)
  | .tmp2 => s.tmp2.map (fun o => (o, s.last))

/-- The length of an area, 0 if there is none. -/
def State.length (c : Conf E) (s : State E) (id : Id) : ℕ := (s.area c id).elim 0 Prod.snd

/-- Every area lies in the memory, no two areas overlap, no bucket holds more than its capacity, and
each bucket has the areas that its kind of storage asks for. -/
structure Layout (c : Conf E) (s : State E) : Prop where
  inside : ∀ id r, s.area c id = some r → r.1 + r.2 ≤ s.mem.length
  apart : ∀ id id' r r', id ≠ id' → s.area c id = some r → s.area c id' = some r' →
    r.1 + r.2 ≤ r'.1 ∨ r'.1 + r'.2 ≤ r.1
  fits : ∀ b ∈ s.buckets, b.size ≤ b.cap
  caps : ∀ b ∈ s.buckets, 0 < b.cap ∧ b.cap ≤ s.last
  double : ∀ b ∈ s.buckets, b.other.isSome = decide (c.storage = .doubleBuffer)
  tmp2 : s.tmp2.isSome = !c.premerge

end Verif.GeoMem
