import Verif.Geobucket
import Mathlib.Data.Nat.Log

/-!
# Specification of the number of comparisons of the geobucket

The numbers that the comparisons of a call are charged against, with `K` buckets.
-/

namespace Verif.Geobucket

variable {E : Type} (c : Conf E)

/-- The comparisons needed to find a place in the smallest bucket, which is not full: its capacity less one when all entries are
looked at, the number of halvings of its capacity when it is searched by bisection. -/
def searchCharge : ℕ := if c.binarySearch then Nat.clog 2 c.minBucketSize else c.minBucketSize - 1

/-- For an entry that comes: it may be compared with `geoBase + 1` others in each bucket, now or later. -/
def entryCharge (K : ℕ) : ℕ := c.geoBase + (c.geoBase + 1) * K

/-- The charge of a call. `K - 1` is for the front or for the search for the maximum. -/
def charge (K : ℕ) : PQOp E → ℕ
  | .push _ => searchCharge c + entryCharge c K + 2 * (K - 1)
  | .pushRange l => c.minBucketSize + (c.geoBase * c.insertFactor + entryCharge c K) * l.length + 2 * (K - 1)
  | .top => K - 1
  | .pop => K - 1
  | .decreaseTop _ => searchCharge c + entryCharge c K + 3 * (K - 1)
  | .clear => 0

/-- The charges of all calls. -/
def charges (K : ℕ) (ops : List (PQOp E)) : ℕ := (ops.map (charge c K)).sum

end Verif.Geobucket
