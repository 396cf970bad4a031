import Verif.QueueSpaceProofs
import Verif.GeoSpaceProofs
import Verif.PropGeoMem
import Verif.PropGeoCompare

/-!
# C97: the memory that the priority queues hold
-/

namespace Verif.Space

variable {E : Type}

/-- C97, heap: a heap whose memory is followed does what the heap of C01 does. -/
theorem heap_same (c : PQConf E) (ops : List (PQOp E)) :
    ((impl c).run (impl c).init ops).map (fun r => (r.1, HeapMem.t r.2)) = (Heap.impl c).run (Heap.impl c).init ops :=
  run_t c ops ⟨[], 0, 0⟩

/-- C97, heap: after every history, with `m` the largest number of entries on the way, there is no array if `m` is
0, and otherwise it has room for the least of 16, 32, 64, ... entries that is at least `m`. All arrays together
have had 16 entries less copied into them than the last one has room for. -/
theorem heap_capacity (c : PQConf E) (ops : List (PQOp E)) (outs : List (Option E)) (s : HeapMem E)
    (h : (impl c).run (impl c).init ops = some (outs, s)) :
    (peak (Heap.impl c) (Heap.impl c).init (expand ops) = 0 → s.cap = 0 ∧ s.copied = 0) ∧
    (peak (Heap.impl c) (Heap.impl c).init (expand ops) ≠ 0 →
      LeastDoubling (peak (Heap.impl c) (Heap.impl c).init (expand ops)) s.cap ∧ s.copied + 16 = s.cap) := by
  have h1 : after (impl c) (impl c).init ops = some s := by
    show ((impl c).run (impl c).init ops).map Prod.snd = some s
    rw [h]
    rfl
  rw [← after_expand (heapMem_byOne c)] at h1
  have h2 := after_holds c (expand ops) 0 ⟨[], 0, 0⟩ s ⟨fun _ => ⟨rfl, rfl, rfl⟩, fun h => absurd rfl h⟩
    (expand_single ops) h1
  rw [Nat.zero_max] at h2
  exact ⟨fun h => ⟨(h2.none h).1, (h2.none h).2.1⟩, fun h => ⟨(h2.some h).1, (h2.some h).2.1⟩⟩

/-- C97, heap: `getMemoryUse` is 0, or 16 entries, or less than two entries for each of the largest number of
entries held. The entries copied to larger arrays are fewer than twice that number. -/
theorem heap_memory (c : PQConf E) (ops : List (PQOp E)) (outs : List (Option E)) (s : HeapMem E)
    (h : (impl c).run (impl c).init ops = some (outs, s)) (sz : ℕ) :
    (heapMemoryUse sz s = 0 ∨ heapMemoryUse sz s = 16 * sz ∨
      heapMemoryUse sz s < 2 * peak (Heap.impl c) (Heap.impl c).init (expand ops) * sz) ∧
    s.copied ≤ 2 * peak (Heap.impl c) (Heap.impl c).init (expand ops) := by
  obtain ⟨h1, h2⟩ := heap_capacity c ops outs s h
  unfold heapMemoryUse
  by_cases hm : peak (Heap.impl c) (Heap.impl c).init (expand ops) = 0
  · obtain ⟨k1, k2⟩ := h1 hm
    rw [k1, k2]
    exact ⟨.inl (Nat.zero_mul _), Nat.zero_le _⟩
  · obtain ⟨k1, k2⟩ := h2 hm
    by_cases h16 : s.cap = 16
    · exact ⟨.inr (.inl (by rw [h16])), by omega⟩
    · have k3 := k1.lt h16
      refine ⟨?_, by omega⟩
      by_cases hz : sz = 0
      · exact .inl (by rw [hz, Nat.mul_zero])
      · exact .inr (.inr (Nat.mul_lt_mul_of_pos_right k3 (Nat.pos_of_ne_zero hz)))

/-- C97, tournament tree: after every history, with `m` the largest number of entries on the way, the tree has
room for the least of 16, 32, 64, ... nodes that is at least `2 * m`, and there is room for half as many players
and two more. -/
theorem tourTree_capacity (c : PQConf E) (ops : List (PQOp E)) (outs : List (Option E)) (s : TourTree.State E)
    (h : (TourTree.impl c).run (TourTree.impl c).init ops = some (outs, s)) :
    LeastDoubling (2 * peak (TourTree.impl c) (TourTree.impl c).init (expand ops)) s.cap ∧
    s.pcap = s.cap / 2 + 2 := by
  have h1 : after (TourTree.impl c) (TourTree.impl c).init ops = some s := by
    show ((TourTree.impl c).run (TourTree.impl c).init ops).map Prod.snd = some s
    rw [h]
    rfl
  rw [← after_expand (tour_byOne c)] at h1
  have h2 := tour_after_holds c (expand ops) 0 TourTree.init s tour_init (expand_single ops) h1
  rw [Nat.zero_max] at h2
  exact ⟨h2.cap, h2.pcap⟩

/-- C97, tournament tree: `getMemoryUse` is that of an empty tree, 16 nodes and 10 players, or at most four nodes and
two players for each of the largest number of entries held. -/
theorem tourTree_memory (c : PQConf E) (ops : List (PQOp E)) (outs : List (Option E)) (s : TourTree.State E)
    (h : (TourTree.impl c).run (TourTree.impl c).init ops = some (outs, s)) (ptr sz : ℕ) :
    tourMemoryUse ptr sz s = 16 * ptr + 10 * sz ∨
    tourMemoryUse ptr sz s ≤ peak (TourTree.impl c) (TourTree.impl c).init (expand ops) * (4 * ptr + 2 * sz) + sz := by
  obtain ⟨h1, h2⟩ := tourTree_capacity c ops outs s h
  unfold tourMemoryUse
  rw [h2]
  by_cases h16 : s.cap = 16
  · exact .inl (by rw [h16])
  · right
    have k := h1.lt h16
    generalize peak (TourTree.impl c) (TourTree.impl c).init (expand ops) = m at *
    have hp : s.cap * ptr ≤ (4 * m) * ptr := Nat.mul_le_mul_right _ (by omega)
    have hz : (s.cap / 2 + 2) * sz ≤ (2 * m + 1) * sz := Nat.mul_le_mul_right _ (by omega)
    calc s.cap * ptr + (s.cap / 2 + 2) * sz ≤ 4 * m * ptr + (2 * m + 1) * sz := Nat.add_le_add hp hz
      _ = m * (4 * ptr + 2 * sz) + sz := by ring

/-- C97, geobucket: the memory for entries is at most a factor times the capacity of the largest bucket. The factor
is 6, or the number of buckets and two more when buckets are all of the same size. That capacity is the least bucket
size, or less than `geoBase * insertFactor` for each entry ever pushed. -/
theorem geobucket_capacity (c : Geobucket.Conf E) (hs : Geobucket.Sane c) (hc : c.Lawful) (dflt : E)
    (ops : List (PQOp E)) (outs : List (Option E)) (s : GeoMem.State E) (ha : ∀ op ∈ ops, Geobucket.Allowed c op)
    (h : (GeoMem.impl c dflt).run (GeoMem.impl c dflt).init ops = some (outs, s)) :
    s.mem.length ≤ (if c.storage = .sameSize then s.buckets.length + 2 else 6) * s.last ∧
    (s.last = c.minBucketSize ∨ s.last < c.geoBase * (c.insertFactor * PQOp.pushes ops)) := by
  obtain ⟨hv, -⟩ := GeoMem.geoMem_same c hs hc dflt ops outs s ha h
  obtain ⟨hne, hgeo⟩ := caps_geo c hs hc dflt ops outs s ha h
  have hlast := last_geo hgeo hne
  refine ⟨?_, ?_⟩
  · rw [GeoMem.geoMem_length c hs hc dflt ops outs s ha h]
    exact areas_le hs hgeo hne (GeoMem.geoMem_layout c hs hc dflt ops outs s ha h).double
  · have hw : c.Weight (fun _ => (0 : ℕ)) := fun _ _ _ _ => rfl
    obtain ⟨h1, h2, h3, h4⟩ := Geobucket.init_start (c := c)
    obtain ⟨-, -, k2, -⟩ := Geobucket.run_costs hs hc hw ops _ _ _ (Geobucket.init_ok hs _).1 h1 ha hv
    have k := k2 (c.insertFactor * PQOp.pushes ops) (h2 _) (by rw [h4, Nat.zero_add])
    have hlen : s.view.buckets.length = s.buckets.length := List.length_map _
    have hpos : 0 < s.buckets.length := List.length_pos_iff.mpr hne
    by_cases h1 : s.buckets.length = 1
    · left
      rw [hlast, h1, Nat.sub_self, pow_zero, Nat.mul_one]
    · right
      have hk := k (s.buckets.length - 2) (by omega)
      rw [hlast, show s.buckets.length - 1 = s.buckets.length - 2 + 1 by omega, pow_succ]
      calc c.minBucketSize * (c.geoBase ^ (s.buckets.length - 2) * c.geoBase)
          = c.geoBase * (c.minBucketSize * c.geoBase ^ (s.buckets.length - 2)) := by ring
        _ < _ := Nat.mul_lt_mul_of_pos_left hk (by have := hs.base; omega)

/-- C97, geobucket: with `N` entries ever pushed the memory for entries is linear in `N`, with a logarithmic factor
more when buckets are all of the same size. -/
theorem geobucket_memory (c : Geobucket.Conf E) (hs : Geobucket.Sane c) (hc : c.Lawful) (dflt : E)
    (ops : List (PQOp E)) (outs : List (Option E)) (s : GeoMem.State E) (ha : ∀ op ∈ ops, Geobucket.Allowed c op)
    (h : (GeoMem.impl c dflt).run (GeoMem.impl c dflt).init ops = some (outs, s)) :
    s.mem.length ≤ (if c.storage = .sameSize then
        Nat.log c.geoBase (c.insertFactor * PQOp.pushes ops / c.minBucketSize) + 4 else 6) *
      max c.minBucketSize (c.geoBase * (c.insertFactor * PQOp.pushes ops)) := by
  obtain ⟨h1, h2⟩ := geobucket_capacity c hs hc dflt ops outs s ha h
  obtain ⟨hv, -⟩ := GeoMem.geoMem_same c hs hc dflt ops outs s ha h
  have h3 := Geobucket.buckets_bound c hs hc ops ha hv
  have hlen : s.view.buckets.length = s.buckets.length := List.length_map _
  refine h1.trans (Nat.mul_le_mul ?_ ?_)
  · split <;> omega
  · omega

/-! ## Examples -/

/-- Numbers, with deduplication or without. -/
def numConf (dedup : Bool) : PQConf ℕ where
  lt a b := decide (a < b)
  eq a b := decide (a = b)
  supportDedup := dedup
  dedup a _ := a

/-- A history with a range, pops and a second range that does not need more room. -/
def exOps : List (PQOp ℕ) := [.push 3, .pushRange (List.range 16), .pop, .pop, .top, .pushRange [5, 6], .decreaseTop 2, .clear, .push 1]

/-- Capacity and copied entries of a heap after a history. -/
def heapOf (ops : List (PQOp ℕ)) : Option (ℕ × ℕ) :=
  ((impl (numConf false)).run (impl (numConf false)).init ops).map (fun r => (HeapMem.cap r.2, HeapMem.copied r.2))

/-- Capacities of a tournament tree after a history. -/
def tourOf (ops : List (PQOp ℕ)) : Option (ℕ × ℕ) :=
  ((TourTree.impl (numConf false)).run (TourTree.impl (numConf false)).init ops).map
    (fun r => (TourTree.State.cap r.2, TourTree.State.pcap r.2))

#guard heapOf [] = some (0, 0)
#guard heapOf [.push 1] = some (16, 0)
#guard heapOf [.pushRange (List.range 16)] = some (16, 0)
#guard heapOf exOps = some (32, 16)
#guard heapOf [.pushRange (List.range 33)] = some (64, 48)
#guard tourOf [] = some (16, 10)
#guard tourOf [.pushRange (List.range 8)] = some (16, 10)
#guard tourOf [.pushRange (List.range 9)] = some (32, 18)
#guard tourOf exOps = some (64, 34)
#guard peak (Heap.impl (numConf false)) (Heap.impl (numConf false)).init (expand exOps) = 17
#guard peak (TourTree.impl (numConf false)) (TourTree.impl (numConf false)).init (expand exOps) = 17
-- A range of equal entries is deduplicated on the way and does not need the room that all of it at once would.
#guard peak (Heap.impl (numConf true)) (Heap.impl (numConf true)).init (expand [.pushRange (List.replicate 40 7)]) = 2
#guard peak (Heap.impl (numConf true)) (Heap.impl (numConf true)).init [.pushRange (List.replicate 40 7)] = 40
#guard ((impl (numConf true)).run (impl (numConf true)).init [.pushRange (List.replicate 40 7)]).map
  (fun r => HeapMem.cap r.2) = some 16

/-- The room for 17 entries is 32, and not for instance 64. -/
example : LeastDoubling 17 32 ∧ ¬ LeastDoubling 17 64 :=
  ⟨(leastDoubling_start (le_refl 16)).double (by omega) (by omega),
    fun h => absurd (h.2 (show 32 ∈ _ from ⟨⟨1, rfl⟩, by omega⟩)) (by omega)⟩

/-- The hypotheses of the theorems on the geobucket are met, for each kind of storage, and the memory is of the size
that is allowed up to a small factor: 23 to 48 entries, where buckets have capacities 1, 2, 4, 8. -/
example (st : Geobucket.Storage) (premerge : Bool) :
    ∃ outs s, (GeoMem.impl (GeoMem.exConf st premerge) 0).run (GeoMem.impl (GeoMem.exConf st premerge) 0).init
      Geobucket.exOps = some (outs, s) ∧ (s : GeoMem.State ℕ).mem.length = GeoMem.exLength st premerge ∧ s.last = 8 ∧
      s.buckets.length = 4 := by
  have h : ((GeoMem.impl (GeoMem.exConf st premerge) 0).run (GeoMem.impl (GeoMem.exConf st premerge) 0).init
      Geobucket.exOps).map (fun r => ((r.2 : GeoMem.State ℕ).mem.length, (r.2 : GeoMem.State ℕ).last,
        (r.2 : GeoMem.State ℕ).buckets.length)) = some (GeoMem.exLength st premerge, 8, 4) := by
    cases st <;> cases premerge <;> decide +kernel
  obtain ⟨⟨outs, s⟩, h1, h2⟩ := Option.map_eq_some_iff.mp h
  simp only [Prod.mk.injEq] at h2
  exact ⟨outs, s, h1, h2⟩

end Verif.Space
