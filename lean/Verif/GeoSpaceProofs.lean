import Verif.PropGeoMem
import Verif.GeoStepCostProofs
import Mathlib.Algebra.Order.BigOperators.Group.List

/-!
# Lemmas on the memory of the geobucket
-/

namespace Verif.Space

open Geobucket (Conf Sane Allowed)

variable {E : Type}

/-- The capacities are a geometric sequence. -/
theorem caps_geo (c : Conf E) (hs : Sane c) (hc : c.Lawful) (dflt : E) (ops : List (PQOp E)) (outs : List (Option E))
    (s : GeoMem.State E) (ha : ∀ op ∈ ops, Allowed c op)
    (h : (GeoMem.impl c dflt).run (GeoMem.impl c dflt).init ops = some (outs, s)) :
    s.buckets ≠ [] ∧ ∀ i b, s.buckets[i]? = some b → b.cap = c.minBucketSize * c.geoBase ^ i := by
  have hw : c.Weight (fun _ => (0 : ℕ)) := fun _ _ _ _ => rfl
  obtain ⟨hv, -⟩ := GeoMem.geoMem_same c hs hc dflt ops outs s ha h
  have hi := Geobucket.reach hs hc hw ops _ _ _ (Geobucket.init_ok hs _).1 ha hv
  have hpos := hi.good.data.length_pos
  refine ⟨?_, fun i b hb => ?_⟩
  · rintro e
    have hlen : s.view.buckets.length = s.buckets.length := List.length_map _
    rw [hlen, e] at hpos
    cases hpos
  · exact hi.good.geo i (b.view s.mem) (by
      show (s.buckets.map _)[i]? = _
      rw [List.getElem?_map, hb]
      rfl)

theorem last_geo {c : Conf E} {s : GeoMem.State E}
    (hg : ∀ i b, s.buckets[i]? = some b → b.cap = c.minBucketSize * c.geoBase ^ i) (hne : s.buckets ≠ []) :
    s.last = c.minBucketSize * c.geoBase ^ (s.buckets.length - 1) := by
  have hb' : s.buckets[s.buckets.length - 1]? = some (s.buckets.getLast hne) := by
    rw [← List.getLast?_eq_getElem?]; exact List.getLast?_eq_some_getLast hne
  rw [GeoMem.State.last, List.getLast?_eq_some_getLast hne]
  exact hg _ _ hb'

/-- A geometric sum is less than twice its last term. -/
theorem geo_sum {b : ℕ} (hb : 2 ≤ b) (m : ℕ) : ∀ n : ℕ, ((List.range (n + 1)).map (fun i => m * b ^ i)).sum ≤ 2 * (m * b ^ n) := by
  intro n
  induction n with
  | zero => simp; omega
  | succ n ih =>
    rw [List.range_succ, List.map_append, List.sum_append]
    simp only [List.map_cons, List.map_nil, List.sum_cons, List.sum_nil, Nat.add_zero]
    have : 2 * (m * b ^ n) ≤ m * b ^ (n + 1) := by
      rw [pow_succ]
      calc 2 * (m * b ^ n) ≤ b * (m * b ^ n) := Nat.mul_le_mul_right _ hb
        _ = _ := by ring
    omega

theorem areas_le {c : Conf E} (hs : Sane c) {s : GeoMem.State E}
    (hg : ∀ i b, s.buckets[i]? = some b → b.cap = c.minBucketSize * c.geoBase ^ i) (hne : s.buckets ≠ []) 
    (hd : ∀ b ∈ s.buckets, b.other.isSome = decide (c.storage = .doubleBuffer)) :
    ((List.range s.buckets.length).map (fun i => s.length c (.main i) + s.length c (.other i))).sum +
      s.length c .tmp + s.length c .tmp2 ≤
    (if c.storage = .sameSize then s.buckets.length + 2 else 6) * s.last := by
  have hl := last_geo hg hne
  have hpos : 0 < s.buckets.length := List.length_pos_iff.mpr hne
  have ht : s.length c .tmp = s.last := rfl
  have ht2 : s.length c .tmp2 ≤ s.last := by
    rw [GeoMem.State.length, GeoMem.State.area]
    cases s.tmp2 <;> simp
  have key : ((List.range s.buckets.length).map (fun i => s.length c (.main i) + s.length c (.other i))).sum ≤
      (if c.storage = .sameSize then s.buckets.length else 4) * s.last := by
    by_cases hst : c.storage = .sameSize
    · rw [if_pos hst]
      have : ∀ x ∈ (List.range s.buckets.length).map (fun i => s.length c (.main i) + s.length c (.other i)), x ≤ s.last := by
        intro x hx
        obtain ⟨i, hi, rfl⟩ := List.mem_map.mp hx
        have hi := List.mem_range.mp hi
        have hb : s.buckets[i]? = some s.buckets[i] := List.getElem?_eq_getElem hi
        have ho := hd _ (List.getElem_mem hi)
        rw [decide_eq_false (by rw [hst]; nofun), Option.isSome_eq_false_iff, Option.isNone_iff_eq_none] at ho
        simp [GeoMem.State.length, GeoMem.State.area, hb, ho, hst]
      have := List.sum_le_card_nsmul _ _ this
      simpa using this
    · rw [if_neg hst]
      have hle : ((List.range s.buckets.length).map (fun i => s.length c (.main i) + s.length c (.other i))).sum ≤
          ((List.range s.buckets.length).map (fun i => (2 * c.minBucketSize) * c.geoBase ^ i)).sum := by
        apply List.sum_le_sum
        intro i hi
        have hi := List.mem_range.mp hi
        have hb : s.buckets[i]? = some s.buckets[i] := List.getElem?_eq_getElem hi
        have h1 : s.length c (.main i) = c.minBucketSize * c.geoBase ^ i := by
          rw [← hg i _ hb]
          simp [GeoMem.State.length, GeoMem.State.area, hb, hst]
        have h2 : s.length c (.other i) ≤ c.minBucketSize * c.geoBase ^ i := by
          rw [← hg i _ hb]
          simp only [GeoMem.State.length, GeoMem.State.area, hb, Option.bind_some]
          cases s.buckets[i].other <;> simp
        rw [Nat.mul_assoc]
        omega
      refine hle.trans ?_
      obtain ⟨n, hn⟩ : ∃ n, s.buckets.length = n + 1 := ⟨s.buckets.length - 1, by omega⟩
      rw [hl, hn, Nat.add_sub_cancel]
      refine (geo_sum hs.base _ n).trans ?_
      rw [Nat.mul_assoc]
      omega
  split at key <;> rename_i hst
  · rw [if_pos hst, Nat.add_mul]; omega
  · rw [if_neg hst]; omega

end Verif.Space
