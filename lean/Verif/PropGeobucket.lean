import Verif.GeoDedupProofs
import Verif.PQSort
import Verif.PropHeap

/-!
# Properties of `mathic::Geobucket`: C10 to C15
-/

namespace Verif.Geobucket

variable {E M : Type} [AddCommMonoid M]

/-! Concrete configurations for the examples and counterexamples: capacities 1, 2, 4, ... -/

/-- Terms ordered by exponent; deduplication adds coefficients. -/
def termConf (track dedup : Bool) : Conf (ℕ × ℕ) :=
  { Heap.termConf dedup with
    minBucketSize := 1, geoBase := 2, insertFactor := 1, binarySearch := true, trackFront := track,
    premerge := true, collectMax := false, storage := .plain }

theorem termConf_lawful (track dedup : Bool) : (termConf track dedup).Lawful := Heap.termConf_lawful dedup

theorem termConf_sane (track dedup : Bool) : Sane (termConf track dedup) :=
  ⟨by simp [termConf], by simp [termConf], by simp [termConf]⟩

/-- Numbers without deduplication. -/
def natConf (track collect : Bool) : Conf ℕ where
  lt a b := decide (a < b)
  eq a b := decide (a = b)
  supportDedup := false
  dedup a _ := a
  minBucketSize := 1
  geoBase := 2
  insertFactor := 1
  binarySearch := true
  trackFront := track
  premerge := true
  collectMax := collect
  storage := .plain

theorem natConf_lawful (track collect : Bool) : (natConf track collect).Lawful where
  weak := {
    irrefl := by simp [natConf]
    trans := by simp only [natConf, decide_eq_true_eq]; omega
    negTrans := by simp only [natConf, decide_eq_true_eq]; omega }
  eq_iff := by
    intro a b
    simp only [natConf]
    rw [← decide_not, ← decide_not, ← Bool.decide_and]
    congr 1
    apply propext
    omega
  dedup_lt := by simp [natConf]
  lt_dedup := by simp [natConf]

theorem natConf_sane (track collect : Bool) : Sane (natConf track collect) :=
  ⟨by simp [natConf], by simp [natConf], by simp [natConf]⟩

instance (lt : E → E → Bool) (l : List E) : Decidable (Descending lt l) := by
  unfold Descending
  infer_instance

/-- The values that a history returns, `none` if it is undefined. -/
def outsOf (c : Conf E) (ops : List (PQOp E)) : Option (List (Option E)) :=
  ((impl c).run (impl c).init ops).map (·.1)

theorem undefined_of {c : Conf E} {ops : List (PQOp E)} (h : (outsOf c ops).isNone = true) :
    (impl c).run (impl c).init ops = none := by
  simpa [outsOf] using h

/-! ## A priority queue -/

/-- Each allowed call keeps the invariant of the geobucket and does what the specification asks for. -/
theorem geobucket_inv (c : Conf E) (hs : Sane c) (hc : c.Lawful) (w : E → M) (hw : c.Weight w) :
    (impl c).InvCorrect (fun s : State E => Inv c w (wsum w (flat s.buckets)) s) (geoMem c) (Allowed c)
      c.lt w := by
  refine ⟨?_, ?_, ?_, ?_, ?_, ?_⟩
  · exact (init_ok hs w).1
  · exact (init_ok hs w).2
  · intro s h
    have h1 := h.good.data.count
    show (s.count == 0) = true ↔ flat s.buckets = []
    rw [beq_iff_eq, h1]
    simp only [List.length_nil, Nat.add_zero]
    exact List.length_eq_zero_iff
  · intro s h
    have h1 := h.good.data.count
    show s.count = (flat s.buckets).length
    rw [h1]
    rfl
  · intro s op h hn he
    exact step_undefined h.good.front h.cache op hn he
  · intro s op h ha hne
    exact step_ok hs hc hw h op ha hne

/-- C10/C12, in terms of any weight: on every history of allowed calls the geobucket is a max
priority queue, for all configurations. -/
theorem geobucket_correct (c : Conf E) (hs : Sane c) (hc : c.Lawful) (w : E → M) (hw : c.Weight w) :
    (impl c).CorrectBy (geoMem c) (Allowed c) c.lt w :=
  (geobucket_inv c hs hc w hw).correct

/-- Without deduplication, and with a tracked front, what is returned was held before the call. -/
theorem geoMem_mem {c : Conf E} (h : c.supportDedup = false ∨ c.trackFront = true) :
    geoMem c = fun x l => x ∈ l := by
  funext x l
  rcases h with h | h <;> simp [geoMem, h]

/-- C10: without deduplication the entries held are, as a multiset, exactly those pushed and not
yet popped or replaced, on every history of allowed calls, for all configurations. -/
theorem geobucket_multiset (c : Conf E) (hs : Sane c) (hc : c.Lawful) (hd : c.supportDedup = false) :
    (impl c).Correct (Allowed c) c.lt (fun e => ({e} : Multiset E)) := by
  have h := geobucket_correct c hs hc (fun e => ({e} : Multiset E)) (fun h => by rw [hd] at h; cases h)
  rwa [geoMem_mem (Or.inl hd)] at h

/-- C10, for histories of pushes and pops: pushed = popped + held, as multisets. -/
theorem geobucket_conservation (c : Conf E) (hs : Sane c) (hc : c.Lawful) (hd : c.supportDedup = false)
    (ops : List (PQOp E)) (outs : List (Option E)) (s : State E)
    (h : (impl c).run (impl c).init ops = some (outs, s)) (ha : ∀ op ∈ ops, Allowed c op)
    (hops : ∀ op ∈ ops, op ≠ .clear ∧ op ≠ .top ∧ ∀ e, op ≠ .decreaseTop e) :
    (ops.flatMap PQOp.pushed).Perm (outs.flatMap Option.toList ++ (impl c).entries s) := by
  have := ((geobucket_multiset c hs hc hd).trace ops outs s ha h).conservation hops
  apply perm_of_wsum
  rw [wsum_append, add_comm (wsum _ (List.flatMap _ outs))]
  rw [wsum_nil, zero_add] at this
  exact this.symm

/-! ## Capacities -/

/-- C11: after every history of allowed calls the capacities of the buckets are the geometric
sequence that the documentation promises, and no bucket holds more than its capacity. That no call
writes past the capacity on the way is part of `geobucket_correct`, which says that no allowed call is
undefined. -/
theorem geobucket_capacity (c : Conf E) (hs : Sane c) (hc : c.Lawful) (ops : List (PQOp E))
    (outs : List (Option E)) (s : State E) (ha : ∀ op ∈ ops, Allowed c op)
    (h : (impl c).run (impl c).init ops = some (outs, s)) (i : ℕ) (b : Bucket E) (hb : s.buckets[i]? = some b) :
    b.cap = c.minBucketSize * c.geoBase ^ i ∧ b.es.length ≤ b.cap := by
  have hi := reach hs hc (w := fun _ => (0 : ℕ)) (fun _ _ _ _ => rfl) ops _ outs s (init_ok hs _).1 ha h
  refine ⟨hi.good.data.caps.geo i b.cap ?_, (hi.good.data.at_ok hb).fits⟩
  rw [List.getElem?_map, hb]
  rfl

/-- C11: pushing a range is never undefined, no matter how long it is and after what history, and
without deduplication all of it arrives. -/
theorem geobucket_push_defined (c : Conf E) (hs : Sane c) (hc : c.Lawful) (ops : List (PQOp E))
    (outs : List (Option E)) (s : State E) (ha : ∀ op ∈ ops, Allowed c op)
    (h : (impl c).run (impl c).init ops = some (outs, s)) (l : List E) (hl : Descending c.lt l) (hne : l ≠ []) :
    ∃ s', (impl c).step s (.pushRange l) = some (none, s') ∧
      (c.supportDedup = false → ((impl c).entries s').Perm ((impl c).entries s ++ l)) := by
  have hal : Allowed c (.pushRange l) := ⟨hl, fun _ => hne⟩
  cases hd : c.supportDedup with
  | true =>
    have hi := reach hs hc (w := fun _ => (0 : ℕ)) (fun _ _ _ _ => rfl) ops _ outs s (init_ok hs _).1 ha h
    obtain ⟨o, s', k1, _, k3, _⟩ := step_ok hs hc (fun _ _ _ _ => rfl) hi (.pushRange l) hal (fun h => h.elim)
    cases k3
    exact ⟨s', k1, nofun⟩
  | false =>
    have hw : c.Weight (fun e => ({e} : Multiset E)) := fun h => by rw [hd] at h; cases h
    have hi := reach hs hc hw ops _ outs s (init_ok hs _).1 ha h
    obtain ⟨o, s', k1, _, k3, _⟩ := step_ok hs hc hw hi (.pushRange l) hal (fun h => h.elim)
    cases k3 with
    | pushRange k3 =>
      refine ⟨s', k1, fun _ => perm_of_wsum ?_⟩
      rw [wsum_append]
      exact k3

/-- C11 needs `insertFactor` to be at least 1, which the documentation does not ask for: with
`insertFactor` 0 every range goes to the smallest bucket, here three entries to a bucket of
capacity 1. -/
theorem insertFactor_zero : ∃ c : Conf ℕ, 1 ≤ c.minBucketSize ∧ 2 ≤ c.geoBase ∧ c.Lawful ∧
    Descending c.lt [3, 2, 1] ∧ (impl c).run (impl c).init [.pushRange [3, 2, 1]] = none := by
  refine ⟨{ natConf false false with insertFactor := 0 }, by decide, by decide, natConf_lawful false false, by decide +kernel, ?_⟩
  exact undefined_of (by decide +kernel)

/-! ## Deduplication -/

/-- C12: with deduplication, the weight of each class of equal entries is kept: for any weight of
entries that `deduplicate` adds up, the weight held in the class of `x` changes by exactly what is
pushed, popped or replaced. `geoMem` says how a value returned belongs to the entries held before:
with `trackFront` it is one of them, without `trackFront` it is equivalent to one, since the search
for the maximum may merge entries first. -/
theorem geobucket_class_weight (c : Conf E) (hs : Sane c) (hc : c.Lawful) (wt : E → M)
    (hwt : ∀ a b, c.eq a b = true → wt (c.dedup a b) = wt a + wt b) :
    (impl c).CorrectBy (geoMem c) (Allowed c) c.lt (fun e x => if c.eq e x then wt e else 0) :=
  geobucket_correct c hs hc _ (hc.class_weight wt hwt)

/-- C12 with `trackFront`, where every value returned was held before the call. -/
theorem geobucket_class_weight_tracked (c : Conf E) (hs : Sane c) (hc : c.Lawful)
    (ht : c.trackFront = true) (wt : E → M)
    (hwt : ∀ a b, c.eq a b = true → wt (c.dedup a b) = wt a + wt b) :
    (impl c).Correct (Allowed c) c.lt (fun e x => if c.eq e x then wt e else 0) := by
  have h := geobucket_class_weight c hs hc wt hwt
  rwa [geoMem_mem (Or.inr ht)] at h

/-- C12: `deduplicate` is only called on equal entries: what it does to other pairs of entries
changes nothing in what any call does in any state. -/
theorem geobucket_dedup_only_equal (c : Conf E) (hsym : ∀ a b, c.eq a b = c.eq b a) (d : E → E → E)
    (hd : ∀ a b, c.eq a b = true → d a b = c.dedup a b) (s : State E) (op : PQOp E) :
    (impl { c with dedup := d }).step s op = (impl c).step s op :=
  step_dedup hd hsym s op

/-! ## The tracked front -/

/-- C13: with `trackFront`, after every history of allowed calls the first `_bucketEnd - _bucketBegin`
cells of the front hold the numbers of exactly the buckets that are not empty, each once, in
descending order of their first entries (which the model has last); and the positions that the
buckets note are the right ones. -/
theorem geobucket_front (c : Conf E) (hs : Sane c) (hc : c.Lawful) (ht : c.trackFront = true)
    (ops : List (PQOp E)) (outs : List (Option E)) (s : State E) (ha : ∀ op ∈ ops, Allowed c op)
    (h : (impl c).run (impl c).init ops = some (outs, s)) :
    ∃ live : List ℕ, s.front.fend = live.length ∧ s.front.slots.take s.front.fend = live.map some ∧
      live.Nodup ∧ (∀ i, i ∈ live ↔ ∃ b, s.buckets[i]? = some b ∧ b.es ≠ []) ∧
      live.Pairwise (fun i j => ∀ bi bj x y, s.buckets[i]? = some bi → s.buckets[j]? = some bj →
        bi.es.getLast? = some x → bj.es.getLast? = some y → c.lt x y = false) ∧
      (∀ i p : ℕ, s.front.pos[i]? = some (.slot p) ↔ live[p]? = some i) := by
  have hi := reach hs hc (w := fun _ => (0 : ℕ)) (fun _ _ _ _ => rfl) ops _ outs s (init_ok hs _).1 ha h
  obtain ⟨live, hf⟩ := hi.good.front ht
  refine ⟨live, hf.link.fend, ?_, hf.link.nodup, ?_, ?_, hf.link.pos⟩
  · apply List.ext_getElem?
    intro k
    rw [hf.link.fend, List.getElem?_take, List.getElem?_map]
    split
    · rename_i hk
      rw [hf.link.slot k hk, List.getElem?_eq_getElem hk]
      rfl
    · rename_i hk
      rw [List.getElem?_eq_none (by omega)]
      rfl
  · intro i
    rw [hf.mem]
    constructor
    · intro hne
      obtain ⟨b, hb, eb⟩ := esAt_ne hne
      exact ⟨b, hb, by rw [← eb]; exact hne⟩
    · rintro ⟨b, hb, hne⟩
      rw [esAt_some hb]
      exact hne
  · refine hf.ord.imp ?_
    intro i j hij bi bj x y hbi hbj hx hy
    exact hij x y (by rw [esAt_some hbi]; exact hx) (by rw [esAt_some hbj]; exact hy)

/-- C13: with or without `trackFront`, the bucket that `getMax` designates is not empty, and its
first entry (which the model has last) is not less than any entry held. -/
theorem geobucket_max (c : Conf E) (hs : Sane c) (hc : c.Lawful)
    (ops : List (PQOp E)) (outs : List (Option E)) (s : State E) (ha : ∀ op ∈ ops, Allowed c op)
    (h : (impl c).run (impl c).init ops = some (outs, s)) (hne : (impl c).entries s ≠ []) :
    ∃ m s' b x, getMax c s = some (m, s') ∧ s'.buckets[m]? = some b ∧ b.es.getLast? = some x ∧
      (∀ y ∈ (impl c).entries s, c.lt x y = false) ∧ (c.trackFront = true → s' = s) := by
  have hi := reach hs hc (w := fun _ => (0 : ℕ)) (fun _ _ _ _ => rfl) ops _ outs s (init_ok hs _).1 ha h
  obtain ⟨m, s', b, x, k1, _, k3, _, k5, _, k7, _⟩ := max_spec hc (fun _ _ _ _ => rfl) hi hne
  refine ⟨m, s', b, x, k1, k3, k5, k7.2, ?_⟩
  intro ht
  rw [getMax, if_pos ht] at k1
  split at k1
  · cases k1
  · cases hr : s.front.rdSlot 0 with
    | none => rw [hr] at k1; cases k1
    | some b => rw [hr] at k1; cases k1; rfl

/-! ## `clear` -/

/-- C14 without `trackFront`: after `clear` the geobucket is an empty priority queue, whatever
happened before; no later call is undefined that would not be undefined on a new queue. Missing:
`trackFront`, for which this is false (`geobucket_clear_wrong`). -/
theorem geobucket_clear_partial (c : Conf E) (hs : Sane c) (hc : c.Lawful) (ht : c.trackFront = false)
    (w : E → M) (hw : c.Weight w) (before after : List (PQOp E)) (outs : List (Option E)) (s : State E)
    (hb : ∀ op ∈ before, ∀ l, op = .pushRange l → Descending c.lt l)
    (ha : ∀ op ∈ after, ∀ l, op = .pushRange l → Descending c.lt l)
    (h : (impl c).run (impl c).init (before ++ .clear :: after) = some (outs, s)) :
    PQTraceBy (geoMem c) c.lt w [] after (outs.drop (before.length + 1)) ((impl c).entries s) ∧
      ∀ op, (∀ l, op = .pushRange l → Descending c.lt l) →
        ((impl c).step s op = none ↔ op.needsTop ∧ (impl c).entries s = []) := by
  have hall : ∀ op, (∀ l, op = .pushRange l → Descending c.lt l) → Allowed c op := by
    intro op hop
    cases op with
    | pushRange l => exact ⟨hop l rfl, by rw [ht]; nofun⟩
    | clear => exact ht
    | _ => trivial
  have hal : ∀ op ∈ before ++ .clear :: after, Allowed c op := by
    intro op hop
    rcases List.mem_append.mp hop with h1 | h1
    · exact hall op (hb op h1)
    · rcases List.mem_cons.mp h1 with rfl | h1
      · exact ht
      · exact hall op (ha op h1)
  have hcor := geobucket_correct c hs hc w hw
  refine ⟨?_, fun op hop => hcor.defined _ _ _ op hal h (hall op hop)⟩
  obtain ⟨o1, o2, t₁, e1, e2, e3⟩ := (hcor.trace _ _ _ hal h).split
  have hlen : o1.length = before.length := e2.length_outs
  cases e3 with
  | @cons _ _ _ _ _ _ rest h1 h2 =>
    cases h1
    have : outs.drop (before.length + 1) = rest := by
      rw [e1, ← hlen, List.drop_append]
      simp
    rw [this]
    exact h2

/-- C14 is false with `trackFront`: `clear` forgets the front but leaves the positions noted in the
buckets. Here `pop` returns 2 while 7 is held, and the next pops are undefined. -/
theorem geobucket_clear_wrong : ∃ c : Conf ℕ, ∃ ops after : List (PQOp ℕ), Sane c ∧ c.Lawful ∧
    (∀ op ∈ ops ++ .clear :: after, ∀ l, op = .pushRange l → Descending c.lt l ∧ l ≠ []) ∧
    outsOf c (ops ++ .clear :: after) = some [none, none, none, none, none, none, some 2] ∧
    outsOf c after = some [none, none, none, some 7] ∧
    (impl c).run (impl c).init (ops ++ .clear :: (after ++ [.pop, .pop, .pop])) = none := by
  refine ⟨natConf true false, [.pushRange [3, 2, 1], .pushRange [9, 8]],
    [.pushRange [7, 6, 5], .push 1, .push 2, .pop], natConf_sane _ _, natConf_lawful _ _, ?_, by decide +kernel,
    by decide +kernel, undefined_of (by decide +kernel)⟩
  intro op hop l hl
  subst hl
  simp only [List.cons_append, List.nil_append, List.mem_cons, PQOp.pushRange.injEq, reduceCtorEq, false_or,
    List.not_mem_nil, or_false] at hop
  rcases hop with rfl | rfl | rfl <;> exact ⟨by decide +kernel, by simp⟩

/-- C14 is false with `trackFront`: the geobucket is not a priority queue on histories with
`clear`, not even if all ranges are descending and not empty. -/
theorem geobucket_clear_not_correct : ∃ c : Conf ℕ, Sane c ∧ c.Lawful ∧ c.supportDedup = false ∧
    ¬ (impl c).Correct (fun op => ∀ l, op = .pushRange l → Descending c.lt l ∧ l ≠ []) c.lt
      (fun e => ({e} : Multiset ℕ)) := by
  refine ⟨natConf true false, natConf_sane _ _, natConf_lawful _ _, rfl, ?_⟩
  intro hcor
  have hout : outsOf (natConf true false) [.pushRange [3, 2, 1], .pushRange [9, 8], .clear, .pushRange [7, 6, 5],
      .push 1, .push 2, .pop] = some [none, none, none, none, none, none, some 2] := by decide +kernel
  obtain ⟨⟨outs, s⟩, hrun, ho⟩ := Option.map_eq_some_iff.mp hout
  have ho : outs = _ := ho
  subst ho
  have htr := hcor.trace _ _ _ (by
    intro op hop l hl
    subst hl
    simp only [List.mem_cons, PQOp.pushRange.injEq, reduceCtorEq, false_or, List.not_mem_nil, or_false] at hop
    rcases hop with rfl | rfl | rfl <;> exact ⟨by decide +kernel, by simp⟩) hrun
  cases htr with | cons _ htr => cases htr with | cons _ htr => cases htr with | cons h1 htr =>
  cases h1
  cases htr with | cons h2 htr => cases htr with | cons h3 htr => cases htr with | cons h4 htr =>
  cases htr with | cons h5 _ =>
  cases h2 with | pushRange h2 => cases h3 with | push h3 => cases h4 with | push h4 => cases h5 with | pop h5 _ =>
  rw [h3, h2] at h4
  have h4 := perm_of_wsum (l := _) (m := [7, 6, 5, 1, 2]) (h4.trans (by decide))
  have := h5.2 7 (h4.mem_iff.mpr (by simp))
  simp [natConf] at this

/-! ## Empty ranges -/

/-- C15 without `trackFront`: pushing an empty range is defined after every history and keeps the
contents (the weight for every additive weight; without deduplication, the multiset); later calls
are as defined as ever by `geobucket_correct`. Missing: `trackFront`, for which this is false
(`geobucket_empty_range_wrong`). -/
theorem geobucket_empty_range_partial (c : Conf E) (hs : Sane c) (hc : c.Lawful) (ht : c.trackFront = false)
    (w : E → M) (hw : c.Weight w) (ops : List (PQOp E)) (outs : List (Option E)) (s : State E)
    (ha : ∀ op ∈ ops, ∀ l, op = .pushRange l → Descending c.lt l)
    (h : (impl c).run (impl c).init ops = some (outs, s)) :
    ∃ s', (impl c).step s (.pushRange []) = some (none, s') ∧
      wsum w ((impl c).entries s') = wsum w ((impl c).entries s) ∧
      (c.supportDedup = false → ((impl c).entries s').Perm ((impl c).entries s)) := by
  have hall : ∀ op ∈ ops, Allowed c op := by
    intro op hop
    have := ha op hop
    cases op with
    | pushRange l => exact ⟨this l rfl, by rw [ht]; nofun⟩
    | clear => exact ht
    | _ => trivial
  have hal : Allowed c (.pushRange []) := ⟨List.Pairwise.nil, by rw [ht]; nofun⟩
  have hi := reach hs hc hw ops _ outs s (init_ok hs _).1 hall h
  obtain ⟨o, s', k1, _, k3, _⟩ := step_ok hs hc hw hi (.pushRange []) hal (fun h => h.elim)
  cases k3 with
  | pushRange k3 =>
    refine ⟨s', k1, k3.trans (by simp; rfl), ?_⟩
    intro hd
    have hw : c.Weight (fun e => ({e} : Multiset E)) := fun h => by rw [hd] at h; cases h
    have hi := reach hs hc hw ops _ outs s (init_ok hs _).1 hall h
    obtain ⟨o', s'', k1', _, k3', _⟩ := step_ok hs hc hw hi (.pushRange []) hal (fun h => h.elim)
    have k1 : step c s (.pushRange []) = some (none, s') := k1
    rw [k1] at k1'
    cases k1'
    cases k3' with
    | pushRange k3' => exact perm_of_wsum (k3'.trans (by simp; rfl))

/-- C15 is false with `trackFront`: an empty range puts an empty bucket into the front, and
the next call that looks at it is undefined, even if entries have been pushed since. -/
theorem geobucket_empty_range_wrong : ∃ c : Conf ℕ, Sane c ∧ c.Lawful ∧
    (impl c).run (impl c).init [.pushRange [], .top] = none ∧
    (impl c).run (impl c).init [.pushRange [], .push 3, .push 4, .pop, .pop] = none ∧
    outsOf c [.push 3, .push 4, .pop, .pop] = some [none, none, some 4, some 3] :=
  ⟨natConf true false, natConf_sane _ _, natConf_lawful _ _, undefined_of (by decide +kernel),
    undefined_of (by decide +kernel), by decide +kernel⟩

/-! ## `top` is not constant -/

/-- With deduplication and without `trackFront`, `top` merges entries though it is `const`:
`size` differs before and after. -/
theorem geobucket_top_merges : ∃ c : Conf (ℕ × ℕ), Sane c ∧ c.Lawful ∧
    ((impl c).run (impl c).init [.push (5, 1), .push (5, 2)]).map (fun r => (impl c).size r.2) = some 2 ∧
    ((impl c).run (impl c).init [.push (5, 1), .push (5, 2), .top]).map (fun r => (impl c).size r.2) = some 1 :=
  ⟨termConf false true, termConf_sane _ _, termConf_lawful _ _, by decide +kernel, by decide +kernel⟩

/-! ## Examples: the hypotheses are met -/

example : (impl (termConf true false)).Correct (Allowed (termConf true false)) (termConf true false).lt
    (fun e => ({e} : Multiset (ℕ × ℕ))) :=
  geobucket_multiset _ (termConf_sane _ _) (termConf_lawful _ _) rfl

example : (impl (termConf false true)).CorrectBy (geoMem (termConf false true)) (Allowed (termConf false true))
    (termConf false true).lt (fun e x => if (termConf false true).eq e x then e.2 else 0) :=
  geobucket_class_weight _ (termConf_sane _ _) (termConf_lawful _ _) (fun e => e.2) (by simp [termConf, Heap.termConf])

/-- Entries in buckets of capacities 1, 2 and 4. -/
def exOps : List (PQOp ℕ) := [.pushRange [9, 7, 5], .push 8, .pushRange [6, 3], .push 2, .top, .pop]

/-- A history that fills buckets of capacities 1, 2, 4 meets the hypotheses of `geobucket_capacity` and
`geobucket_front`, and ends with a non-empty geobucket. -/
example : ∃ outs s, (impl (natConf true true)).run (impl (natConf true true)).init exOps = some (outs, s) ∧
    (∀ op ∈ exOps, Allowed (natConf true true) op) ∧ (impl (natConf true true)).entries s = [2, 8, 3, 6, 5, 7] := by
  have h : ((impl (natConf true true)).run (impl (natConf true true)).init exOps).map
      (fun r => (impl (natConf true true)).entries r.2) = some [2, 8, 3, 6, 5, 7] := by decide +kernel
  obtain ⟨⟨outs, s⟩, h1, h2⟩ := Option.map_eq_some_iff.mp h
  refine ⟨outs, s, h1, ?_, h2⟩
  intro op hop
  simp only [exOps, List.mem_cons, List.not_mem_nil, or_false] at hop
  rcases hop with rfl | rfl | rfl | rfl | rfl | rfl
  · exact ⟨by decide +kernel, by simp⟩
  · trivial
  · exact ⟨by decide +kernel, by simp⟩
  · trivial
  · trivial
  · trivial

-- The other ways to store, search and merge compute the same.
#guard [Storage.plain, .doubleBuffer, .sameSize].all fun st => [true, false].all fun a => [true, false].all fun b =>
  [true, false].all fun t =>
    outsOf { natConf t false with storage := st, premerge := a, binarySearch := b } (exOps ++ [.pop, .push 9, .pop])
      == some [none, none, none, none, some 9, some 9, some 8, none, some 9]

-- Equal terms are merged only where they meet.
#guard outsOf (termConf true true) [.push (1, 1), .pushRange [(5, 1), (3, 1)], .push (5, 2), .push (1, 7), .pop,
    .push (3, 4), .pop, .pop] == some [none, none, none, none, some (5, 1), none, some (5, 2), some (3, 5)]

end Verif.Geobucket
