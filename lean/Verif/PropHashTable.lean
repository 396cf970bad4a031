import Verif.HashTableProofs

/-!
# Properties of `mathic::HashTable`: C42, C43, C44, C62
-/

namespace Verif.HashTable

variable {K V : Type*} {c : Conf K}

/-- C42: on every history, whatever the initial number of bits and however often the table grows,
the table gives exactly the answers of the list of entries in order of first insertion; a call is
undefined iff it uses a handle that was never given out. -/
theorem hashTable_correct (hc : c.Lawful) (nbits : ℕ) (ops : List (Op K V)) :
    (run c (mk nbits) ops).map Prod.fst = (specRun c.eq [] ops).map Prod.fst := by
  have h := run_spec hc ops (mk nbits) [] (inv_mk nbits)
  cases hs : specRun c.eq [] ops with
  | none => rw [h.1 hs]; rfl
  | some r =>
    obtain ⟨s', h1, _⟩ := h.2 r.1 r.2 hs
    rw [h1]
    rfl

/-- C42, in terms of single calls: after any history of inserts (mixed with other calls that do not
write values), a lookup gives the value of the first insert of an equal key. -/
theorem lookup_first_insert (hc : c.Lawful) (nbits : ℕ) (kvs : List (K × V)) (k : K) :
    ∃ outs s, run c (mk nbits) (kvs.map (fun e => .insert e.1 e.2)) = some (outs, s) ∧
      ∃ r, lookup c s k = some r ∧
        (r.bind (getEntry s)).map Prod.snd = (kvs.find? (fun e => c.eq e.1 k)).map Prod.snd := by
  have hspec : ∀ (kvs l : List (K × V)), ∃ outs l',
      specRun c.eq l (kvs.map (fun e => .insert e.1 e.2)) = some (outs, l') ∧
      l'.find? (fun e => c.eq e.1 k) = (l ++ kvs).find? (fun e => c.eq e.1 k) := by
    intro kvs
    induction kvs with
    | nil => intro l; exact ⟨[], l, rfl, by simp⟩
    | cons e kvs ih =>
      intro l
      simp only [List.map_cons, specRun, specStep]
      cases hf : specFind c.eq l e.1 with
      | none =>
        obtain ⟨outs, l', h1, h2⟩ := ih (l ++ [(e.1, e.2)])
        exact ⟨.inserted true l.length :: outs, l', by simp [h1], by rw [h2]; simp⟩
      | some i =>
        obtain ⟨outs, l', h1, h2⟩ := ih l
        refine ⟨.inserted false i :: outs, l', by simp [h1], ?_⟩
        rw [h2, List.find?_append, List.find?_append, List.find?_cons]
        cases hek : c.eq e.1 k with
        | false => simp
        | true =>
          -- an equal key is in `l`
          obtain ⟨hi, h3, _⟩ := List.findIdx?_eq_some_iff_getElem.mp hf
          have h4 : (l.find? (fun e => c.eq e.1 k)).isSome := by
            rw [List.find?_isSome]
            exact ⟨l[i], List.getElem_mem _, hc.trans _ _ _ h3 hek⟩
          obtain ⟨x, hx⟩ := Option.isSome_iff_exists.mp h4
          rw [hx]
          simp
  obtain ⟨outs, l, h1, h2⟩ := hspec kvs []
  obtain ⟨s, g1, g2⟩ := (run_spec hc _ (mk nbits) [] (inv_mk nbits)).2 outs l h1
  refine ⟨outs, s, g1, _, lookup_spec hc g2 k, ?_⟩
  rw [List.nil_append] at h2
  rw [← h2]
  cases hf : specFind c.eq l k with
  | none =>
    have : l.find? (fun e => c.eq e.1 k) = none := by
      rw [List.find?_eq_none]
      intro x hx
      simpa using (List.findIdx?_eq_none_iff.mp hf) x hx
    rw [this]
    rfl
  | some i =>
    obtain ⟨hi, h3, h4⟩ := List.findIdx?_eq_some_iff_getElem.mp hf
    have : l.find? (fun e => c.eq e.1 k) = some l[i] := by
      rw [List.find?_eq_some_iff_getElem]
      exact ⟨h3, i, hi, rfl, fun j hj => by simpa using h4 j hj⟩
    rw [this]
    simp [getEntry_spec g2, hi]

/-- C43: growing at any moment (to any size) changes no answer of any later history: handles, keys
and values stay, and `computeNodeCount` is the number of distinct keys, as is `mNodeCount`. -/
theorem grow_keeps (hc : c.Lawful) (nbits nbits' : ℕ) (ops later : List (Op K V)) (outs : List (Out K V))
    (s : State K V) (h : run c (mk nbits) ops = some (outs, s)) :
    ∃ s' l, grow c s nbits' = some s' ∧ specRun c.eq [] ops = some (outs, l) ∧
      s'.tableSize = 2 ^ nbits' ∧ s'.table.length = 2 ^ nbits' ∧
      s'.nodeCount = l.length ∧ computeNodeCount s' = some l.length ∧
      (∀ i, getEntry s' i = getEntry s i) ∧
      (run c s' later).map Prod.fst = (run c s later).map Prod.fst := by
  have hr := run_spec hc ops (mk nbits) [] (inv_mk nbits)
  cases hs : specRun c.eq [] ops with
  | none => rw [hr.1 hs] at h; cases h
  | some r =>
    obtain ⟨s₀, h1, h2⟩ := hr.2 r.1 r.2 hs
    rw [h1] at h
    cases h
    obtain ⟨s', g1, g2⟩ := grow_spec h2 nbits'
    have hsz : s'.logSize = nbits' := grow_logSize g1
    obtain ⟨ch, hB, _⟩ := g2.buckets
    refine ⟨s', r.2, g1, rfl, by rw [g2.sized.size, hsz], by rw [hB.len, g2.sized.size, hsz], g2.count,
      computeNodeCount_spec g2, fun i => by rw [getEntry_spec g2, getEntry_spec h2], ?_⟩
    have f1 := run_spec hc later s' r.2 g2
    have f2 := run_spec hc later s r.2 h2
    cases hl : specRun c.eq r.2 later with
    | none => rw [f1.1 hl, f2.1 hl]
    | some q =>
      obtain ⟨t1, a1, _⟩ := f1.2 q.1 q.2 hl
      obtain ⟨t2, a2, _⟩ := f2.2 q.1 q.2 hl
      rw [a1, a2]
      rfl

/-- C43: in every reachable state the number of nodes is the number of distinct keys inserted. -/
theorem nodeCount_eq (hc : c.Lawful) (nbits : ℕ) (ops : List (Op K V)) (outs : List (Out K V))
    (s : State K V) (h : run c (mk nbits) ops = some (outs, s)) :
    ∃ l, specRun c.eq [] ops = some (outs, l) ∧ s.nodeCount = l.length ∧
      computeNodeCount s = some l.length ∧ l.Pairwise (fun a b => c.eq a.1 b.1 = false) := by
  have hr := run_spec hc ops (mk nbits) [] (inv_mk nbits)
  cases hs : specRun c.eq [] ops with
  | none => rw [hr.1 hs] at h; cases h
  | some r =>
    obtain ⟨s₀, h1, h2⟩ := hr.2 r.1 r.2 hs
    rw [h1] at h
    cases h
    exact ⟨r.2, rfl, h2.count, computeNodeCount_spec h2, h2.distinct⟩

/-- C62: the size of the table is determined by the number of keys: it is multiplied by four each time that there
are more keys than a tenth of the bins, and it does not change otherwise. (Up to 2^54 bins; from there on 0.1 in `double` gives another
threshold.) -/
theorem tableSize_eq (hc : c.Lawful) (nbits : ℕ) (ops : List (Op K V)) (outs : List (Out K V)) (s : State K V)
    (h : run c (mk nbits) ops = some (outs, s)) :
    ∃ l, specRun c.eq [] ops = some (outs, l) ∧
      (bitsFor nbits l.length ≤ 54 → s.table.length = 2 ^ bitsFor nbits l.length ∧ s.tableSize = s.table.length) := by
  have hr := run_spec hc ops (mk nbits) [] (inv_mk nbits)
  have hf := run_fit ops _ _ _ (fit_mk nbits) h
  cases hs : specRun c.eq [] ops with
  | none => rw [hr.1 hs] at h; cases h
  | some r =>
    obtain ⟨s₀, h1, h2⟩ := hr.2 r.1 r.2 hs
    rw [h1] at h
    cases h
    refine ⟨r.2, rfl, fun hle => ?_⟩
    obtain ⟨ch, hB, _⟩ := h2.buckets
    refine ⟨?_, hB.len.symm⟩
    rw [hB.len, h2.sized.size, hf.bits, h2.count, codeBits_eq _ _ hle]

/-- C62: after every history there are at most a tenth as many keys as bins, if the table has at least four bins at first, or
there are at least three keys. -/
theorem load_partial (hc : c.Lawful) (nbits : ℕ) (ops : List (Op K V)) (outs : List (Out K V)) (s : State K V)
    (h : run c (mk nbits) ops = some (outs, s)) :
    ∃ l, specRun c.eq [] ops = some (outs, l) ∧
      (bitsFor nbits l.length ≤ 54 → (2 ≤ nbits ∨ 3 ≤ l.length ∨ (nbits = 1 ∧ 2 ≤ l.length) ∨ l = []) →
        10 * l.length ≤ s.table.length) := by
  obtain ⟨l, h1, h2⟩ := tableSize_eq hc nbits ops outs s h
  refine ⟨l, h1, fun hle hn => ?_⟩
  rw [(h2 hle).1]
  have := bitsFor_load nbits l.length (by
    rcases hn with h | h | h | h
    · exact Or.inl h
    · exact Or.inr (Or.inl h)
    · exact Or.inr (Or.inr (Or.inl h))
    · exact Or.inr (Or.inr (Or.inr (by rw [h]; rfl))))
  omega

/-- C62 does not hold as stated: a table that starts with one bin has four bins after one insertion, and the
threshold of four bins is zero. -/
theorem load_refuted : ∃ (s : State ℕ ℕ) (outs : List (Out ℕ ℕ)),
    run ⟨id, (· == ·), true⟩ (mk 0) [.insert 5 1] = some (outs, s) ∧ s.nodeCount = 1 ∧ s.table.length = 4 ∧
      s.maxCount = 0 :=
  ⟨_, _, rfl, rfl, rfl, rfl⟩

#guard (List.range 12).map (bitsFor 2) = [2, 4, 6, 6, 6, 6, 6, 8, 8, 8, 8, 8]

/-- C44 in full, which the code does not meet: after `reset`, every history gives the answers of a
new table. -/
def ResetOk (c : Conf K) (s : State K V) : Prop :=
  ∀ ops, (run c (reset s) ops).map Prod.fst = (specRun c.eq [] ops).map Prod.fst

/-- C44 is violated by every table that holds something: after `reset` the table still refers
to the freed nodes, and looking up any key that was in it is undefined. -/
theorem reset_dangles (hc : c.Lawful) (nbits : ℕ) (ops : List (Op K V)) (outs : List (Out K V))
    (s : State K V) (h : run c (mk nbits) ops = some (outs, s)) (k : K) (i : ℕ)
    (hk : lookup c s k = some (some i)) :
    lookup c (reset s) k = none ∧ ¬ ResetOk c s := by
  have hr := run_spec hc ops (mk nbits) [] (inv_mk nbits)
  cases hs : specRun c.eq [] ops with
  | none => rw [hr.1 hs] at h; cases h
  | some r =>
    obtain ⟨s₀, h1, h2⟩ := hr.2 r.1 r.2 hs
    rw [h1] at h
    cases h
    have hlk : lookup c (reset s) k = none := by
      rw [lookup] at hk ⊢
      cases ht : s.table[c.hash k &&& s.mask]? with
      | none => rw [ht] at hk; cases hk
      | some p =>
        rw [ht] at hk
        have ht' : (reset s).table[c.hash k &&& (reset s).mask]? = some p := ht
        rw [ht']
        cases p with
        | none =>
          simp only at hk
          cases hn : s.nodes.length <;> rw [hn] at hk <;> cases hk
        | some q =>
          simp only [reset, List.length_map]
          cases s.nodes.length with
          | zero => rfl
          | succ f =>
            have : nodeAt (s.nodes.map (fun _ => (none : Option (Node K V)))) q = none := by
              rw [nodeAt, List.getElem?_map]
              cases s.nodes[q]? <;> rfl
            rw [lookupLoop]
            simp only [this]
    refine ⟨hlk, fun hok => ?_⟩
    have := hok [.lookup k]
    simp [run, step, hlk, specRun, specStep] at this

/-- C44, a concrete violation. -/
theorem reset_not_ok : ∃ (ops : List (Op ℕ ℕ)) (outs : List (Out ℕ ℕ)) (s : State ℕ ℕ),
    run ⟨id, (· == ·), true⟩ (mk 2) ops = some (outs, s) ∧ ¬ ResetOk ⟨id, (· == ·), true⟩ s := by
  refine ⟨[.insert 5 1], _, _, rfl, (reset_dangles (k := 5) (i := 0) ?_ 2 [.insert 5 1] _ _ rfl rfl).2⟩
  exact ⟨by simp, by simp, by simp, by simp⟩

/-- The part of C44 that holds: a table into which nothing was ever inserted can be reset.
Missing, and false: all other tables (`remove`, by which a table could be emptied before, as the
comment at src/mathic/HashTable.h:101 asks, does not compile). -/
theorem reset_partial (hc : c.Lawful) (nbits : ℕ) : ResetOk c (mk nbits : State K V) := by
  intro ops
  exact hashTable_correct hc nbits ops

/-- `mBinCount` does not keep its promise (src/mathic/HashTable.h:122-124): one insert into a new table
makes one bin non-empty, and `mBinCount` stays 0 until the table grows. -/
theorem binCount_wrong : ∃ s : State ℕ ℕ, (insert ⟨id, (· == ·), true⟩ (mk 4) 5 1).map Prod.snd = some s ∧
    s.binCount = 0 ∧ computeBinCount s = 1 :=
  ⟨_, rfl, rfl, rfl⟩

/-- The hypotheses are met: keys modulo 100, with a hash that collides; the table starts with one
bin and grows twice. -/
example : Conf.Lawful ⟨fun k : ℕ => k % 100 % 7, fun a b => a % 100 == b % 100, true⟩ where
  refl := by simp
  symm := by simp; omega
  trans := by simp; omega
  hash := by simp; omega

#guard ((run ⟨fun k : ℕ => k % 100 % 7, fun a b => a % 100 == b % 100, true⟩ (mk 0)
  [.insert 5 1, .insert 12 2, .insert 105 3, .lookup 112, .lookup 13, .setValue 1 8, .insert 13 4,
    .getEntry 1, .getEntry 2] : Option (List (Out ℕ ℕ) × _)).map (·.1))
  == some [.inserted true 0, .inserted true 1, .inserted false 0, .found (some 1), .found none, .done,
    .inserted true 2, .entry 12 8, .entry 13 4]

end Verif.HashTable
