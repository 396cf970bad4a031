import Verif.HashAssert
import Verif.HashAssertSpec
import Verif.HashThrowProofs

/-!
# Lemmas on debug builds of `HashTable`
-/

namespace Verif.HashTable

open Verif.Dbg

section

variable {K V : Type*}

/-- The number of entries that are found. -/
def links (l : List (Entry K V)) : ℕ := l.countP (·.linked)

theorem links_lt {l l' : List (Entry K V)} (h : Shrunk l l')
    (he : ∃ e ∈ List.zip l l', e.1.linked = true ∧ e.2.linked = false) : links l' < links l := by
  have hle : ∀ {l l' : List (Entry K V)}, Shrunk l l' → links l' ≤ links l := by
    intro l l' h
    induction h with
    | nil => exact le_rfl
    | @cons a b l l' h1 h2 ih =>
      simp only [links, List.countP_cons] at ih ⊢
      have := h1.2.2
      split <;> rename_i hb
      · rw [if_pos (this hb)]; omega
      · omega
  induction h with
  | nil => obtain ⟨e, he, _⟩ := he; cases he
  | @cons a b l l' h1 h2 ih =>
    obtain ⟨e, he, g1, g2⟩ := he
    rw [List.zip_cons_cons, List.mem_cons] at he
    have hl := hle h2
    simp only [links, List.countP_cons] at ih hl ⊢
    rcases he with rfl | he
    · simp only at g1 g2
      rw [g1, g2]
      simp
      omega
    · have := ih ⟨e, he, g1, g2⟩
      have h3 := h1.2.2
      split <;> rename_i hb
      · rw [if_pos (h3 hb)]; omega
      · omega

end

variable {K V : Type} {c : Conf K}

theorem computeNodeCount_links {s : State K V} {l : List (Entry K V)} (h : InvT c s l) :
    computeNodeCount s = some (links l) := by
  obtain ⟨ch, hB, hall⟩ := h.buckets
  have hperm : ((List.range s.tableSize).map ch).flatten.Perm
      ((List.range l.length).filter (fun i => (l[i]?.map (·.linked)).getD false)) := by
    rw [List.perm_ext_iff_of_nodup (flatten_nodup hB) (List.nodup_range.filter _)]
    intro i
    rw [mem_flatten_range, hall, List.mem_filter, List.mem_range]
    constructor
    · rintro ⟨e, he, hk⟩
      exact ⟨(List.getElem?_eq_some_iff.mp he).1, by rw [he]; exact hk⟩
    · rintro ⟨hi, hk⟩
      rw [List.getElem?_eq_getElem hi] at hk
      exact ⟨l[i], List.getElem?_eq_getElem hi, hk⟩
  have hlen : ∀ l : List (Entry K V),
      ((List.range l.length).filter (fun i => (l[i]?.map (·.linked)).getD false)).length = links l := by
    intro l
    induction l with
    | nil => rfl
    | cons e l ih =>
      rw [List.length_cons, List.range_succ_eq_map, List.filter_cons, links, List.countP_cons, ← links, ← ih,
        List.filter_map]
      have : ((fun i => ((e :: l)[i]?.map (·.linked)).getD false) ∘ Nat.succ) =
          (fun i => (l[i]?.map (·.linked)).getD false) := by
        funext i
        simp
      rw [this]
      cases he : e.linked <;> simp [he]
  have hgen : ∀ (t : List (Option ℕ)) (ls : List (List ℕ)) (r : ℕ), List.Forall₂ (IsChain s.nodes) t ls →
      (∀ l ∈ ls, l.length ≤ s.nodes.length) →
      t.foldlM (fun r p => (chainLength s.nodes s.nodes.length p).map (r + ·)) r =
        some (r + ls.flatten.length) := by
    intro t
    induction t with
    | nil => intro ls r hf _; cases hf; simp
    | cons p t ih =>
      intro ls r hf hl
      cases hf with
      | @cons _ l _ ls hc hf =>
        rw [List.foldlM_cons, chainLength_spec _ _ _ hc (hl l List.mem_cons_self)]
        simp only [Option.map_some, Option.bind_eq_bind, Option.bind_some]
        rw [ih ls _ hf (fun l' hl' => hl l' (List.mem_cons_of_mem _ hl'))]
        simp [add_assoc]
  rw [computeNodeCount, List.take_of_length_le (by rw [hB.len]),
    hgen _ _ 0 (forall₂_chains hB) (by
      intro l hl
      obtain ⟨b, hb, rfl⟩ := List.mem_map.mp hl
      exact hB.length_le (List.mem_range.mp hb)), hperm.length_eq, hlen]
  simp

theorem countD_eq {s : State K V} {l : List (Entry K V)} (h : InvT c s l) :
    countD s = assert (links l == s.nodeCount) := by
  obtain ⟨ch, hB, _⟩ := h.buckets
  rw [countD, if_neg (by rw [hB.len]; omega), computeNodeCount_links h]
  rfl

theorem countD_ok {s : State K V} {l : List (Entry K V)} (h : InvT c s l) (hn : s.nodeCount = links l) :
    countD s = ok () := by
  rw [countD_eq h, hn, beq_self_eq_true]
  rfl

theorem countD_failed {s : State K V} {l : List (Entry K V)} (h : InvT c s l) (hn : s.nodeCount ≠ links l) :
    countD s = failed := by
  rw [countD_eq h, beq_false_of_ne (Ne.symm hn)]
  rfl

theorem insertEndD_ok {s : State K V} {l : List (Entry K V)} (h : InvT c s l) (hn : s.nodeCount = links l) (r : ℕ)
    (ft : Option Fault) : insertEndD c r s ft = lift (insertEndT c r s ft) := by
  rw [insertEndD, insertEndT]
  by_cases hg : s.nodeCount > s.maxCount
  · rw [if_pos hg, if_pos hg, growD, countD_ok h hn, ok_bind]
    by_cases hft : ft = some .table
    · rw [growT, if_pos hft]
      rfl
    · rcases growT_spec h (s.logSize + 2) hft with ⟨s', h1, h2, h3⟩ | ⟨s', l', i, h1, _⟩
      · rw [h1]
        simp only [lift_some, ok_bind]
        rw [countD_ok h2 (h3.trans hn)]
        simp only [ok_bind]
        rw [countD_ok h2 (h3.trans hn)]
        rfl
      · rw [h1]
        rfl
  · rw [if_neg hg, if_neg hg, countD_ok h hn]
    rfl

theorem insertEndD_failed {s : State K V} {l : List (Entry K V)} (h : InvT c s l) (hn : s.nodeCount ≠ links l) (r : ℕ)
    (ft : Option Fault) : insertEndD c r s ft = failed := by
  rw [insertEndD]
  by_cases hg : s.nodeCount > s.maxCount
  · rw [if_pos hg, growD, countD_failed h hn]
    rfl
  · rw [if_neg hg, countD_failed h hn]
    rfl

theorem insertEndT_count {s : State K V} {l : List (Entry K V)} (h : InvT c s l) {n : ℕ} (hn : s.nodeCount = links l + n)
    (r : ℕ) {ft : Option Fault} (hft : ft ≠ some .table) :
    (∃ s', insertEndT c r s ft = some (.on (true, r) s') ∧ InvT c s' l ∧ s'.nodeCount = links l + n) ∨
    ∃ s' l' i m, insertEndT c r s ft = some (.threw s') ∧ ft = some (.rehash i) ∧ InvT c s' l' ∧
      s'.nodeCount = links l' + m ∧ n < m := by
  unfold insertEndT
  split
  · rcases growT_spec h (s.logSize + 2) hft with ⟨s', h1, h2, h3⟩ | ⟨s', l', i, h1, h2, h3, h4, h5, h6⟩
    · exact .inl ⟨s', by rw [h1], h2, h3.trans hn⟩
    · have := links_lt h3 h6
      exact .inr ⟨s', l', i, s.nodeCount - links l', by rw [h1], h2, h4, by omega, by omega⟩
  · exact .inl ⟨s, rfl, h, hn⟩

/-- What `insert` does is what it does up to line 214 and then the end. -/
theorem insertT_mid (s : State K V) (k : K) (v : V) {ft : Option Fault} (hh : ft ≠ some .hash) :
    insertT c s k v ft = match insertMid c s (c.hash k &&& s.mask) k v ft with
      | .undef => none
      | .threw s' => some (.threw s')
      | .found h => some (.on (false, h) s)
      | .linked r s' => insertEndT c r s' ft := by
  rw [insertT, if_neg hh, insertMid]
  simp only
  cases s.table[c.hash k &&& s.mask]? with
  | none => rfl
  | some p =>
    cases p with
    | none => simp only; cases makeNodeT s k v ft <;> rfl
    | some t =>
      simp only
      rcases walkT c s.nodes k s.nodes.length (Fault.inEqual ft) t with _ | _ | _ | e
      · rfl
      · rfl
      · rfl
      · simp only
        cases makeNodeT s k v ft with
        | threw s => rfl
        | on r s =>
          simp only
          by_cases ha : c.atEnd = true
          · rw [if_pos ha, if_pos ha]; cases setNext s.nodes e (some r) <;> rfl
          · rw [if_neg ha, if_neg ha]; cases setNext s.nodes r (some t) <;> rfl

theorem insertMid_maxCount (s : State K V) (m hv : ℕ) (k : K) (v : V) (ft : Option Fault) :
    insertMid c { s with maxCount := m } hv k v ft = match insertMid c s hv k v ft with
      | .undef => .undef
      | .threw s' => .threw { s' with maxCount := m }
      | .found h => .found h
      | .linked r s' => .linked r { s' with maxCount := m } := by
  rw [insertMid, insertMid]
  simp only [makeNodeT, makeNode]
  cases s.table[hv]? with
  | none => rfl
  | some p =>
    cases p with
    | none =>
      simp only
      by_cases hf : ft = some .alloc ∨ ft = some .copy
      · simp only [if_pos hf]
      · simp only [if_neg hf]
    | some t =>
      simp only
      rcases walkT c s.nodes k s.nodes.length (Fault.inEqual ft) t with _ | _ | _ | e
      · rfl
      · rfl
      · rfl
      · simp only
        by_cases hf : ft = some .alloc ∨ ft = some .copy
        · simp only [if_pos hf]
        · simp only [if_neg hf]
          by_cases ha : c.atEnd = true
          · simp only [if_pos ha]
            cases setNext (s.nodes ++ [some ⟨k, v, none⟩]) e (some s.nodes.length) <;> rfl
          · simp only [if_neg ha]
            cases setNext (s.nodes ++ [some (⟨k, v, none⟩ : Node K V)]) s.nodes.length (some t) <;> rfl

/-- What the count is up to line 214. -/
theorem insertMid_count (s : State K V) (hv : ℕ) (k : K) (v : V) (ft : Option Fault) :
    match insertMid c s hv k v ft with
      | .undef => True
      | .threw s' => (s' = s ∧ ∃ i, ft = some (.equal i)) ∨
          (s' = { s with nodeCount := s.nodeCount + 1 } ∧ (ft = some .alloc ∨ ft = some .copy))
      | .found _ => True
      | .linked _ s' => s'.nodeCount = s.nodeCount + 1 ∧ ft ≠ some .alloc ∧ ft ≠ some .copy := by
  rw [insertMid]
  simp only [makeNodeT, makeNode]
  cases s.table[hv]? with
  | none => trivial
  | some p =>
    cases p with
    | none =>
      simp only
      by_cases hf : ft = some .alloc ∨ ft = some .copy
      · simp only [if_pos hf]
        exact .inr ⟨by trivial, hf⟩
      · simp only [if_neg hf]
        exact ⟨by trivial, fun h => hf (.inl h), fun h => hf (.inr h)⟩
    | some t =>
      simp only
      cases hw : walkT c s.nodes k s.nodes.length (Fault.inEqual ft) t with
      | none => trivial
      | some w =>
        rcases w with _ | _ | e
        · simp only
          left
          refine ⟨by trivial, ?_⟩
          rcases walkT_eq (c := c) (ns := s.nodes) k s.nodes.length (Fault.inEqual ft) t with ⟨_, w⟩ | ⟨w, _⟩
          · match ft, w with
            | some (.equal i), _ => exact ⟨i, rfl⟩
          · rw [hw] at w
            cases hx : walk c s.nodes k s.nodes.length t <;> rw [hx] at w <;> cases w
        · trivial
        · simp only
          by_cases hf : ft = some .alloc ∨ ft = some .copy
          · simp only [if_pos hf]
            exact .inr ⟨by trivial, hf⟩
          · simp only [if_neg hf]
            have hf' : ft ≠ some .alloc ∧ ft ≠ some .copy := ⟨fun h => hf (.inl h), fun h => hf (.inr h)⟩
            by_cases ha : c.atEnd = true
            · simp only [if_pos ha]
              cases setNext (s.nodes ++ [some ⟨k, v, none⟩]) e (some s.nodes.length)
              · trivial
              · exact ⟨rfl, hf'⟩
            · simp only [if_neg ha]
              cases setNext (s.nodes ++ [some (⟨k, v, none⟩ : Node K V)]) s.nodes.length (some t)
              · trivial
              · exact ⟨rfl, hf'⟩

/-- The sizes up to line 214. -/
theorem insertMid_sizes (s : State K V) (hv : ℕ) (k : K) (v : V) (ft : Option Fault) {r : ℕ} {s' : State K V}
    (h : insertMid c s hv k v ft = .linked r s') :
    s'.table.length = s.table.length ∧ s'.tableSize = s.tableSize ∧ s'.maxCount = s.maxCount := by
  rw [insertMid] at h
  simp only [makeNodeT, makeNode] at h
  by_cases hf : ft = some .alloc ∨ ft = some .copy
  · simp only [if_pos hf] at h
    split at h
    · cases h
    · cases h
    · split at h <;> cases h
  · simp only [if_neg hf] at h
    split at h
    · cases h
    · cases h
      exact ⟨by simp, rfl, rfl⟩
    · split at h
      · cases h
      · cases h
      · cases h
      · split at h
        · split at h <;> cases h
          exact ⟨rfl, rfl, rfl⟩
        · split at h <;> cases h
          exact ⟨by simp, rfl, rfl⟩

/-- The fault as far as it matters up to line 214. -/
def early : Option Fault → Option Fault
  | some .table => none
  | some (.rehash _) => none
  | ft => ft

theorem insertMid_early (s : State K V) (hv : ℕ) (k : K) (v : V) (ft : Option Fault) :
    insertMid c s hv k v (early ft) = insertMid c s hv k v ft := by
  match ft with
  | none => rfl
  | some .hash => rfl
  | some (.equal _) => rfl
  | some .alloc => rfl
  | some .copy => rfl
  | some .table => simp [early, insertMid, makeNodeT, Fault.inEqual]
  | some (.rehash _) => simp [early, insertMid, makeNodeT, Fault.inEqual]

theorem InvT.maxCount {s : State K V} {l : List (Entry K V)} (h : InvT c s l) (n : ℕ) :
    InvT c { s with maxCount := n } l := ⟨⟨h.sized.size, h.sized.mask⟩, h.kv, h.distinct, h.buckets⟩

theorem InvT.of_maxCount {s : State K V} {l : List (Entry K V)} {n : ℕ} (h : InvT c { s with maxCount := n } l) :
    InvT c s l := ⟨⟨h.sized.size, h.sized.mask⟩, h.kv, h.distinct, h.buckets⟩

theorem insertMid_spec (hc : c.Lawful) {s : State K V} {l : List (Entry K V)} (h : InvT c s l) (k : K) (v : V)
    {ft : Option Fault} (hh : ft ≠ some .hash) :
    match insertMid c s (c.hash k &&& s.mask) k v ft with
      | .undef => False
      | .threw s' => (s' = s ∧ ∃ i, ft = some (.equal i)) ∨
          (s' = { s with nodeCount := s.nodeCount + 1 } ∧ (ft = some .alloc ∨ ft = some .copy) ∧ findEntry c.eq l k = none)
      | .found i => findEntry c.eq l k = some i
      | .linked _ s' => findEntry c.eq l k = none ∧ InvT c s' (l ++ [⟨k, v, true⟩]) ∧ s'.nodeCount = s.nodeCount + 1 ∧
          ft ≠ some .alloc ∧ ft ≠ some .copy := by
  have he : early ft ≠ some .table := by
    match ft with
    | none => nofun
    | some .hash => nofun
    | some (.equal _) => nofun
    | some .alloc => nofun
    | some .copy => nofun
    | some .table => nofun
    | some (.rehash _) => nofun
  have he' : early ft ≠ some .hash := by
    match ft, hh with
    | none, _ => nofun
    | some (.equal _), _ => nofun
    | some .alloc, _ => nofun
    | some .copy, _ => nofun
    | some .table, _ => nofun
    | some (.rehash _), _ => nofun
  have hs := insertT_spec hc (h.maxCount (s.nodeCount + 1)) k v he
  have hcount := insertMid_count (c := c) s (c.hash k &&& s.mask) k v ft
  rw [insertT_mid _ k v he', insertMid_maxCount, insertMid_early] at hs
  change InsertSpec c l k v (early ft) (match (match insertMid c s (c.hash k &&& s.mask) k v ft with
      | .undef => .undef
      | .threw s' => .threw { s' with maxCount := s.nodeCount + 1 }
      | .found h => .found h
      | .linked r s' => .linked r { s' with maxCount := s.nodeCount + 1 } : Mid K V) with
      | .undef => none
      | .threw s' => some (.threw s')
      | .found h => some (.on (false, h) _)
      | .linked r s' => insertEndT c r s' (early ft)) at hs
  generalize insertMid c s (c.hash k &&& s.mask) k v ft = m at hs hcount ⊢
  cases m with
  | undef =>
    simp only at hs
    rcases hs with ⟨_, _, _, h1, _⟩ | ⟨_, h1, _⟩ | ⟨_, _, _, h1, _⟩ <;> cases h1
  | threw s' =>
    simp only at hs hcount ⊢
    rcases hcount with hcount | ⟨h1, h2⟩
    · exact .inl hcount
    · refine .inr ⟨h1, h2, ?_⟩
      rcases hs with ⟨_, _, _, h3, _⟩ | ⟨_, _, h3, _⟩ | ⟨_, _, _, _, _, h3, _⟩
      · cases h3
      · rcases h2 with rfl | rfl
        · obtain ⟨_, _, e, h3⟩ := h3; cases e; exact h3
        · obtain ⟨_, _, e, h3⟩ := h3; cases e; exact h3
      · exact h3
  | found i =>
    simp only at hs ⊢
    rcases hs with ⟨_, _, _, h3, h4, _⟩ | ⟨_, h3, _⟩ | ⟨_, _, _, h3, _⟩
    · cases h3
      simp only [answer] at h4
      split at h4
      · cases h4; assumption
      · cases h4
    · cases h3
    · cases h3
  | linked r s' =>
    simp only at hs hcount ⊢
    rw [insertEndT, if_neg (by simp only; omega)] at hs
    rcases hs with ⟨_, _, _, h3, h4, _, h5⟩ | ⟨_, h3, _⟩ | ⟨_, _, _, h3, _⟩
    · cases h3
      simp only [answer] at h4
      split at h4
      · cases h4
      · cases h4
        exact ⟨by assumption, h5.of_maxCount, hcount⟩
    · cases h3
    · cases h3

theorem links_new (l : List (Entry K V)) (k : K) (v : V) : links (l ++ [⟨k, v, true⟩]) = links l + 1 := by
  simp [links]

theorem InvT.inside {s : State K V} {l : List (Entry K V)} (h : InvT c s l) (k : K) :
    assert (decide (c.hash k &&& s.mask < s.table.length)) = ok () := by
  obtain ⟨ch, hB, _⟩ := h.buckets
  have := h.sized.lt (c.hash k)
  rw [h.sized.and, hB.len, decide_eq_true this]
  rfl

theorem insertD_mid {s : State K V} {l : List (Entry K V)} (h : InvT c s l) (k : K) (v : V) {ft : Option Fault}
    (hh : ft ≠ some .hash) :
    insertD c s k v ft = match insertMid c s (c.hash k &&& s.mask) k v ft with
      | .undef => ub
      | .threw s' => ok (.threw s')
      | .found h => ok (.on (false, h) s)
      | .linked r s' => insertEndD c r s' ft := by
  rw [insertD, if_neg hh, h.inside, ok_bind]
  cases insertMid c s (c.hash k &&& s.mask) k v ft <;> rfl

/-- The debug build agrees, or it fails at the insertion of a new key when the count is wrong. -/
theorem insertD_cases (hc : c.Lawful) {s : State K V} {l : List (Entry K V)} (h : InvT c s l) (k : K) (v : V)
    (ft : Option Fault) :
    insertD c s k v ft = lift (insertT c s k v ft) ∨
    (insertD c s k v ft = failed ∧ findEntry c.eq l k = none ∧ s.nodeCount ≠ links l ∧
      ft ≠ some .hash ∧ ft ≠ some .alloc ∧ ft ≠ some .copy) := by
  by_cases hh : ft = some .hash
  · left
    rw [insertD, insertT, if_pos hh, if_pos hh]
    rfl
  have hs := insertMid_spec hc h k v hh
  rw [insertD_mid h k v hh, insertT_mid s k v hh]
  generalize insertMid c s (c.hash k &&& s.mask) k v ft = m at hs ⊢
  cases m with
  | undef => exact hs.elim
  | threw s' => exact .inl rfl
  | found i => exact .inl rfl
  | linked r s' =>
    simp only at hs ⊢
    obtain ⟨h1, h2, h3, h4, h5⟩ := hs
    by_cases hn : s.nodeCount = links l
    · exact .inl (insertEndD_ok h2 (by rw [links_new]; omega) r ft)
    · exact .inr ⟨insertEndD_failed h2 (by rw [links_new]; omega) r ft, h1, hn, hh, h4, h5⟩

/-- The insertion of a new key fails when the count is wrong. -/
theorem insertD_failed (hc : c.Lawful) {s : State K V} {l : List (Entry K V)} (h : InvT c s l) (hn : s.nodeCount ≠ links l)
    (k : K) (v : V) (hno : findEntry c.eq l k = none) {ft : Option Fault}
    (hft : ft = none ∨ ft = some .table ∨ ∃ i, ft = some (.rehash i)) : insertD c s k v ft = failed := by
  have hh : ft ≠ some .hash := by rcases hft with rfl | rfl | ⟨i, rfl⟩ <;> nofun
  have hs := insertMid_spec hc h k v hh
  rw [insertD_mid h k v hh]
  generalize insertMid c s (c.hash k &&& s.mask) k v ft = m at hs ⊢
  cases m with
  | undef => exact hs.elim
  | threw s' =>
    rcases hs with ⟨_, i, rfl⟩ | ⟨_, h1, _⟩
    · rcases hft with h1 | h1 | ⟨i, h1⟩ <;> cases h1
    · rcases h1 with rfl | rfl <;> rcases hft with h1 | h1 | ⟨i, h1⟩ <;> cases h1
  | found i => simp only at hs; rw [hno] at hs; cases hs
  | linked r s' =>
    simp only at hs ⊢
    obtain ⟨h1, h2, h3, _⟩ := hs
    exact insertEndD_failed h2 (by rw [links_new]; omega) r ft

theorem lookupD_eq {s : State K V} {l : List (Entry K V)} (h : InvT c s l) (k : K) (ft : Option Fault) :
    lookupD c s k ft = lift (lookupT c s k ft) := by
  rw [lookupD]
  by_cases hh : ft = some .hash
  · rw [if_pos hh, lookupT, if_pos hh]
    rfl
  · rw [if_neg hh, h.inside, ok_bind]

theorem bind_lift {α β : Type} (x : Option α) (f : α → β) : (lift x >>= fun a => ok (f a)) = lift (x.map f) := by
  cases x <;> rfl

theorem stepD_cases (hc : c.Lawful) {s : State K V} {l : List (Entry K V)} (h : InvT c s l) (op : Op K V)
    (ft : Option Fault) :
    stepD c s op ft = lift (stepT c s op ft) ∨
    (stepD c s op ft = failed ∧ (∃ k v, op = .insert k v ∧ findEntry c.eq l k = none) ∧ s.nodeCount ≠ links l ∧
      ft ≠ some .hash ∧ ft ≠ some .alloc ∧ ft ≠ some .copy) := by
  cases op with
  | insert k v =>
    rcases insertD_cases hc h k v ft with h1 | ⟨h1, h2, h3⟩
    · left
      rw [stepD, stepT, h1, bind_lift]
    · right
      rw [stepD, h1]
      exact ⟨rfl, ⟨k, v, rfl, h2⟩, h3⟩
  | lookup k =>
    left
    rw [stepD, stepT, lookupD_eq h, bind_lift]
  | getEntry i => exact .inl rfl
  | setValue i v => exact .inl rfl

theorem links_set {l : List (Entry K V)} {i : ℕ} {e : Entry K V} (he : l[i]? = some e) (v : V) :
    links (l.set i { e with value := v }) = links l := by
  induction l generalizing i with
  | nil => rfl
  | cons a l ih =>
    cases i with
    | zero =>
      cases he
      simp [links, List.countP_cons]
    | succ i =>
      have := ih he
      simp only [links, List.set_cons_succ, List.countP_cons] at this ⊢
      omega

/-- How far the count is from the number of entries that are found, after one call. -/
theorem stepT_count (hc : c.Lawful) {s : State K V} {l : List (Entry K V)} (h : InvT c s l) {n : ℕ}
    (hn : s.nodeCount = links l + n) (op : Op K V) {ft : Option Fault} (hft : ft ≠ some .table) {o : Option (Out K V)}
    {s' : State K V} (hs : stepT c s op ft = some (o, s')) :
    ∃ l' n', InvT c s' l' ∧ s'.nodeCount = links l' + n' ∧ (Spoils ft o → n < n') ∧ (¬ Spoils ft o → n' = n) := by
  have quiet : ∀ l', InvT c s' l' → s'.nodeCount = links l' + n → ¬ Spoils ft o →
      ∃ l' n', InvT c s' l' ∧ s'.nodeCount = links l' + n' ∧ (Spoils ft o → n < n') ∧ (¬ Spoils ft o → n' = n) :=
    fun l' h1 h2 h3 => ⟨l', n, h1, h2, fun h4 => (h3 h4).elim, fun _ => rfl⟩
  cases op with
  | insert k v =>
    rw [stepT] at hs
    obtain ⟨r, hr, he⟩ := Option.map_eq_some_iff.mp hs
    by_cases hh : ft = some .hash
    · rw [insertT, if_pos hh] at hr
      cases hr
      cases he
      subst hh
      refine quiet l h hn ?_
      rintro ⟨_, h1 | h1 | ⟨i, h1⟩⟩ <;> cases h1
    have hm := insertMid_spec hc h k v hh
    rw [insertT_mid s k v hh] at hr
    generalize insertMid c s (c.hash k &&& s.mask) k v ft = m at hm hr
    cases m with
    | undef => exact hm.elim
    | threw s₁ =>
      cases hr
      cases he
      rcases hm with ⟨rfl, i, rfl⟩ | ⟨rfl, h1, h2⟩
      · refine quiet l h hn ?_
        rintro ⟨_, h1 | h1 | ⟨i, h1⟩⟩ <;> cases h1
      · refine ⟨l, n + 1, h.nodeCount _, ?_, fun _ => by omega, fun h3 => (h3 ⟨rfl, ?_⟩).elim⟩
        · show s.nodeCount + 1 = links l + (n + 1)
          omega
        · rcases h1 with h1 | h1
          · exact .inl h1
          · exact .inr (.inl h1)
    | found i =>
      cases hr
      cases he
      exact quiet l h hn (fun h1 => nomatch h1.1)
    | linked q s₁ =>
      simp only at hm hr
      obtain ⟨h1, h2, h3, h4, h5⟩ := hm
      rcases insertEndT_count h2 (n := n) (by rw [links_new]; omega) q hft with
        ⟨s₂, g1, g2, g3⟩ | ⟨s₂, l₂, i, m, g1, g2, g3, g4, g5⟩
      · rw [g1] at hr
        cases hr
        cases he
        exact quiet _ g2 g3 (fun h1 => nomatch h1.1)
      · rw [g1] at hr
        cases hr
        cases he
        exact ⟨l₂, m, g3, g4, fun _ => g5, fun hx => (hx ⟨rfl, .inr (.inr ⟨i, g2⟩)⟩).elim⟩
  | lookup k =>
    rw [stepT] at hs
    obtain ⟨r, hr, he⟩ := Option.map_eq_some_iff.mp hs
    cases he
    refine quiet l h hn ?_
    rintro ⟨hx, hy⟩
    rcases lookupT_spec hc h k ft with ⟨h1, _⟩ | ⟨h1, h2⟩
    · rw [h1] at hr
      cases hr
      cases hx
    · rcases hy with rfl | rfl | ⟨i, rfl⟩
      · obtain ⟨_, _, e, _⟩ := h2; cases e
      · obtain ⟨_, _, e, _⟩ := h2; cases e
      · exact h2.elim
  | getEntry i =>
    rw [stepT] at hs
    obtain ⟨r, hr, he⟩ := Option.map_eq_some_iff.mp hs
    cases he
    exact quiet l h hn (fun h1 => nomatch h1.1)
  | setValue i v =>
    rw [stepT] at hs
    obtain ⟨r, hr, he⟩ := Option.map_eq_some_iff.mp hs
    cases he
    have hv := setValueT_spec h i v
    cases hl : l[i]? with
    | none => rw [hv.1 hl] at hr; cases hr
    | some e =>
      obtain ⟨s₁, g1, g2⟩ := hv.2 e hl
      have hcount : s'.nodeCount = s.nodeCount := by
        rw [setValue] at hr
        split at hr <;> cases hr
        rfl
      rw [g1] at hr
      cases hr
      refine quiet _ g2 ?_ (fun h1 => nomatch h1.1)
      rw [links_set hl, hcount, hn]

/-- The state after a history. -/
theorem runT_count (hc : c.Lawful) : ∀ (cs : List (Op K V × Option Fault)) (s s' : State K V) (l : List (Entry K V)) (n : ℕ)
    (outs : List (Option (Out K V))), InvT c s l → s.nodeCount = links l + n → (∀ x ∈ cs, x.2 ≠ some .table) →
    runT c s cs = some (outs, s') →
    ∃ l' n', InvT c s' l' ∧ s'.nodeCount = links l' + n' ∧ n ≤ n' ∧ (Spoiled cs outs → n < n') ∧
      (¬ Spoiled cs outs → n' = n) ∧ (n = 0 → ¬ Spoiled cs outs → runD c s cs = ok (outs, s')) ∧
      (runD c s cs = ok (outs, s') ∨ runD c s cs = failed) := by
  intro cs
  induction cs with
  | nil =>
    intro s s' l n outs h hn _ hr
    cases hr
    exact ⟨l, n, h, hn, le_rfl, fun h => h.elim, fun _ => rfl, fun _ _ => rfl, .inl rfl⟩
  | cons x cs ih =>
    intro s s' l n outs h hn hft hr
    obtain ⟨op, ft⟩ := x
    rw [runT] at hr
    cases hstep : stepT c s op ft with
    | none =>
      rw [show stepT c s (op, ft).1 (op, ft).2 = none from hstep] at hr
      cases hr
    | some r =>
      obtain ⟨o, s₁⟩ := r
      rw [show stepT c s (op, ft).1 (op, ft).2 = some (o, s₁) from hstep] at hr
      simp only at hr
      split at hr
      · cases hr
      rename_i os s₂ heq
      cases hr
      obtain ⟨l₁, n₁, h1, h2, h3, h4⟩ := stepT_count hc h hn op (hft _ List.mem_cons_self) hstep
      obtain ⟨l₂, n₂, g1, g2, g3, g4, g5, g6, g7⟩ :=
        ih s₁ _ l₁ n₁ _ h1 h2 (fun x hx => hft x (List.mem_cons_of_mem _ hx)) heq
      have hn1 : n ≤ n₁ := by
        by_cases hx : Spoils ft o
        · exact (h3 hx).le
        · exact (h4 hx).ge
      have hD : stepD c s op ft = ok (o, s₁) →
          ∀ z, runD c s₁ cs = z → runD c s ((op, ft) :: cs) = z >>= fun q => ok (o :: q.1, q.2) := by
        intro hd z hz
        rw [runD, show stepD c s (op, ft).1 (op, ft).2 = _ from hd]
        simp only [ok_bind]
        rw [hz]
      refine ⟨l₂, n₂, g1, g2, hn1.trans g3, ?_, ?_, ?_, ?_⟩
      · rintro (hx | hx)
        · exact (h3 hx).trans_le g3
        · exact hn1.trans_lt (g4 hx)
      · intro hx
        rw [g5 (fun hy => hx (.inr hy)), h4 (fun hy => hx (.inl hy))]
      · rintro rfl hx
        have hd : stepD c s op ft = ok (o, s₁) := by
          rcases stepD_cases hc h op ft with hd | ⟨_, _, hd, _⟩
          · rw [hd, hstep]; rfl
          · omega
        rw [hD hd _ (g6 (h4 (fun hy => hx (.inl hy))) (fun hy => hx (.inr hy)))]
        rfl
      · rcases stepD_cases hc h op ft with hd | ⟨hd, _⟩
        · rw [hstep] at hd
          rcases g7 with g7 | g7
          · left; rw [hD hd _ g7]; rfl
          · right; rw [hD hd _ g7]; rfl
        · right
          rw [runD, show stepD c s (op, ft).1 (op, ft).2 = _ from hd]
          rfl

end Verif.HashTable
