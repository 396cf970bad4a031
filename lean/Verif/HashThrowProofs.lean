import Mathlib.Data.List.Forall2
import Verif.HashTableProofs
import Verif.HashThrowSpec

/-!
# Lemmas on `HashTable` with exceptions
-/

namespace Verif.HashTable

variable {K V : Type*} {c : Conf K} {ns : List (Option (Node K V))}

/-- It did not throw. -/
def Flow.On {A S : Type*} (fl : Flow A S) : Prop := ∃ a s, fl = .on a s

theorem growChainT_spec : ∀ (f : ℕ) (l : List ℕ) (p b : Option ℕ) (s : State K V) (ch : ℕ → List ℕ)
    (rest : List ℕ), Sized s → Buckets c s.nodes s.tableSize s.table ch → IsChain s.nodes p l →
    l.length ≤ f → (l ++ rest).Nodup → (∀ i ∈ l ++ rest, ¬ InCh s.tableSize ch i) →
    ∃ fl ch', growChainT c f p b s = some fl ∧ Buckets c fl.state.nodes s.tableSize fl.state.table ch' ∧
      (∀ i, InCh s.tableSize ch' i → InCh s.tableSize ch i ∨ i ∈ l) ∧
      (fl.On → ∀ i, InCh s.tableSize ch i ∨ i ∈ l → InCh s.tableSize ch' i) ∧
      fl.state.tableSize = s.tableSize ∧ fl.state.logSize = s.logSize ∧ fl.state.mask = s.mask ∧
      kv fl.state.nodes = kv s.nodes ∧
      (fl.On → ∀ i ∈ rest, nodeAt fl.state.nodes i = nodeAt s.nodes i) ∧
      (b = none → ∃ s', fl = .on none s') ∧
      (¬ fl.On → ∃ i ∈ l, ¬ InCh s.tableSize ch' i) ∧ fl.state.nodeCount = s.nodeCount := by
  intro f l
  induction l generalizing f with
  | nil =>
    intro p b s ch rest hs h hc _ _ _
    cases p with
    | none =>
      refine ⟨.on b s, ch, ?_, h, by simp, by simp, rfl, rfl, rfl, rfl, fun _ _ _ => rfl, ?_, ?_, rfl⟩
      · cases f <;> rfl
      · rintro rfl
        exact ⟨s, rfl⟩
      · intro hn
        exact absurd ⟨_, _, rfl⟩ hn
    | some i => exact hc.elim
  | cons q l ih =>
    intro p b s ch rest hs h hc hf hnd hdis
    cases p with
    | none => exact hc.elim
    | some i =>
      obtain ⟨rfl, n, h1, h2⟩ := hc
      cases f with
      | zero => simp at hf
      | succ f =>
        obtain ⟨ns, k1, k2, k3⟩ := setNext_spec h1 none
        have hqn : ¬ InCh s.tableSize ch i := hdis i (by simp)
        have hns : ∀ j, j ≠ i → nodeAt ns j = nodeAt s.nodes j := fun j hj => by rw [k3, if_neg hj]
        have hne : ∀ b < s.tableSize, ∀ j ∈ ch b, j ≠ i := by
          intro b hb j hj heq
          subst heq
          exact hqn ⟨b, hb, hj⟩
        have hB : Buckets c ns s.tableSize s.table ch := by
          refine ⟨h.len, fun b p hb => (h.chain b p hb).congr (fun j hj => ?_), h.nodup,
            fun b hb j hj => ?_⟩
          · have hbs : b < s.tableSize := by
              rw [← h.len]; exact (List.getElem?_eq_some_iff.mp hb).1
            rw [hns j (hne b hbs j hj)]
          · rw [hns j (hne b hb j hj)]; exact h.hash b hb j hj
        cases hb : tick b with
        | none =>
          refine ⟨.threw { s with nodes := ns }, ch, ?_, hB, fun _ => .inl, ?_, rfl, rfl, rfl, k2, ?_, ?_,
            fun _ => ⟨i, List.mem_cons_self, hqn⟩, rfl⟩
          · rw [growChainT]
            simp only [h1, k1, hb]
          · rintro ⟨_, _, hx⟩
            cases hx
          · rintro ⟨_, _, hx⟩
            cases hx
          · rintro rfl
            cases hb
        | some b' =>
          obtain ⟨s₁, ch₁, e1, e2, e3, e4, e5, e6, e7, e8, e9⟩ :=
            relink_spec (s := { s with nodes := ns }) (nq := { n with next := none }) ⟨hs.size, hs.mask⟩
              hB (q := i) (by show nodeAt ns i = _; rw [k3, if_pos rfl]) rfl hqn
          have hnd' := (List.nodup_cons.mp hnd)
          have hkeep : ∀ j ∈ l ++ rest, nodeAt s₁.nodes j = nodeAt s.nodes j := by
            intro j hj
            have hji : j ≠ i := by
              intro heq
              subst heq
              exact hnd'.1 hj
            rw [e9 j (hdis j (List.mem_cons_of_mem _ hj)) hji]
            exact hns j hji
          obtain ⟨fl, ch₂, f1, f2, f3, f3', f4, f5, f6, f8, f9, f10, f11, f12⟩ := ih f n.next b' s₁ ch₁ rest
            ⟨by rw [e4, e5]; exact hs.size, by rw [e6, e5]; exact hs.mask⟩ (by rw [e4]; exact e2)
            (h2.congr (fun j hj => by rw [hkeep j (List.mem_append_left _ hj)]))
            (by simp at hf; omega) hnd'.2 (by
              intro j hj hin
              rw [e4] at hin
              rcases (e3 j).mp hin with hin | heq
              · exact hdis j (List.mem_cons_of_mem _ hj) hin
              · subst heq
                exact hnd'.1 hj)
          rw [e4] at f2 f3 f4 f3' f11
          have e3' : ∀ j, InCh s.tableSize ch₁ j ↔ InCh s.tableSize ch j ∨ j = i := e3
          refine ⟨fl, ch₂, ?_, f2, ?_, ?_, f4, f5.trans e5, f6.trans e6,
            f8.trans (e8.trans k2), ?_, ?_, ?_, f12.trans e7⟩
          · rw [growChainT]
            simp only [h1, k1, hb, e1]
            exact f1
          · intro j hj
            rcases f3 j hj with hj | hj
            · rcases (e3' j).mp hj with hj | hj
              · exact .inl hj
              · exact .inr (by rw [hj]; exact List.mem_cons_self)
            · exact .inr (List.mem_cons_of_mem _ hj)
          · rintro hon j (hj | hj)
            · exact f3' hon j (.inl ((e3' j).mpr (.inl hj)))
            · rcases List.mem_cons.mp hj with hj | hj
              · exact f3' hon j (.inl ((e3' j).mpr (.inr hj)))
              · exact f3' hon j (.inr hj)
          · intro hon j hj
            rw [f9 hon j hj, hkeep j (List.mem_append_right _ hj)]
          · rintro rfl
            cases hb
            exact f10 rfl
          · intro hn
            obtain ⟨j, hj, hj'⟩ := f11 hn
            exact ⟨j, List.mem_cons_of_mem _ hj, hj'⟩

theorem growTableT_spec : ∀ (old : List (Option ℕ)) (ls : List (List ℕ)) (b : Option ℕ) (s : State K V)
    (ch : ℕ → List ℕ), Sized s → Buckets c s.nodes s.tableSize s.table ch →
    List.Forall₂ (IsChain s.nodes) old ls → ls.flatten.Nodup →
    (∀ i ∈ ls.flatten, ¬ InCh s.tableSize ch i) →
    ∃ fl ch', growTableT c old b s = some fl ∧ Buckets c fl.state.nodes s.tableSize fl.state.table ch' ∧
      (∀ i, InCh s.tableSize ch' i → InCh s.tableSize ch i ∨ i ∈ ls.flatten) ∧
      (fl.On → ∀ i, InCh s.tableSize ch i ∨ i ∈ ls.flatten → InCh s.tableSize ch' i) ∧
      fl.state.tableSize = s.tableSize ∧ fl.state.logSize = s.logSize ∧ fl.state.mask = s.mask ∧
      kv fl.state.nodes = kv s.nodes ∧ (b = none → ∃ s', fl = .on none s') ∧
      (¬ fl.On → ∃ i ∈ ls.flatten, ¬ InCh s.tableSize ch' i) ∧ fl.state.nodeCount = s.nodeCount := by
  intro old
  induction old with
  | nil =>
    intro ls b s ch hs h hf _ _
    cases hf
    exact ⟨.on b s, ch, rfl, h, by simp, by simp, rfl, rfl, rfl, rfl, by rintro rfl; exact ⟨s, rfl⟩,
      fun hn => absurd ⟨_, _, rfl⟩ hn, rfl⟩
  | cons p old ih =>
    intro ls b s ch hs h hf hnd hdis
    cases hf with
    | @cons _ l _ ls hc hf =>
      rw [List.flatten_cons] at hnd hdis
      have hlen : l.length ≤ s.nodes.length := by
        have h1 : l.Subperm (List.range s.nodes.length) := by
          apply List.subperm_of_subset (hnd.of_append_left)
          intro i hi
          obtain ⟨n, g⟩ := hc.exists_node i hi
          exact List.mem_range.mpr (nodeAt_lt g)
        simpa using h1.length_le
      obtain ⟨fl, ch₁, e1, e2, e3, e3', e4, e5, e6, e8, e9, e10, e11, e12⟩ :=
        growChainT_spec s.nodes.length l p b s ch ls.flatten hs h hc hlen hnd hdis
      cases fl with
      | threw s₁ =>
        refine ⟨.threw s₁, ch₁, ?_, e2, ?_, ?_, e4, e5, e6, e8, ?_, ?_, e12⟩
        · rw [growTableT]
          simp only [e1]
        · intro j hj
          rw [List.flatten_cons, List.mem_append]
          rcases e3 j hj with hj | hj
          · exact .inl hj
          · exact .inr (.inl hj)
        · rintro ⟨_, _, hx⟩
          cases hx
        · intro hb
          obtain ⟨_, hx⟩ := e10 hb
          cases hx
        · intro hn
          obtain ⟨j, hj, hj'⟩ := e11 hn
          exact ⟨j, by rw [List.flatten_cons]; exact List.mem_append_left _ hj, hj'⟩
      | on b' s₁ =>
        have e4 : s₁.tableSize = s.tableSize := e4
        have e3' := e3' ⟨_, _, rfl⟩
        have e9 : ∀ i ∈ ls.flatten, nodeAt s₁.nodes i = nodeAt s.nodes i := e9 ⟨_, _, rfl⟩
        have hf' : List.Forall₂ (IsChain s₁.nodes) old ls := by
          rw [List.forall₂_iff_get] at hf ⊢
          refine ⟨hf.1, fun i h₁ h₂ => (hf.2 i h₁ h₂).congr (fun j hj => ?_)⟩
          rw [e9 j (List.mem_flatten.mpr ⟨_, List.get_mem _ _, hj⟩)]
        obtain ⟨fl, ch₂, f1, f2, f3, f3', f4, f5, f6, f8, f10, f11, f12⟩ := ih ls b' s₁ ch₁
          ⟨(by rw [e4]; exact hs.size.trans (congrArg _ (Eq.symm e5))),
            Eq.trans e6 (hs.mask.trans (by rw [show s₁.logSize = s.logSize from e5]))⟩
          (by rw [e4]; exact e2) hf' hnd.of_append_right (by
            intro j hj hin
            rw [e4] at hin
            rcases e3 j hin with hin | hin
            · exact hdis j (List.mem_append_right _ hj) hin
            · exact (List.disjoint_of_nodup_append hnd) hin hj)
        rw [e4] at f2 f3 f4 f3' f11
        refine ⟨fl, ch₂, ?_, f2, ?_, ?_, f4, f5.trans e5, f6.trans e6, f8.trans e8, ?_, ?_, f12.trans e12⟩
        · rw [growTableT]
          simp only [e1]
          exact f1
        · intro j hj
          rw [List.flatten_cons, List.mem_append]
          rcases f3 j hj with hj | hj
          · rcases e3 j hj with hj | hj
            · exact .inl hj
            · exact .inr (.inl hj)
          · exact .inr (.inr hj)
        · intro hon j hj
          rw [List.flatten_cons, List.mem_append] at hj
          rcases hj with hj | hj | hj
          · exact f3' hon j (.inl (e3' j (.inl hj)))
          · exact f3' hon j (.inl (e3' j (.inr hj)))
          · exact f3' hon j (.inr hj)
        · intro hb
          obtain ⟨s', hx⟩ := e10 hb
          cases hx
          exact f10 rfl
        · intro hn
          obtain ⟨j, hj, hj'⟩ := f11 hn
          exact ⟨j, by rw [List.flatten_cons]; exact List.mem_append_right _ hj, hj'⟩

/-- The invariant of the table, with all entries that were made. -/
structure InvT (c : Conf K) (s : State K V) (l : List (Entry K V)) : Prop where
  sized : Sized s
  kv : kv s.nodes = l.map (fun e => some (e.key, e.value))
  distinct : l.Pairwise (fun a b => a.linked = true → b.linked = true → c.eq a.key b.key = false)
  buckets : ∃ ch, Buckets c s.nodes s.tableSize s.table ch ∧
    ∀ i, InCh s.tableSize ch i ↔ ∃ e, l[i]? = some e ∧ e.linked = true

theorem invT_mk (nbits : ℕ) : InvT c (mk nbits : State K V) [] := by
  obtain ⟨ch, h1, h2⟩ := (inv_mk (c := c) (V := V) nbits).buckets
  refine ⟨⟨rfl, rfl⟩, rfl, .nil, ch, h1, fun i => (h2 i).trans ?_⟩
  simp [mk]

theorem InvT.nodes_length {s : State K V} {l : List (Entry K V)} (h : InvT c s l) :
    s.nodes.length = l.length := by
  rw [← kv_length, h.kv, List.length_map]

theorem InvT.nodeAt_eq {s : State K V} {l : List (Entry K V)} (h : InvT c s l) {i : ℕ} {n : Node K V}
    (hn : nodeAt s.nodes i = some n) : ∃ e, l[i]? = some e ∧ e.key = n.key ∧ e.value = n.value := by
  have := kv_nodeAt hn
  rw [h.kv, List.getElem?_map] at this
  cases hl : l[i]? with
  | none => rw [hl] at this; cases this
  | some e =>
    rw [hl] at this
    simp only [Option.map_some, Option.some.injEq, Prod.mk.injEq] at this
    exact ⟨e, rfl, this⟩

theorem InvT.exists_nodeAt {s : State K V} {l : List (Entry K V)} (h : InvT c s l) {i : ℕ} {e : Entry K V}
    (hl : l[i]? = some e) : ∃ nx, nodeAt s.nodes i = some ⟨e.key, e.value, nx⟩ := by
  have : (HashTable.kv s.nodes)[i]? = some (some (e.key, e.value)) := by
    rw [h.kv, List.getElem?_map, hl]; rfl
  rw [HashTable.kv, List.getElem?_map] at this
  obtain ⟨a, ha, hb⟩ := Option.map_eq_some_iff.mp this
  obtain ⟨n, hn, he⟩ := Option.map_eq_some_iff.mp hb
  obtain ⟨h1, h2⟩ := Prod.mk.inj he
  refine ⟨n.next, ?_⟩
  rw [nodeAt, ha, hn, ← h1, ← h2]
  rfl

theorem findEntry_of_mem (hc : c.Lawful) {s : State K V} {l : List (Entry K V)} (h : InvT c s l) {k : K} {i : ℕ}
    {e : Entry K V} (hl : l[i]? = some e) (hk : e.linked = true) (heq : c.eq e.key k = true) :
    findEntry c.eq l k = some i := by
  obtain ⟨hi, hl'⟩ := List.getElem?_eq_some_iff.mp hl
  rw [findEntry, List.findIdx?_eq_some_iff_getElem]
  refine ⟨hi, by rw [hl', hk]; exact heq, ?_⟩
  intro j hj
  have := List.pairwise_iff_getElem.mp h.distinct j i (by omega) hi hj
  rw [hl'] at this
  intro hcon
  obtain ⟨h1, h2⟩ := Bool.and_eq_true_iff.mp hcon
  have h3 := hc.trans _ _ _ h2 (hc.symm _ _ heq)
  rw [this h1 hk] at h3
  cases h3

theorem findEntry_none (hc : c.Lawful) {s : State K V} {l : List (Entry K V)} (h : InvT c s l)
    {ch : ℕ → List ℕ} (hB : Buckets c s.nodes s.tableSize s.table ch)
    (hall : ∀ i, InCh s.tableSize ch i ↔ ∃ e, l[i]? = some e ∧ e.linked = true) {k : K}
    (hno : ∀ i ∈ ch (c.hash k % s.tableSize), ∀ n, nodeAt s.nodes i = some n → c.eq n.key k = false) :
    findEntry c.eq l k = none := by
  rw [findEntry, List.findIdx?_eq_none_iff]
  intro e he
  obtain ⟨i, hi⟩ := List.mem_iff_getElem?.mp he
  by_contra hcon
  obtain ⟨hk, heq⟩ : e.linked = true ∧ c.eq e.key k = true := by simpa using hcon
  obtain ⟨nx, hn⟩ := h.exists_nodeAt hi
  obtain ⟨b, hb, hib⟩ := (hall i).mpr ⟨e, hi, hk⟩
  obtain ⟨n, g1, g2⟩ := hB.hash b hb i hib
  rw [hn] at g1
  cases g1
  have hmem : i ∈ ch (c.hash k % s.tableSize) := by
    rw [← hc.hash _ _ heq, show c.hash e.key % s.tableSize = b from g2]
    exact hib
  have := hno i hmem _ hn
  rw [heq] at this
  cases this

/-- What a search in a chain finds. -/
theorem findEntry_found (hc : c.Lawful) {s : State K V} {l : List (Entry K V)} (h : InvT c s l)
    {ch : ℕ → List ℕ} (hall : ∀ i, InCh s.tableSize ch i ↔ ∃ e, l[i]? = some e ∧ e.linked = true) {k : K} {i b : ℕ}
    {n : Node K V} (hb : b < s.tableSize) (hi : i ∈ ch b) (hn : nodeAt s.nodes i = some n)
    (heq : c.eq n.key k = true) : findEntry c.eq l k = some i := by
  obtain ⟨e, he, hk⟩ := (hall i).mp ⟨b, hb, hi⟩
  obtain ⟨e', he', h1, _⟩ := h.nodeAt_eq hn
  rw [he] at he'
  cases he'
  exact findEntry_of_mem hc h he hk (by rw [h1]; exact heq)

theorem walkT_eq (k : K) : ∀ (f : ℕ) (b : Option ℕ) (i : ℕ),
    (walkT c ns k f b i = some none ∧ b ≠ none) ∨
    (walkT c ns k f b i = (walk c ns k f i).map some ∧ (b = some 0 → walk c ns k f i = none)) := by
  intro f
  induction f with
  | zero => intro b i; exact .inr ⟨rfl, fun _ => rfl⟩
  | succ f ih =>
    intro b i
    rw [walkT, walk]
    cases nodeAt ns i with
    | none => exact .inr ⟨rfl, fun _ => rfl⟩
    | some n =>
      simp only
      cases hb : tick b with
      | none => exact .inl ⟨rfl, by rintro rfl; cases hb⟩
      | some b' =>
        have h0 : b ≠ some 0 := by rintro rfl; cases hb
        simp only
        split
        · exact .inr ⟨rfl, fun h => absurd h h0⟩
        · cases n.next with
          | none => exact .inr ⟨rfl, fun h => absurd h h0⟩
          | some j =>
            rcases ih b' j with ⟨h1, h2⟩ | ⟨h1, _⟩
            · exact .inl ⟨h1, by rintro rfl; cases hb; exact h2 rfl⟩
            · exact .inr ⟨h1, fun h => absurd h h0⟩

theorem lookupLoopT_eq (k : K) : ∀ (f : ℕ) (b : Option ℕ) (p : Option ℕ),
    (lookupLoopT c ns k f b p = some none ∧ b ≠ none ∧ p ≠ none) ∨
    (lookupLoopT c ns k f b p = (lookupLoop c ns k f p).map some ∧
      (b = some 0 → p = none ∨ lookupLoop c ns k f p = none)) := by
  intro f
  induction f with
  | zero =>
    intro b p
    cases p with
    | none => exact .inr ⟨rfl, fun _ => .inl rfl⟩
    | some i => exact .inr ⟨rfl, fun _ => .inr rfl⟩
  | succ f ih =>
    intro b p
    cases p with
    | none => exact .inr ⟨rfl, fun _ => .inl rfl⟩
    | some i =>
      rw [lookupLoopT, lookupLoop]
      cases nodeAt ns i with
      | none => exact .inr ⟨rfl, fun _ => .inr rfl⟩
      | some n =>
        simp only
        cases hb : tick b with
        | none => exact .inl ⟨rfl, (by rintro rfl; cases hb), nofun⟩
        | some b' =>
          have h0 : b ≠ some 0 := by rintro rfl; cases hb
          simp only
          split
          · exact .inr ⟨rfl, fun h => absurd h h0⟩
          · rcases ih b' n.next with ⟨h1, h2, _⟩ | ⟨h1, _⟩
            · exact .inl ⟨h1, by rintro rfl; cases hb; exact h2 rfl, nofun⟩
            · exact .inr ⟨h1, fun h => absurd h h0⟩

/-- The entries when only some of them are still linked. -/
theorem exists_shrunk {l : List (Entry K V)} {size : ℕ} {ch : ℕ → List ℕ}
    (h : ∀ i, InCh size ch i → ∃ e, l[i]? = some e ∧ e.linked = true) :
    ∃ l', Shrunk l l' ∧ ∀ i, InCh size ch i ↔ ∃ e, l'[i]? = some e ∧ e.linked = true := by
  classical
  refine ⟨l.mapIdx (fun i e => { e with linked := decide (InCh size ch i) }), ?_, ?_⟩
  · rw [Shrunk, List.forall₂_iff_get]
    refine ⟨by simp, fun i h₁ h₂ => ?_⟩
    simp only [List.get_eq_getElem, List.getElem_mapIdx, true_and]
    intro hin
    obtain ⟨e, he, hk⟩ := h i (of_decide_eq_true hin)
    obtain ⟨_, he⟩ := List.getElem?_eq_some_iff.mp he
    rw [he]
    exact hk
  · intro i
    constructor
    · intro hin
      obtain ⟨e, he, hk⟩ := h i hin
      refine ⟨{ e with linked := decide (InCh size ch i) }, ?_, decide_eq_true hin⟩
      rw [List.getElem?_mapIdx, he]
      rfl
    · rintro ⟨e, he, hk⟩
      rw [List.getElem?_mapIdx] at he
      obtain ⟨e₀, he₀, rfl⟩ := Option.map_eq_some_iff.mp he
      exact of_decide_eq_true hk

theorem Shrunk.kv {l l' : List (Entry K V)} (h : Shrunk l l') :
    l'.map (fun e => some (e.key, e.value)) = l.map (fun e => some (e.key, e.value)) := by
  induction h with
  | nil => rfl
  | cons h1 _ ih => rw [List.map_cons, List.map_cons, ih, h1.1, h1.2.1]

theorem Shrunk.distinct {eq : K → K → Bool} {l l' : List (Entry K V)} (h : Shrunk l l')
    (hd : l.Pairwise (fun a b => a.linked = true → b.linked = true → eq a.key b.key = false)) :
    l'.Pairwise (fun a b => a.linked = true → b.linked = true → eq a.key b.key = false) := by
  obtain ⟨h1, h2⟩ := List.forall₂_iff_get.mp h
  rw [List.pairwise_iff_getElem] at hd ⊢
  intro i j hi hj hij ha hb
  have ei := h2 i (by omega) hi
  have ej := h2 j (by omega) hj
  simp only [List.get_eq_getElem] at ei ej
  rw [ei.1, ej.1]
  exact hd i j (by omega) (by omega) hij (ei.2.2 ha) (ej.2.2 hb)

theorem growT_spec {s : State K V} {l : List (Entry K V)} (h : InvT c s l) (nbits : ℕ) {ft : Option Fault}
    (hft : ft ≠ some .table) :
    (∃ s', growT c s nbits ft = some (.on () s') ∧ InvT c s' l ∧ s'.nodeCount = s.nodeCount) ∨
    ∃ s' l' i, growT c s nbits ft = some (.threw s') ∧ ft = some (.rehash i) ∧ Shrunk l l' ∧ InvT c s' l' ∧
      s'.nodeCount = s.nodeCount ∧ ∃ e ∈ List.zip l l', e.1.linked = true ∧ e.2.linked = false := by
  obtain ⟨ch, hB, hall⟩ := h.buckets
  have h0 : Buckets c s.nodes (2 ^ nbits) (List.replicate (2 ^ nbits) none) (fun _ => []) := by
    refine ⟨by simp, ?_, fun _ _ => List.nodup_nil, nofun⟩
    intro b p hb
    have := List.eq_of_mem_replicate (List.mem_of_getElem? hb)
    subst this
    trivial
  obtain ⟨fl, ch', e1, e2, e3, e3', e4, e5, e6, e8, e9, e10, e11⟩ := growTableT_spec (c := c) s.table
    ((List.range s.tableSize).map ch) (Fault.inRehash ft) { s with
      tableSize := 2 ^ nbits
      logSize := nbits
      mask := 2 ^ nbits - 1
      table := List.replicate (2 ^ nbits) none
      binCount := 0 } (fun _ => []) ⟨rfl, rfl⟩ h0 (forall₂_chains hB) (flatten_nodup hB)
    (by rintro i _ ⟨b, _, hi⟩; cases hi)
  have hin : ∀ i, InCh (2 ^ nbits) ch' i → InCh s.tableSize ch i := by
    intro i hi
    rcases e3 i hi with ⟨b, _, hi⟩ | hi
    · cases hi
    · exact mem_flatten_range.mp hi
  have hgrow : growT c s nbits ft = match some fl with
    | none => none
    | some (.threw s') => some (.threw s')
    | some (.on _ s') => some (.on () { s' with maxCount := threshold s'.tableSize }) := by
    rw [growT, if_neg hft, if_neg (by rw [hB.len]; omega), List.take_of_length_le (by rw [hB.len]), e1]
    cases fl <;> rfl
  cases fl with
  | on b s' =>
    refine .inl ⟨{ s' with maxCount := threshold s'.tableSize }, hgrow,
      ⟨⟨?_, ?_⟩, e8.trans h.kv, h.distinct, ch', ?_, ?_⟩, e11⟩
    · exact Eq.trans e4 (congrArg (2 ^ ·) (Eq.symm e5))
    · show s'.mask = 2 ^ s'.logSize - 1
      rw [show s'.mask = 2 ^ nbits - 1 from e6, show s'.logSize = nbits from e5]
    · show Buckets c s'.nodes s'.tableSize s'.table ch'
      rw [show s'.tableSize = 2 ^ nbits from e4]
      exact e2
    · intro i
      show InCh s'.tableSize ch' i ↔ _
      rw [show s'.tableSize = 2 ^ nbits from e4, ← hall i]
      exact ⟨hin i, fun hi => e3' ⟨_, _, rfl⟩ i (.inr (mem_flatten_range.mpr hi))⟩
  | threw s' =>
    obtain ⟨l', g1, g2⟩ := exists_shrunk (l := l) (size := 2 ^ nbits) (ch := ch')
      (fun i hi => (hall i).mp (hin i hi))
    have hre : ∃ i, ft = some (.rehash i) := by
      cases hr : Fault.inRehash ft with
      | none =>
        obtain ⟨_, hx⟩ := e9 hr
        cases hx
      | some i =>
        unfold Fault.inRehash at hr
        split at hr
        · exact ⟨_, rfl⟩
        · cases hr
    obtain ⟨i, hi⟩ := hre
    refine .inr ⟨s', l', i, hgrow, hi, g1, ⟨⟨?_, ?_⟩, e8.trans (h.kv.trans g1.kv.symm), g1.distinct h.distinct, ch', ?_, ?_⟩,
      e11, ?_⟩
    · exact Eq.trans e4 (congrArg (2 ^ ·) (Eq.symm e5))
    · rw [show s'.mask = 2 ^ nbits - 1 from e6, show s'.logSize = nbits from e5]
    · rw [show s'.tableSize = 2 ^ nbits from e4]
      exact e2
    · rw [show s'.tableSize = 2 ^ nbits from e4]
      exact g2
    · obtain ⟨j, hj, hj'⟩ := e10 (by rintro ⟨_, _, hx⟩; cases hx)
      obtain ⟨e, he, hk⟩ := (hall j).mp (mem_flatten_range.mp hj)
      have hlen := g1.length_eq
      obtain ⟨hjl, he'⟩ := List.getElem?_eq_some_iff.mp he
      have hjl' : j < l'.length := by omega
      refine ⟨(l[j], l'[j]), List.mem_iff_getElem.mpr ⟨j, by simp; omega, by simp⟩, by rw [he']; exact hk, ?_⟩
      rw [← Bool.not_eq_true]
      intro hk'
      exact hj' ((g2 j).mpr ⟨l'[j], by rw [List.getElem?_eq_getElem hjl'], hk'⟩)

theorem insertEndT_spec {s : State K V} {l : List (Entry K V)} (h : InvT c s l) (r : ℕ) {ft : Option Fault}
    (hft : ft ≠ some .table) :
    (∃ s', insertEndT c r s ft = some (.on (true, r) s') ∧ InvT c s' l) ∨
    ∃ s' l' i, insertEndT c r s ft = some (.threw s') ∧ ft = some (.rehash i) ∧ Shrunk l l' ∧ InvT c s' l' := by
  unfold insertEndT
  split
  · rcases growT_spec h (s.logSize + 2) hft with ⟨s', h1, h2, -⟩ | ⟨s', l', i, h1, h2, h3, h4, -⟩
    · exact .inl ⟨s', by rw [h1], h2⟩
    · exact .inr ⟨s', l', i, by rw [h1], h2, h3, h4⟩
  · exact .inl ⟨s, rfl, h⟩

/-- The count of nodes does not matter. -/
theorem InvT.nodeCount {s : State K V} {l : List (Entry K V)} (h : InvT c s l) (n : ℕ) :
    InvT c { s with nodeCount := n } l := ⟨⟨h.sized.size, h.sized.mask⟩, h.kv, h.distinct, h.buckets⟩

theorem not_must_rehash {eq : K → K → Bool} {l : List (Entry K V)} {op : Op K V} {i : ℕ} :
    ¬ Must eq l op (some (.rehash i)) := id

/-- What an insertion does. -/
def InsertSpec (c : Conf K) (l : List (Entry K V)) (k : K) (v : V) (ft : Option Fault)
    (r : Option (Flow (Bool × ℕ) (State K V))) : Prop :=
  (∃ b s' l', r = some (.on b s') ∧ answer c.eq l (.insert k v) = some (.inserted b.1 b.2, l') ∧
    ¬ Must c.eq l (.insert k v) ft ∧ InvT c s' l') ∨
  (∃ s', r = some (.threw s') ∧ May c.eq l (.insert k v) ft ∧ InvT c s' l) ∨
  ∃ s' l' i, r = some (.threw s') ∧ ft = some (.rehash i) ∧ findEntry c.eq l k = none ∧
    Shrunk (l ++ [⟨k, v, true⟩]) l' ∧ InvT c s' l'

/-- The end of an insertion of a new key. -/
theorem insertEnd_new {s : State K V} {l : List (Entry K V)} {k : K} {v : V} {r : ℕ} {ft : Option Fault}
    (hft : ft ≠ some .table) (hno : findEntry c.eq l k = none) (hr : r = l.length)
    (hm : ¬ Must c.eq l (.insert k v) ft) (h : InvT c s (l ++ [⟨k, v, true⟩])) :
    InsertSpec c l k v ft (insertEndT c r s ft) := by
  rcases insertEndT_spec h r hft with ⟨s', h1, h2⟩ | ⟨s', l', i, h1, h2, h3, h4⟩
  · exact .inl ⟨_, s', _, h1, by simp only [answer, hno, hr], hm, h2⟩
  · exact .inr (.inr ⟨s', l', i, h1, h2, hno, h3, h4⟩)

theorem insertT_spec (hc : c.Lawful) {s : State K V} {l : List (Entry K V)} (h : InvT c s l) (k : K) (v : V)
    {ft : Option Fault} (hft : ft ≠ some .table) : InsertSpec c l k v ft (insertT c s k v ft) := by
  obtain ⟨ch, hB, hall⟩ := h.buckets
  have hlt := h.sized.lt (c.hash k)
  obtain ⟨p, hp⟩ : ∃ p, s.table[c.hash k % s.tableSize]? = some p :=
    ⟨_, List.getElem?_eq_getElem (by rw [hB.len]; exact hlt)⟩
  -- the state after `makeNode`
  have hnew : nodeAt (s.nodes ++ [some ⟨k, v, none⟩]) s.nodes.length = some ⟨k, v, none⟩ := by
    simp [nodeAt]
  have hold : ∀ i, i < s.nodes.length →
      nodeAt (s.nodes ++ [some ⟨k, v, none⟩]) i = nodeAt s.nodes i := by
    intro i hi
    simp [nodeAt, List.getElem?_append_left hi]
  have hmem : ∀ b < s.tableSize, ∀ i ∈ ch b, i < s.nodes.length := by
    intro b hb i hi
    obtain ⟨e, he, _⟩ := (hall i).mp ⟨b, hb, hi⟩
    rw [h.nodes_length]
    exact (List.getElem?_eq_some_iff.mp he).1
  have hB' : Buckets c (s.nodes ++ [some ⟨k, v, none⟩]) s.tableSize s.table ch := by
    refine ⟨hB.len, fun b p hb => (hB.chain b p hb).congr (fun i hi => ?_), hB.nodup,
      fun b hb i hi => ?_⟩
    · have hbs : b < s.tableSize := by rw [← hB.len]; exact (List.getElem?_eq_some_iff.mp hb).1
      rw [hold i (hmem b hbs i hi)]
    · rw [hold i (hmem b hb i hi)]; exact hB.hash b hb i hi
  have hq : ¬ InCh s.tableSize ch s.nodes.length := by
    rintro ⟨b, hb, hi⟩
    have := hmem b hb _ hi
    omega
  have hkv : kv (s.nodes ++ [some ⟨k, v, none⟩]) =
      (l ++ [(⟨k, v, true⟩ : Entry K V)]).map (fun e => some (e.key, e.value)) := by
    have := h.kv
    unfold kv at this ⊢
    rw [List.map_append, this, List.map_append]
    rfl
  -- what is left to show for each way of linking
  have hfin : ∀ (ns : List (Option (Node K V))) (table : List (Option ℕ)) (ch' : ℕ → List ℕ),
      findEntry c.eq l k = none → Buckets c ns s.tableSize table ch' →
      (∀ i, InCh s.tableSize ch' i ↔ InCh s.tableSize ch i ∨ i = s.nodes.length) →
      kv ns = kv (s.nodes ++ [some ⟨k, v, none⟩]) →
      InvT c { s with nodeCount := s.nodeCount + 1, nodes := ns, table := table } (l ++ [⟨k, v, true⟩]) := by
    intro ns table ch' hnone e1 e2 e3
    refine ⟨⟨h.sized.size, h.sized.mask⟩, e3.trans hkv, ?_, ch', e1, ?_⟩
    · rw [List.pairwise_append]
      refine ⟨h.distinct, List.pairwise_singleton _ _, ?_⟩
      intro a ha b hb hl _
      rw [List.mem_singleton] at hb
      subst hb
      have := (List.findIdx?_eq_none_iff.mp hnone) a ha
      rw [hl] at this
      simpa using this
    · intro i
      show InCh s.tableSize ch' i ↔ _
      rw [e2, hall, h.nodes_length]
      constructor
      · rintro (⟨e, he, hk⟩ | rfl)
        · exact ⟨e, by rw [List.getElem?_append_left (List.getElem?_eq_some_iff.mp he).1]; exact he, hk⟩
        · exact ⟨⟨k, v, true⟩, by simp, rfl⟩
      · rintro ⟨e, he, hk⟩
        rcases Nat.lt_trichotomy i l.length with hi | hi | hi
        · rw [List.getElem?_append_left hi] at he
          exact .inl ⟨e, he, hk⟩
        · exact .inr hi
        · rw [List.getElem?_eq_none (by simp; omega)] at he
          cases he
  rw [insertT]
  by_cases hh : ft = some .hash
  · rw [if_pos hh]
    subst hh
    exact .inr (.inl ⟨s, rfl, rfl, h⟩)
  rw [if_neg hh]
  simp only [h.sized.and, hp]
  -- the two faults in `makeNode`
  have hmake : findEntry c.eq l k = none → ft = some .alloc ∨ ft = some .copy →
      InsertSpec c l k v ft (some (.threw { s with nodeCount := s.nodeCount + 1 })) := by
    rintro hnone (rfl | rfl)
    · exact .inr (.inl ⟨_, rfl, ⟨k, v, rfl, hnone⟩, h.nodeCount _⟩)
    · exact .inr (.inl ⟨_, rfl, ⟨k, v, rfl, hnone⟩, h.nodeCount _⟩)
  have hmust : findEntry c.eq l k = none → ¬ (ft = some .alloc ∨ ft = some .copy) →
      ¬ Must c.eq l (.insert k v) ft := by
    intro hnone hf hm
    match ft, hh, hf, hm with
    | some (.equal 0), _, _, ⟨k', e, hm⟩ =>
      cases e
      exact hm hnone
    | some .alloc, _, hf, _ => exact hf (.inl rfl)
    | some .copy, _, hf, _ => exact hf (.inr rfl)
  cases p with
  | none =>
    have hnil := (hB.chain _ _ hp).none
    have hnone : findEntry c.eq l k = none := by
      apply findEntry_none hc h hB hall
      rw [hnil]
      nofun
    unfold makeNodeT
    by_cases hf : ft = some .alloc ∨ ft = some .copy
    · rw [if_pos hf]
      exact hmake hnone hf
    · rw [if_neg hf]
      obtain ⟨ch', e1, e2⟩ := bucket_empty hB' hnew rfl rfl hlt hq hp
      exact insertEnd_new hft hnone h.nodes_length (hmust hnone hf) (hfin _ _ ch' hnone e1 e2 rfl)
  | some t =>
    have hch := hB.chain _ _ hp
    have hlink : ∃ e ∈ l, e.linked = true := by
      obtain ⟨m, _, hm, _⟩ := hch.some
      obtain ⟨e, he, hk⟩ := (hall t).mp ⟨_, hlt, by rw [hm]; exact List.mem_cons_self⟩
      exact ⟨e, List.mem_of_getElem? he, hk⟩
    have hw := walkT_eq (c := c) (ns := s.nodes) k s.nodes.length (Fault.inEqual ft) t
    rcases hw with ⟨w1, w2⟩ | ⟨w1, w2⟩
    · simp only [w1]
      refine .inr (.inl ⟨s, rfl, ?_, h⟩)
      match ft, w2 with
      | some (.equal i), _ => exact ⟨rfl, hlink⟩
    · simp only [w1]
      rcases walk_spec (c := c) k s.nodes.length t _ hch (hB.length_le hlt) with
        ⟨i, n, g1, g2, g3, g4⟩ | ⟨g1, m, e, g2, g3⟩
      · have hf := findEntry_found hc h hall hlt g1 g2 g3
        simp only [g4, Option.map_some]
        refine .inl ⟨_, s, l, rfl, by simp only [answer, hf], ?_, h⟩
        intro hm
        match ft, hh, w2, hm with
        | some (.equal 0), _, w2, _ =>
          rw [g4] at w2
          cases w2 rfl
        | some .alloc, _, _, ⟨k', v', e, hm⟩ =>
          cases e
          rw [hf] at hm
          cases hm
        | some .copy, _, _, ⟨k', v', e, hm⟩ =>
          cases e
          rw [hf] at hm
          cases hm
      · have hnone := findEntry_none hc h hB hall g1
        simp only [g3, Option.map_some]
        unfold makeNodeT
        by_cases hf : ft = some .alloc ∨ ft = some .copy
        · rw [if_pos hf]
          exact hmake hnone hf
        · rw [if_neg hf]
          simp only [makeNode]
          obtain ⟨ne, hne⟩ := (hB'.chain _ _ hp).exists_node e (by rw [g2]; simp)
          cases hat : c.atEnd with
          | true =>
            obtain ⟨ns', k1, k2, k3⟩ := setNext_spec hne (some s.nodes.length)
            obtain ⟨ch', e1, e2⟩ := bucket_end hB' hnew rfl rfl hlt hq g2 hne k3
            simp only [k1, if_true]
            exact insertEnd_new hft hnone h.nodes_length (hmust hnone hf) (hfin _ _ ch' hnone e1 e2 k2)
          | false =>
            obtain ⟨ns', k1, k2, k3⟩ := setNext_spec hnew (some t)
            obtain ⟨ch', e1, e2⟩ := bucket_front hB' hnew rfl hlt hq hp k3
            simp only [k1, Bool.false_eq_true, if_false]
            exact insertEnd_new hft hnone h.nodes_length (hmust hnone hf) (hfin _ _ ch' hnone e1 e2 k2)

theorem lookupT_spec (hc : c.Lawful) {s : State K V} {l : List (Entry K V)} (h : InvT c s l) (k : K)
    (ft : Option Fault) :
    (lookupT c s k ft = some (some (findEntry c.eq l k)) ∧ ¬ Must c.eq l (.lookup k) ft) ∨
    (lookupT c s k ft = some none ∧ May c.eq l (.lookup k) ft) := by
  obtain ⟨ch, hB, hall⟩ := h.buckets
  have hlt := h.sized.lt (c.hash k)
  obtain ⟨p, hp⟩ : ∃ p, s.table[c.hash k % s.tableSize]? = some p :=
    ⟨_, List.getElem?_eq_getElem (by rw [hB.len]; exact hlt)⟩
  rw [lookupT]
  by_cases hh : ft = some .hash
  · rw [if_pos hh]
    subst hh
    exact .inr ⟨rfl, rfl⟩
  rw [if_neg hh]
  simp only [h.sized.and, hp]
  rcases lookupLoopT_eq (c := c) (ns := s.nodes) k s.nodes.length (Fault.inEqual ft) p with ⟨w1, w2, w3⟩ | ⟨w1, w2⟩
  · refine .inr ⟨w1, ?_⟩
    match ft, w2 with
    | some (.equal i), _ =>
      refine ⟨rfl, ?_⟩
      obtain ⟨t, rfl⟩ := Option.ne_none_iff_exists'.mp w3
      obtain ⟨m, _, hm, _⟩ := (hB.chain _ _ hp).some
      obtain ⟨e, he, hk⟩ := (hall t).mp ⟨_, hlt, by rw [hm]; exact List.mem_cons_self⟩
      exact ⟨e, List.mem_of_getElem? he, hk⟩
  · have hval : lookupLoop c s.nodes k s.nodes.length p = some (findEntry c.eq l k) := by
      rcases lookupLoop_spec (c := c) k s.nodes.length p _ (hB.chain _ _ hp) (hB.length_le hlt) with
        ⟨i, n, g1, g2, g3, g4⟩ | ⟨g1, g2⟩
      · rw [g4, findEntry_found hc h hall hlt g1 g2 g3]
      · rw [g2, findEntry_none hc h hB hall g1]
    refine .inl ⟨by rw [w1, hval]; rfl, ?_⟩
    intro hm
    match ft, hh, w2, hm with
    | some (.equal 0), _, w2, ⟨k', e, hm⟩ =>
      cases e
      rcases w2 rfl with hn | hn
      · subst hn
        apply hm
        apply findEntry_none hc h hB hall
        rw [(hB.chain _ _ hp).none]
        nofun
      · rw [hval] at hn
        cases hn
    | some .alloc, _, _, ⟨_, _, e, _⟩ => cases e
    | some .copy, _, _, ⟨_, _, e, _⟩ => cases e

theorem getEntryT_spec {s : State K V} {l : List (Entry K V)} (h : InvT c s l) (i : ℕ) :
    getEntry s i = (l[i]?).map (fun e => (e.key, e.value)) := by
  cases he : l[i]? with
  | none =>
    have : nodeAt s.nodes i = none := by
      cases hx : nodeAt s.nodes i with
      | none => rfl
      | some n =>
        obtain ⟨e, g, _⟩ := h.nodeAt_eq hx
        rw [g] at he
        cases he
    simp [getEntry, this]
  | some e =>
    obtain ⟨nx, hn⟩ := h.exists_nodeAt he
    simp [getEntry, hn]

theorem setValueT_spec {s : State K V} {l : List (Entry K V)} (h : InvT c s l) (i : ℕ) (v : V) :
    (l[i]? = none → setValue s i v = none) ∧
    ∀ e, l[i]? = some e → ∃ s', setValue s i v = some s' ∧ InvT c s' (l.set i { e with value := v }) := by
  constructor
  · intro he
    have : nodeAt s.nodes i = none := by
      cases hx : nodeAt s.nodes i with
      | none => rfl
      | some n =>
        obtain ⟨e, g, _⟩ := h.nodeAt_eq hx
        rw [g] at he
        cases he
    simp [setValue, this]
  · intro e he
    obtain ⟨nx, hn⟩ := h.exists_nodeAt he
    have hlt := nodeAt_lt hn
    have hat : ∀ j, nodeAt (s.nodes.set i (some ⟨e.key, v, nx⟩)) j =
        if j = i then some ⟨e.key, v, nx⟩ else nodeAt s.nodes j := by
      intro j
      unfold nodeAt
      rw [List.getElem?_set]
      by_cases hij : i = j
      · subst hij
        simp [hlt]
      · rw [if_neg hij, if_neg (Ne.symm hij)]
    refine ⟨{ s with nodes := s.nodes.set i (some ⟨e.key, v, nx⟩) }, by simp [setValue, hn],
      ⟨h.sized.size, h.sized.mask⟩, ?_, ?_, ?_⟩
    · have := h.kv
      unfold kv at this ⊢
      show List.map _ (s.nodes.set i _) = _
      rw [List.map_set, this, List.map_set]
      rfl
    · have hd := h.distinct
      obtain ⟨hi, he'⟩ := List.getElem?_eq_some_iff.mp he
      rw [List.pairwise_iff_getElem] at hd ⊢
      intro a b ha hb hab
      have hk : ∀ (a : ℕ) (ha : a < l.length) (ha' : a < (l.set i { e with value := v }).length),
          ((l.set i { e with value := v })[a]).key = l[a].key ∧
          ((l.set i { e with value := v })[a]).linked = l[a].linked := by
        intro a ha ha'
        rw [List.getElem_set]
        split
        · rename_i hia
          subst hia
          rw [he']
          exact ⟨rfl, rfl⟩
        · exact ⟨rfl, rfl⟩
      have ka := hk a (by simpa using ha) ha
      have kb := hk b (by simpa using hb) hb
      rw [ka.1, kb.1, ka.2, kb.2]
      exact hd a b (by simpa using ha) (by simpa using hb) hab
    · obtain ⟨ch, hB, hall⟩ := h.buckets
      refine ⟨ch, ⟨hB.len, fun b p hb => (hB.chain b p hb).congr (fun j hj => ?_), hB.nodup,
        fun b hb j hj => ?_⟩, fun j => ?_⟩
      · rw [hat]
        split
        · rename_i hji; subst hji; rw [hn]; rfl
        · rfl
      · obtain ⟨n, g1, g2⟩ := hB.hash b hb j hj
        rw [hat]
        split
        · rename_i hji
          subst hji
          rw [hn] at g1
          cases g1
          exact ⟨_, rfl, g2⟩
        · exact ⟨n, g1, g2⟩
      · refine (hall j).trans ?_
        rw [List.getElem?_set]
        by_cases hij : i = j
        · subst hij
          rw [if_pos rfl, if_pos (List.getElem?_eq_some_iff.mp he).1]
          constructor
          · rintro ⟨e', h1, h2⟩
            rw [he] at h1
            cases h1
            exact ⟨_, rfl, h2⟩
          · rintro ⟨e', h1, h2⟩
            cases h1
            exact ⟨e, he, h2⟩
        · rw [if_neg hij]

/-- What one call may do. -/
def Next (eq : K → K → Bool) (l : List (Entry K V)) (op : Op K V) (ft : Option Fault) (o : Option (Out K V))
    (l' : List (Entry K V)) : Prop :=
  (∃ a, o = some a ∧ answer eq l op = some (a, l') ∧ ¬ Must eq l op ft) ∨
  (o = none ∧ l' = l ∧ May eq l op ft) ∨
  ∃ k v i, o = none ∧ op = .insert k v ∧ ft = some (.rehash i) ∧ findEntry eq l k = none ∧
    Shrunk (l ++ [⟨k, v, true⟩]) l'

theorem not_must_handle {eq : K → K → Bool} {l : List (Entry K V)} {op : Op K V} (h : op.key? = none)
    (ft : Option Fault) : ¬ Must eq l op ft := by
  intro hm
  match ft, hm with
  | some .hash, hm => rw [Must, h] at hm; cases hm
  | some (.equal 0), ⟨k, e, _⟩ => rw [h] at e; cases e
  | some .alloc, ⟨k, v, e, _⟩ => subst e; cases h
  | some .copy, ⟨k, v, e, _⟩ => subst e; cases h

theorem stepT_spec (hc : c.Lawful) {s : State K V} {l : List (Entry K V)} (h : InvT c s l) (op : Op K V)
    {ft : Option Fault} (hft : ft ≠ some .table) :
    (answer c.eq l op = none ∧ stepT c s op ft = none) ∨
    ∃ o s' l', stepT c s op ft = some (o, s') ∧ InvT c s' l' ∧ Next c.eq l op ft o l' := by
  cases op with
  | insert k v =>
    right
    rcases insertT_spec hc h k v hft with ⟨b, s', l', h1, h2, h3, h4⟩ | ⟨s', h1, h2, h3⟩ |
      ⟨s', l', i, h1, h2, h3, h4, h5⟩
    · exact ⟨_, s', l', by rw [stepT, h1]; rfl, h4, .inl ⟨_, rfl, h2, h3⟩⟩
    · exact ⟨_, s', l, by rw [stepT, h1]; rfl, h3, .inr (.inl ⟨rfl, rfl, h2⟩)⟩
    · exact ⟨_, s', l', by rw [stepT, h1]; rfl, h5, .inr (.inr ⟨k, v, i, rfl, rfl, h2, h3, h4⟩)⟩
  | lookup k =>
    right
    rcases lookupT_spec hc h k ft with ⟨h1, h2⟩ | ⟨h1, h2⟩
    · exact ⟨_, s, l, by rw [stepT, h1]; rfl, h, .inl ⟨_, rfl, rfl, h2⟩⟩
    · exact ⟨_, s, l, by rw [stepT, h1]; rfl, h, .inr (.inl ⟨rfl, rfl, h2⟩)⟩
  | getEntry i =>
    simp only [answer, stepT, getEntryT_spec h]
    cases he : l[i]? with
    | none => exact .inl ⟨rfl, rfl⟩
    | some e =>
      exact .inr ⟨_, s, l, rfl, h, .inl ⟨_, rfl, by simp only [answer, he], not_must_handle rfl ft⟩⟩
  | setValue i v =>
    have hv := setValueT_spec h i v
    simp only [answer, stepT]
    cases he : l[i]? with
    | none => exact .inl ⟨rfl, by rw [hv.1 he]; rfl⟩
    | some e =>
      obtain ⟨s', g1, g2⟩ := hv.2 e he
      exact .inr ⟨_, s', _, by rw [g1]; rfl, g2, .inl ⟨_, rfl, by simp only [answer, he], not_must_handle rfl ft⟩⟩

theorem runT_spec (hc : c.Lawful) : ∀ (cs : List (Op K V × Option Fault)) (s : State K V) (l : List (Entry K V)),
    InvT c s l → (∀ x ∈ cs, x.2 ≠ some .table) → Behaves c.eq l cs ((runT c s cs).map Prod.fst) := by
  intro cs
  induction cs with
  | nil => intro s l _ _; exact .nil l
  | cons x cs ih =>
    intro s l h hft
    obtain ⟨op, ft⟩ := x
    have hcs : ∀ x ∈ cs, x.2 ≠ some .table := fun x hx => hft x (List.mem_cons_of_mem _ hx)
    rcases stepT_spec hc h op (hft _ List.mem_cons_self) with ⟨h1, h2⟩ | ⟨o, s', l', h1, h2, h3⟩
    · rw [runT, h2]
      exact .misuse h1
    · have hrun : (runT c s ((op, ft) :: cs)).map Prod.fst = ((runT c s' cs).map Prod.fst).map (o :: ·) := by
        rw [runT, h1]
        simp only
        cases runT c s' cs <;> rfl
      rw [hrun]
      have := ih s' l' h2 hcs
      rcases h3 with ⟨a, rfl, g1, g2⟩ | ⟨rfl, rfl, g⟩ | ⟨k, v, i, rfl, rfl, rfl, g1, g2⟩
      · exact .answered g1 g2 this
      · exact .threw g this
      · exact .lost g1 g2 this

/-- The entries when nothing was lost. -/
def linkedAll (m : List (K × V)) : List (Entry K V) := m.map (fun e => ⟨e.1, e.2, true⟩)

theorem findEntry_linkedAll (eq : K → K → Bool) (m : List (K × V)) (k : K) :
    findEntry eq (linkedAll m) k = specFind eq m k := by
  rw [findEntry, specFind, linkedAll, List.findIdx?_map]
  congr 1

theorem answer_linkedAll (eq : K → K → Bool) (m : List (K × V)) (op : Op K V) :
    answer eq (linkedAll m) op = (specStep eq m op).map (fun r => (r.1, linkedAll r.2)) := by
  cases op with
  | insert k v =>
    simp only [answer, specStep, findEntry_linkedAll]
    cases specFind eq m k with
    | none => simp [linkedAll]
    | some h => rfl
  | lookup k => simp only [answer, specStep, findEntry_linkedAll, Option.map_some]
  | getEntry h =>
    simp only [answer, specStep, linkedAll, List.getElem?_map]
    cases m[h]? <;> rfl
  | setValue h v =>
    simp only [answer, specStep, linkedAll, List.getElem?_map]
    cases m[h]? with
    | none => rfl
    | some e => simp [List.map_set]

theorem Behaves.answered_eq {eq : K → K → Bool} {l : List (Entry K V)} {cs : List (Op K V × Option Fault)}
    {r : Option (List (Option (Out K V)))} (h : Behaves eq l cs r) :
    (∀ x ∈ cs, Fault.Mild x.2) → ∀ m, l = linkedAll m → ∀ outs, r = some outs →
      (specRun eq m (answeredCalls cs outs)).map Prod.fst = some (outs.filterMap id) := by
  induction h with
  | nil l => rintro _ m rfl outs hr; cases hr; rfl
  | misuse h => intro _ m _ outs hr; cases hr
  | @answered l op ft cs o l' r h1 h2 h3 ih =>
    rintro hm m rfl outs hr
    obtain ⟨os, rfl, rfl⟩ := Option.map_eq_some_iff.mp hr
    rw [answer_linkedAll] at h1
    obtain ⟨q, hq, he⟩ := Option.map_eq_some_iff.mp h1
    cases he
    have := ih (fun x hx => hm x (List.mem_cons_of_mem _ hx)) _ rfl os rfl
    rw [answeredCalls, specRun, hq]
    obtain ⟨t, ht, he⟩ := Option.map_eq_some_iff.mp this
    simp only [ht, Option.map_some, he]
    rfl
  | @threw l op ft cs r h1 h2 ih =>
    rintro hm m rfl outs hr
    obtain ⟨os, rfl, rfl⟩ := Option.map_eq_some_iff.mp hr
    exact ih (fun x hx => hm x (List.mem_cons_of_mem _ hx)) _ rfl os rfl
  | @lost l k v i cs l' r h1 h2 h3 ih =>
    intro hm
    exact (hm _ List.mem_cons_self).elim

/-- The only undefined calls are those with handles that were never given out. -/
theorem Behaves.defined {eq : K → K → Bool} {l : List (Entry K V)} {cs : List (Op K V × Option Fault)}
    {r : Option (List (Option (Out K V)))} (h : Behaves eq l cs r) :
    (∀ x ∈ cs, x.1.key?.isSome = true) → r ≠ none := by
  induction h with
  | nil l => intro _; nofun
  | @misuse l op ft cs h =>
    intro hk
    have := hk _ List.mem_cons_self
    cases op with
    | insert k v =>
      simp only [answer] at h
      split at h <;> cases h
    | lookup k => cases h
    | getEntry h => cases this
    | setValue h v => cases this
  | answered _ _ _ ih =>
    intro hk hr
    exact ih (fun x hx => hk x (List.mem_cons_of_mem _ hx)) (Option.map_eq_none_iff.mp hr)
  | threw _ _ ih =>
    intro hk hr
    exact ih (fun x hx => hk x (List.mem_cons_of_mem _ hx)) (Option.map_eq_none_iff.mp hr)
  | lost _ _ _ ih =>
    intro hk hr
    exact ih (fun x hx => hk x (List.mem_cons_of_mem _ hx)) (Option.map_eq_none_iff.mp hr)

/-- Without faults there are no exceptions. -/
theorem Behaves.faultless {eq : K → K → Bool} {l : List (Entry K V)} {cs : List (Op K V × Option Fault)}
    {r : Option (List (Option (Out K V)))} (h : Behaves eq l cs r) :
    (∀ x ∈ cs, x.2 = none) → ∀ m, l = linkedAll m →
      r = (specRun eq m (cs.map Prod.fst)).map (fun q => q.1.map some) := by
  induction h with
  | nil l => rintro _ m rfl; rfl
  | @misuse l op ft cs h =>
    rintro _ m rfl
    rw [answer_linkedAll] at h
    rw [List.map_cons, specRun, Option.map_eq_none_iff.mp h]
    rfl
  | @answered l op ft cs o l' r h1 h2 h3 ih =>
    rintro hm m rfl
    rw [answer_linkedAll] at h1
    obtain ⟨q, hq, he⟩ := Option.map_eq_some_iff.mp h1
    cases he
    rw [ih (fun x hx => hm x (List.mem_cons_of_mem _ hx)) _ rfl, List.map_cons, specRun, hq]
    simp only
    cases specRun eq q.2 (cs.map Prod.fst) <;> rfl
  | @threw l op ft cs r h1 h2 ih =>
    intro hm
    have : ft = none := hm _ List.mem_cons_self
    subst this
    exact h1.elim
  | @lost l k v i cs l' r h1 h2 h3 ih =>
    intro hm
    cases hm _ List.mem_cons_self

/-- The state after any history without a fault in the vector. -/
theorem runT_inv (hc : c.Lawful) : ∀ (cs : List (Op K V × Option Fault)) (s s' : State K V) (l : List (Entry K V))
    (outs : List (Option (Out K V))), InvT c s l → (∀ x ∈ cs, x.2 ≠ some .table) → runT c s cs = some (outs, s') →
    ∃ l', InvT c s' l' := by
  intro cs
  induction cs with
  | nil => intro s s' l outs h _ hr; cases hr; exact ⟨l, h⟩
  | cons x cs ih =>
    intro s s' l outs h hft hr
    obtain ⟨op, ft⟩ := x
    rw [runT] at hr
    rcases stepT_spec hc h op (hft _ List.mem_cons_self) with ⟨_, h2⟩ | ⟨o, s₁, l₁, h1, h2, _⟩
    · rw [show stepT c s (op, ft).1 (op, ft).2 = none from h2] at hr
      cases hr
    · rw [show stepT c s (op, ft).1 (op, ft).2 = some (o, s₁) from h1] at hr
      simp only at hr
      split at hr
      · cases hr
      · rename_i heq
        cases hr
        exact ih s₁ _ l₁ _ h2 (fun x hx => hft x (List.mem_cons_of_mem _ hx)) heq

/-- The vector for the new table throws: the sizes are those of the new table, the table is the old one. -/
theorem insertT_table (hc : c.Lawful) {s : State K V} {l : List (Entry K V)} (h : InvT c s l) (k : K) (v : V)
    (hno : findEntry c.eq l k = none) (hfull : s.maxCount ≤ s.nodeCount) :
    ∃ s', insertT c s k v (some .table) = some (.threw s') ∧ s'.mask = 2 ^ (s.logSize + 2) - 1 ∧
      s'.table.length = s.tableSize ∧ s'.tableSize = 2 ^ (s.logSize + 2) ∧ s'.maxCount < s'.nodeCount := by
  obtain ⟨ch, hB, hall⟩ := h.buckets
  have hlt := h.sized.lt (c.hash k)
  obtain ⟨p, hp⟩ : ∃ p, s.table[c.hash k % s.tableSize]? = some p :=
    ⟨_, List.getElem?_eq_getElem (by rw [hB.len]; exact hlt)⟩
  have hend : ∀ (r : ℕ) (s₁ : State K V), s₁.nodeCount = s.nodeCount + 1 → s₁.maxCount = s.maxCount →
      s₁.logSize = s.logSize → s₁.table.length = s.tableSize →
      ∃ s', insertEndT c r s₁ (some .table) = some (.threw s') ∧ s'.mask = 2 ^ (s.logSize + 2) - 1 ∧
        s'.table.length = s.tableSize ∧ s'.tableSize = 2 ^ (s.logSize + 2) ∧ s'.maxCount < s'.nodeCount := by
    intro r s₁ h1 h2 h3 h4
    rw [insertEndT, if_pos (by omega), growT, if_pos rfl]
    exact ⟨_, rfl, by rw [h3], h4, by rw [h3], by show s₁.maxCount < s₁.nodeCount; omega⟩
  have hmk : ¬ (some Fault.table = some .alloc ∨ some Fault.table = some .copy) := by simp
  rw [insertT, if_neg (by simp)]
  simp only [h.sized.and, hp]
  cases p with
  | none =>
    unfold makeNodeT
    rw [if_neg hmk]
    exact hend _ _ rfl rfl rfl (by simp [makeNode, hB.len])
  | some t =>
    rcases walkT_eq (c := c) (ns := s.nodes) k s.nodes.length (Fault.inEqual (some .table)) t with ⟨_, w⟩ | ⟨w, _⟩
    · exact (w rfl).elim
    simp only [w]
    rcases walk_spec (c := c) k s.nodes.length t _ (hB.chain _ _ hp) (hB.length_le hlt) with
      ⟨i, n, g1, g2, g3, g4⟩ | ⟨g1, m, e, g2, g3⟩
    · rw [findEntry_found hc h hall hlt g1 g2 g3] at hno
      cases hno
    · simp only [g3, Option.map_some]
      unfold makeNodeT
      rw [if_neg hmk]
      simp only [makeNode]
      obtain ⟨ne, hne⟩ := (hB.chain _ _ hp).exists_node e (by rw [g2]; simp)
      have hne' : nodeAt (s.nodes ++ [some ⟨k, v, none⟩]) e = some ne := by
        rw [nodeAt, List.getElem?_append_left (nodeAt_lt hne)]
        exact hne
      have hnew : nodeAt (s.nodes ++ [some (⟨k, v, none⟩ : Node K V)]) s.nodes.length = some ⟨k, v, none⟩ := by
        simp [nodeAt]
      cases hat : c.atEnd with
      | true =>
        obtain ⟨ns', k1, _⟩ := setNext_spec hne' (some s.nodes.length)
        simp only [k1, if_true]
        exact hend _ _ rfl rfl rfl hB.len
      | false =>
        obtain ⟨ns', k1, _⟩ := setNext_spec hnew (some t)
        simp only [k1, Bool.false_eq_true, if_false]
        exact hend _ _ rfl rfl rfl (by simp [hB.len])

/-- A full table that has less bins than its size says cannot take another key. -/
theorem insertT_broken {s : State K V} (hsize : s.table.length < s.tableSize) (hfull : s.maxCount < s.nodeCount)
    {k : K} {v : V} {r : Flow (Bool × ℕ) (State K V)} (h : insertT c s k v none = some r) :
    ∃ i, r = .on (false, i) s := by
  have hend : ∀ (q : ℕ) (s₁ : State K V), s₁.nodeCount = s.nodeCount + 1 → s₁.maxCount = s.maxCount →
      s₁.table.length = s.table.length → s₁.tableSize = s.tableSize → insertEndT c q s₁ none = none := by
    intro q s₁ h1 h2 h3 h4
    rw [insertEndT, if_pos (by omega), growT, if_neg (by simp), if_pos (by omega)]
  have hmk : ¬ (none = some Fault.alloc ∨ none = some Fault.copy) := by simp
  rw [insertT, if_neg (by simp)] at h
  simp only at h
  unfold makeNodeT at h
  simp only [if_neg hmk] at h
  cases hp : s.table[c.hash k &&& s.mask]? with
  | none => rw [hp] at h; cases h
  | some p =>
    rw [hp] at h
    cases p with
    | none =>
      simp only at h
      exact nomatch h.symm.trans (hend _ _ rfl rfl (by simp [makeNode]) rfl)
    | some t =>
      simp only at h
      split at h
      · cases h
      · rename_i hw
        rcases walkT_eq (c := c) (ns := s.nodes) k s.nodes.length (Fault.inEqual none) t with ⟨_, w⟩ | ⟨w, _⟩
        · exact (w rfl).elim
        · rw [hw] at w
          cases hx : walk c s.nodes k s.nodes.length t <;> rw [hx] at w <;> cases w
      · cases h
        exact ⟨_, rfl⟩
      · split at h
        · split at h
          · cases h
          · exact nomatch h.symm.trans (hend _ _ rfl rfl (by simp [makeNode]) rfl)
        · split at h
          · cases h
          · exact nomatch h.symm.trans (hend _ _ rfl rfl (by simp [makeNode]) rfl)

/-- The keys of the nodes of a chain. -/
def keysAt (ns : List (Option (Node K V))) (l : List ℕ) : List K := l.filterMap (fun i => (nodeAt ns i).map Node.key)

theorem lookupLoopT_throws {ns : List (Option (Node K V))} (k : K) (l : List ℕ) : ∀ (p : Option ℕ) (f b : ℕ), IsChain ns p l →
    l.length ≤ f → (lookupLoopT c ns k f (some b) p = some none ↔ b < searched c.eq k (keysAt ns l)) := by
  induction l with
  | nil =>
    intro p f b h _
    cases p with
    | some i => exact h.elim
    | none => simp [lookupLoopT, keysAt, searched]
  | cons i l ih =>
    intro p f b h hf
    cases p with
    | none => exact h.elim
    | some j =>
      obtain ⟨rfl, n, h1, h2⟩ := h
      cases f with
      | zero => simp at hf
      | succ f =>
        have hk : keysAt ns (j :: l) = n.key :: keysAt ns l := by simp [keysAt, h1]
        rw [lookupLoopT, hk, searched]
        simp only [h1]
        cases b with
        | zero => simp only [tick]; split <;> simp
        | succ b =>
          simp only [tick]
          split
          · simp
          · rw [ih n.next f b h2 (by simpa using hf)]
            omega

theorem walkT_throws {ns : List (Option (Node K V))} (k : K) (l : List ℕ) : ∀ (i f b : ℕ), IsChain ns (some i) l →
    l.length ≤ f → (walkT c ns k f (some b) i = some none ↔ b < searched c.eq k (keysAt ns l)) := by
  induction l with
  | nil => intro i f b h _; exact h.elim
  | cons j l ih =>
    intro i f b h hf
    obtain ⟨rfl, n, h1, h2⟩ := h
    cases f with
    | zero => simp at hf
    | succ f =>
      have hk : keysAt ns (i :: l) = n.key :: keysAt ns l := by simp [keysAt, h1]
      rw [walkT, hk, searched]
      simp only [h1]
      cases b with
      | zero => simp only [tick]; split <;> simp
      | succ b =>
        simp only [tick]
        split
        · simp
        · cases hn : n.next with
          | none =>
            rw [hn] at h2
            rw [h2.none]
            simp [keysAt, searched]
          | some m =>
            rw [hn] at h2
            simp only
            rw [ih m f b h2 (by simpa using hf)]
            omega

end Verif.HashTable
