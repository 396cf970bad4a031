import Mathlib.Tactic.IntervalCases
import Mathlib.Tactic.NormNum
import Verif.HashTableSpec
import Mathlib.Data.List.Nodup
import Mathlib.Data.List.Perm.Basic
import Mathlib.Data.List.Perm.Lattice
import Mathlib.Logic.Function.Basic
import Mathlib.Data.Nat.Bitwise

/-!
# Lemmas on `HashTable`
-/

namespace Verif.HashTable

variable {K V : Type*} {c : Conf K} {ns ns' : List (Option (Node K V))}

/-- The chain that starts at `p` visits the nodes of the list, in order, and ends. -/
def IsChain (ns : List (Option (Node K V))) : Option ℕ → List ℕ → Prop
  | none, [] => True
  | some i, j :: l => i = j ∧ ∃ n, nodeAt ns i = some n ∧ IsChain ns n.next l
  | _, _ => False

theorem IsChain.none {l : List ℕ} (h : IsChain ns none l) : l = [] := by
  cases l with
  | nil => rfl
  | cons a l => exact h.elim

theorem IsChain.some {i : ℕ} {l : List ℕ} (h : IsChain ns (some i) l) :
    ∃ m n, l = i :: m ∧ nodeAt ns i = Option.some n ∧ IsChain ns n.next m := by
  cases l with
  | nil => exact h.elim
  | cons a l =>
    obtain ⟨rfl, n, h1, h2⟩ := h
    exact ⟨l, n, rfl, h1, h2⟩

theorem IsChain.congr {p : Option ℕ} {l : List ℕ}
    (h : ∀ i ∈ l, ((nodeAt ns' i).map Node.next) = (nodeAt ns i).map Node.next)
    (hc : IsChain ns p l) : IsChain ns' p l := by
  induction l generalizing p with
  | nil =>
    cases p with
    | none => trivial
    | some i => exact hc.elim
  | cons a l ih =>
    cases p with
    | none => exact hc.elim
    | some i =>
      obtain ⟨rfl, n, h1, h2⟩ := hc
      have h3 := h i List.mem_cons_self
      rw [h1, Option.map_some] at h3
      obtain ⟨n', h4, h5⟩ := Option.map_eq_some_iff.mp h3
      exact ⟨rfl, n', h4, by rw [h5]; exact ih (fun j hj => h j (List.mem_cons_of_mem _ hj)) h2⟩

theorem IsChain.exists_node {p : Option ℕ} {l : List ℕ} (hc : IsChain ns p l) :
    ∀ i ∈ l, ∃ n, nodeAt ns i = Option.some n := by
  induction l generalizing p with
  | nil => intro i hi; cases hi
  | cons a l ih =>
    cases p with
    | none => exact hc.elim
    | some i =>
      obtain ⟨rfl, n, h1, h2⟩ := hc
      intro j hj
      rcases List.mem_cons.mp hj with rfl | hj
      · exact ⟨n, h1⟩
      · exact ih h2 j hj

/-- The keys and values in the pool. -/
def kv (ns : List (Option (Node K V))) : List (Option (K × V)) :=
  ns.map (Option.map (fun n => (n.key, n.value)))

theorem setNext_spec {i : ℕ} {n : Node K V} (h : nodeAt ns i = some n) (nx : Option ℕ) :
    ∃ ns', setNext ns i nx = some ns' ∧ kv ns' = kv ns ∧
      ∀ j, nodeAt ns' j = if j = i then some { n with next := nx } else nodeAt ns j := by
  refine ⟨ns.set i (some { n with next := nx }), by simp [setNext, h], ?_, ?_⟩
  · have h' : ns[i]? = some (some n) := Option.join_eq_some_iff.mp h
    obtain ⟨hi, hn⟩ := List.getElem?_eq_some_iff.mp h'
    unfold kv
    rw [List.map_set]
    apply List.ext_getElem?
    intro j
    rw [List.getElem?_set]
    split
    · rename_i hij
      subst hij
      simp [hi, hn]
    · rfl
  · intro j
    have h' : ns[i]? = some (some n) := Option.join_eq_some_iff.mp h
    obtain ⟨hi, hn⟩ := List.getElem?_eq_some_iff.mp h'
    unfold nodeAt
    rw [List.getElem?_set]
    by_cases hij : i = j
    · subst hij; simp [hi]
    · have : ¬ j = i := fun h => hij h.symm
      simp [hij, this]

theorem kv_length : (kv ns).length = ns.length := by simp [kv]

theorem kv_nodeAt {i : ℕ} {n : Node K V} (h : nodeAt ns i = some n) :
    (kv ns)[i]? = some (some (n.key, n.value)) := by
  have h' : ns[i]? = some (some n) := Option.join_eq_some_iff.mp h
  simp [kv, h']

theorem walk_spec (k : K) : ∀ (f t : ℕ) (l : List ℕ), IsChain ns (some t) l → l.length ≤ f →
    (∃ h n, h ∈ l ∧ nodeAt ns h = some n ∧ c.eq n.key k = true ∧ walk c ns k f t = some (.found h)) ∨
    ((∀ i ∈ l, ∀ n, nodeAt ns i = some n → c.eq n.key k = false) ∧
      ∃ m e, l = m ++ [e] ∧ walk c ns k f t = some (.last e)) := by
  intro f
  induction f with
  | zero =>
    intro t l h hl
    obtain ⟨m, n, rfl, _⟩ := h.some
    simp at hl
  | succ f ih =>
    intro t l h hl
    obtain ⟨m, n, rfl, h1, h2⟩ := h.some
    rw [walk]
    simp only [h1]
    by_cases heq : c.eq n.key k = true
    · left
      exact ⟨t, n, List.mem_cons_self, h1, heq, by rw [if_pos heq]⟩
    · rw [if_neg heq]
      have heq : c.eq n.key k = false := by simpa using heq
      cases hn : n.next with
      | none =>
        rw [hn] at h2
        obtain rfl := h2.none
        right
        refine ⟨?_, [], t, rfl, rfl⟩
        intro i hi n' hn'
        rcases List.mem_singleton.mp hi with rfl
        rw [h1] at hn'
        cases hn'
        exact heq
      | some j =>
        rw [hn] at h2
        have hl' : m.length ≤ f := by simp at hl; omega
        rcases ih j m h2 hl' with ⟨h, n', g1, g2, g3, g4⟩ | ⟨g1, m', e, g2, g3⟩
        · exact Or.inl ⟨h, n', List.mem_cons_of_mem _ g1, g2, g3, g4⟩
        · right
          refine ⟨?_, t :: m', e, by rw [g2]; rfl, g3⟩
          intro i hi n' hn'
          rcases List.mem_cons.mp hi with rfl | hi
          · rw [h1] at hn'
            cases hn'
            exact heq
          · exact g1 i hi n' hn'

theorem findLast_spec : ∀ (f t : ℕ) (l : List ℕ), IsChain ns (some t) l → l.length ≤ f →
    ∃ m e, l = m ++ [e] ∧ findLast ns f t = some e := by
  intro f
  induction f with
  | zero =>
    intro t l h hl
    obtain ⟨m, n, rfl, _⟩ := h.some
    simp at hl
  | succ f ih =>
    intro t l h hl
    obtain ⟨m, n, rfl, h1, h2⟩ := h.some
    rw [findLast]
    simp only [h1]
    cases hn : n.next with
    | none =>
      rw [hn] at h2
      obtain rfl := h2.none
      exact ⟨[], t, rfl, rfl⟩
    | some j =>
      rw [hn] at h2
      obtain ⟨m', e, g2, g3⟩ := ih j m h2 (by simp at hl; omega)
      exact ⟨t :: m', e, by rw [g2]; rfl, g3⟩

theorem lookupLoop_spec (k : K) : ∀ (f : ℕ) (p : Option ℕ) (l : List ℕ), IsChain ns p l →
    l.length ≤ f →
    (∃ h n, h ∈ l ∧ nodeAt ns h = some n ∧ c.eq n.key k = true ∧
      lookupLoop c ns k f p = some (some h)) ∨
    ((∀ i ∈ l, ∀ n, nodeAt ns i = some n → c.eq n.key k = false) ∧
      lookupLoop c ns k f p = some none) := by
  intro f
  induction f with
  | zero =>
    intro p l h hl
    have : l = [] := List.length_eq_zero_iff.mp (by omega)
    subst this
    cases p with
    | none => right; exact ⟨nofun, rfl⟩
    | some i => exact h.elim
  | succ f ih =>
    intro p l h hl
    cases p with
    | none =>
      obtain rfl := h.none
      right; exact ⟨nofun, rfl⟩
    | some t =>
      obtain ⟨m, n, rfl, h1, h2⟩ := h.some
      rw [lookupLoop]
      simp only [h1]
      by_cases heq : c.eq n.key k = true
      · left
        exact ⟨t, n, List.mem_cons_self, h1, heq, by rw [if_pos heq]⟩
      · rw [if_neg heq]
        have heq : c.eq n.key k = false := by simpa using heq
        have hl' : m.length ≤ f := by simp at hl; omega
        rcases ih _ m h2 hl' with ⟨h, n', g1, g2, g3, g4⟩ | ⟨g1, g3⟩
        · exact Or.inl ⟨h, n', List.mem_cons_of_mem _ g1, g2, g3, g4⟩
        · right
          refine ⟨?_, g3⟩
          intro i hi n' hn'
          rcases List.mem_cons.mp hi with rfl | hi
          · rw [h1] at hn'
            cases hn'
            exact heq
          · exact g1 i hi n' hn'

theorem chainLength_spec : ∀ (f : ℕ) (p : Option ℕ) (l : List ℕ), IsChain ns p l →
    l.length ≤ f → chainLength ns f p = some l.length := by
  intro f
  induction f with
  | zero =>
    intro p l h hl
    have : l = [] := List.length_eq_zero_iff.mp (by omega)
    subst this
    cases p with
    | none => rfl
    | some i => exact h.elim
  | succ f ih =>
    intro p l h hl
    cases p with
    | none =>
      obtain rfl := h.none
      rfl
    | some t =>
      obtain ⟨m, n, rfl, h1, h2⟩ := h.some
      rw [chainLength]
      simp only [h1]
      rw [ih _ m h2 (by simp at hl; omega)]
      rfl

theorem chain_append {p : Option ℕ} {m : List ℕ} {e q : ℕ} {ne nq : Node K V}
    (h : IsChain ns p (m ++ [e])) (hnd : (m ++ [e]).Nodup) (hq : q ∉ m ++ [e])
    (hnq : nodeAt ns q = some nq) (hnx : nq.next = none) (hne : nodeAt ns e = some ne)
    (h' : ∀ j, nodeAt ns' j = if j = e then some { ne with next := some q } else nodeAt ns j) :
    IsChain ns' p (m ++ [e] ++ [q]) := by
  induction m generalizing p with
  | nil =>
    cases p with
    | none => exact h.elim
    | some i =>
      obtain ⟨rfl, n, h1, h2⟩ := h
      have hqi : q ≠ i := by
        intro heq
        subst heq
        exact hq (by simp)
      refine ⟨rfl, { ne with next := some q }, by rw [h', if_pos rfl], rfl, nq, ?_, ?_⟩
      · rw [h', if_neg hqi, hnq]
      · rw [hnx]; trivial
  | cons a m ih =>
    cases p with
    | none => exact h.elim
    | some i =>
      obtain ⟨rfl, n, h1, h2⟩ := h
      have hie : i ≠ e := by
        intro heq
        subst heq
        simp at hnd
      refine ⟨rfl, n, by rw [h', if_neg hie, h1], ?_⟩
      exact ih h2 (List.nodup_cons.mp hnd).2 (fun hm => hq (List.mem_cons_of_mem _ hm))

/-- The table holds the chains `ch b`, each node in the bucket of its hash value. -/
structure Buckets (c : Conf K) (ns : List (Option (Node K V))) (size : ℕ) (table : List (Option ℕ))
    (ch : ℕ → List ℕ) : Prop where
  len : table.length = size
  chain : ∀ (b : ℕ) p, table[b]? = some p → IsChain ns p (ch b)
  nodup : ∀ b < size, (ch b).Nodup
  hash : ∀ b < size, ∀ i ∈ ch b, ∃ n, nodeAt ns i = some n ∧ c.hash n.key % size = b

/-- `i` is in one of the chains. -/
def InCh (size : ℕ) (ch : ℕ → List ℕ) (i : ℕ) : Prop := ∃ b < size, i ∈ ch b

theorem bucket_empty {size : ℕ} {table : List (Option ℕ)} {ch : ℕ → List ℕ}
    (h : Buckets c ns size table ch) {q : ℕ} {nq : Node K V} (hnq : nodeAt ns q = some nq)
    (hnx : nq.next = none) {hv : ℕ} (hhv : hv = c.hash nq.key % size) (hlt : hv < size)
    (hq : ¬ InCh size ch q) (ht : table[hv]? = some none) :
    ∃ ch', Buckets c ns size (table.set hv (some q)) ch' ∧
      ∀ i, InCh size ch' i ↔ InCh size ch i ∨ i = q := by
  have hnil : ch hv = [] := (h.chain hv none ht).none
  refine ⟨Function.update ch hv [q], ⟨by simp [h.len], ?_, ?_, ?_⟩, ?_⟩
  · intro b p hb
    rw [List.getElem?_set] at hb
    by_cases hbv : hv = b
    · subst hbv
      rw [if_pos rfl, if_pos (by rw [h.len]; exact hlt)] at hb
      cases hb
      rw [Function.update_self]
      exact ⟨rfl, nq, hnq, by rw [hnx]; trivial⟩
    · rw [if_neg hbv] at hb
      rw [Function.update_of_ne (fun h => hbv h.symm)]
      exact h.chain b p hb
  · intro b hb
    by_cases hbv : b = hv
    · subst hbv; simp
    · rw [Function.update_of_ne hbv]; exact h.nodup b hb
  · intro b hb i hi
    by_cases hbv : b = hv
    · subst hbv
      simp only [Function.update_self, List.mem_singleton] at hi
      subst hi
      exact ⟨nq, hnq, hhv.symm⟩
    · rw [Function.update_of_ne hbv] at hi; exact h.hash b hb i hi
  · intro i
    constructor
    · rintro ⟨b, hb, hi⟩
      by_cases hbv : b = hv
      · subst hbv
        simp only [Function.update_self, List.mem_singleton] at hi
        exact Or.inr hi
      · rw [Function.update_of_ne hbv] at hi; exact Or.inl ⟨b, hb, hi⟩
    · rintro (⟨b, hb, hi⟩ | rfl)
      · have hbv : b ≠ hv := by
          intro hbv
          subst hbv
          rw [hnil] at hi
          cases hi
        exact ⟨b, hb, by rw [Function.update_of_ne hbv]; exact hi⟩
      · exact ⟨hv, hlt, by simp⟩

theorem bucket_end {size : ℕ} {table : List (Option ℕ)} {ch : ℕ → List ℕ}
    (h : Buckets c ns size table ch) {q : ℕ} {nq ne : Node K V} (hnq : nodeAt ns q = some nq)
    (hnx : nq.next = none) {hv : ℕ} (hhv : hv = c.hash nq.key % size) (hlt : hv < size)
    (hq : ¬ InCh size ch q) {m : List ℕ} {e : ℕ} (hl : ch hv = m ++ [e])
    (hne : nodeAt ns e = some ne)
    (h' : ∀ j, nodeAt ns' j = if j = e then some { ne with next := some q } else nodeAt ns j) :
    ∃ ch', Buckets c ns' size table ch' ∧ ∀ i, InCh size ch' i ↔ InCh size ch i ∨ i = q := by
  have hqe : q ≠ e := by
    intro heq
    subst heq
    exact hq ⟨hv, hlt, by rw [hl]; simp⟩
  have hhash : ∀ i b, (∃ n, nodeAt ns i = some n ∧ c.hash n.key % size = b) →
      ∃ n, nodeAt ns' i = some n ∧ c.hash n.key % size = b := by
    rintro i b ⟨n, h1, h2⟩
    rw [h']
    by_cases hi : i = e
    · subst hi
      rw [hne] at h1
      cases h1
      exact ⟨{ ne with next := some q }, by rw [if_pos rfl], h2⟩
    · exact ⟨n, by rw [if_neg hi, h1], h2⟩
  refine ⟨Function.update ch hv (ch hv ++ [q]), ⟨h.len, ?_, ?_, ?_⟩, ?_⟩
  · intro b p hb
    have hbs : b < size := by rw [← h.len]; exact (List.getElem?_eq_some_iff.mp hb).1
    by_cases hbv : b = hv
    · subst hbv
      rw [Function.update_self, hl]
      have hc := h.chain b p hb
      have hnd := h.nodup b hbs
      rw [hl] at hc hnd
      refine chain_append hc hnd ?_ hnq hnx hne h'
      intro hm
      exact hq ⟨b, hbs, by rw [hl]; exact hm⟩
    · rw [Function.update_of_ne hbv]
      refine (h.chain b p hb).congr ?_
      intro i hi
      have : i ≠ e := by
        intro heq
        subst heq
        obtain ⟨n, g1, g2⟩ := h.hash b hbs i hi
        obtain ⟨n', g3, g4⟩ := h.hash hv hlt i (by rw [hl]; simp)
        rw [g1] at g3
        cases g3
        exact hbv (g2.symm.trans g4)
      rw [h', if_neg this]
  · intro b hb
    by_cases hbv : b = hv
    · subst hbv
      rw [Function.update_self]
      refine (h.nodup b hb).append (by simp) ?_
      intro i hi hi'
      rw [List.mem_singleton] at hi'
      subst hi'
      exact hq ⟨b, hb, hi⟩
    · rw [Function.update_of_ne hbv]; exact h.nodup b hb
  · intro b hb i hi
    apply hhash
    by_cases hbv : b = hv
    · subst hbv
      rw [Function.update_self] at hi
      rcases List.mem_append.mp hi with hi | hi
      · exact h.hash b hb i hi
      · rw [List.mem_singleton] at hi
        subst hi
        exact ⟨nq, hnq, hhv.symm⟩
    · rw [Function.update_of_ne hbv] at hi; exact h.hash b hb i hi
  · intro i
    constructor
    · rintro ⟨b, hb, hi⟩
      by_cases hbv : b = hv
      · subst hbv
        rw [Function.update_self] at hi
        rcases List.mem_append.mp hi with hi | hi
        · exact Or.inl ⟨b, hb, hi⟩
        · exact Or.inr (List.mem_singleton.mp hi)
      · rw [Function.update_of_ne hbv] at hi; exact Or.inl ⟨b, hb, hi⟩
    · rintro (⟨b, hb, hi⟩ | rfl)
      · by_cases hbv : b = hv
        · subst hbv
          exact ⟨b, hb, by rw [Function.update_self]; exact List.mem_append_left _ hi⟩
        · exact ⟨b, hb, by rw [Function.update_of_ne hbv]; exact hi⟩
      · exact ⟨hv, hlt, by simp⟩

theorem bucket_front {size : ℕ} {table : List (Option ℕ)} {ch : ℕ → List ℕ}
    (h : Buckets c ns size table ch) {q : ℕ} {nq : Node K V} (hnq : nodeAt ns q = some nq)
    {hv : ℕ} (hhv : hv = c.hash nq.key % size) (hlt : hv < size)
    (hq : ¬ InCh size ch q) {r : Option ℕ} (ht : table[hv]? = some r)
    (h' : ∀ j, nodeAt ns' j = if j = q then some { nq with next := r } else nodeAt ns j) :
    ∃ ch', Buckets c ns' size (table.set hv (some q)) ch' ∧
      ∀ i, InCh size ch' i ↔ InCh size ch i ∨ i = q := by
  have hkeep : ∀ b < size, ∀ i ∈ ch b, nodeAt ns' i = nodeAt ns i := by
    intro b hb i hi
    rw [h', if_neg]
    intro heq
    subst heq
    exact hq ⟨b, hb, hi⟩
  refine ⟨Function.update ch hv (q :: ch hv), ⟨by simp [h.len], ?_, ?_, ?_⟩, ?_⟩
  · intro b p hb
    rw [List.getElem?_set] at hb
    by_cases hbv : hv = b
    · subst hbv
      rw [if_pos rfl, if_pos (by rw [h.len]; exact hlt)] at hb
      cases hb
      rw [Function.update_self]
      refine ⟨rfl, { nq with next := r }, by rw [h', if_pos rfl], ?_⟩
      exact (h.chain hv r ht).congr (fun i hi => by rw [hkeep hv hlt i hi])
    · rw [if_neg hbv] at hb
      have hbs : b < size := by rw [← h.len]; exact (List.getElem?_eq_some_iff.mp hb).1
      rw [Function.update_of_ne (fun h => hbv h.symm)]
      exact (h.chain b p hb).congr (fun i hi => by rw [hkeep b hbs i hi])
  · intro b hb
    by_cases hbv : b = hv
    · subst hbv
      rw [Function.update_self]
      exact List.nodup_cons.mpr ⟨fun hi => hq ⟨b, hb, hi⟩, h.nodup b hb⟩
    · rw [Function.update_of_ne hbv]; exact h.nodup b hb
  · intro b hb i hi
    by_cases hbv : b = hv
    · subst hbv
      rw [Function.update_self] at hi
      rcases List.mem_cons.mp hi with rfl | hi
      · exact ⟨{ nq with next := r }, by rw [h', if_pos rfl], hhv.symm⟩
      · rw [hkeep b hb i hi]; exact h.hash b hb i hi
    · rw [Function.update_of_ne hbv] at hi
      rw [hkeep b hb i hi]; exact h.hash b hb i hi
  · intro i
    constructor
    · rintro ⟨b, hb, hi⟩
      by_cases hbv : b = hv
      · subst hbv
        rw [Function.update_self] at hi
        rcases List.mem_cons.mp hi with hi | hi
        · exact Or.inr hi
        · exact Or.inl ⟨b, hb, hi⟩
      · rw [Function.update_of_ne hbv] at hi; exact Or.inl ⟨b, hb, hi⟩
    · rintro (⟨b, hb, hi⟩ | rfl)
      · by_cases hbv : b = hv
        · subst hbv
          exact ⟨b, hb, by rw [Function.update_self]; exact List.mem_cons_of_mem _ hi⟩
        · exact ⟨b, hb, by rw [Function.update_of_ne hbv]; exact hi⟩
      · exact ⟨hv, hlt, by simp⟩

theorem nodeAt_lt {i : ℕ} {n : Node K V} (h : nodeAt ns i = some n) : i < ns.length :=
  (List.getElem?_eq_some_iff.mp (Option.join_eq_some_iff.mp h)).1

theorem Buckets.length_le {size : ℕ} {table : List (Option ℕ)} {ch : ℕ → List ℕ}
    (h : Buckets c ns size table ch) {b : ℕ} (hb : b < size) : (ch b).length ≤ ns.length := by
  have h1 : (ch b).Subperm (List.range ns.length) := by
    apply List.subperm_of_subset (h.nodup b hb)
    intro i hi
    obtain ⟨n, g, _⟩ := h.hash b hb i hi
    exact List.mem_range.mpr (nodeAt_lt g)
  simpa using h1.length_le

/-- The fields of the state that go together. -/
structure Sized (s : State K V) : Prop where
  size : s.tableSize = 2 ^ s.logSize
  mask : s.mask = 2 ^ s.logSize - 1

theorem Sized.and {s : State K V} (h : Sized s) (x : ℕ) : x &&& s.mask = x % s.tableSize := by
  rw [h.mask, h.size, Nat.and_two_pow_sub_one_eq_mod]

theorem Sized.lt {s : State K V} (h : Sized s) (x : ℕ) : x % s.tableSize < s.tableSize := by
  rw [h.size]
  exact Nat.mod_lt _ (Nat.two_pow_pos _)

theorem relink_spec {s : State K V} (hs : Sized s) {ch : ℕ → List ℕ}
    (h : Buckets c s.nodes s.tableSize s.table ch) {q : ℕ} {nq : Node K V}
    (hnq : nodeAt s.nodes q = some nq) (hnx : nq.next = none) (hq : ¬ InCh s.tableSize ch q) :
    ∃ s' ch', relink c s q nq.key = some s' ∧ Buckets c s'.nodes s.tableSize s'.table ch' ∧
      (∀ i, InCh s.tableSize ch' i ↔ InCh s.tableSize ch i ∨ i = q) ∧
      s'.tableSize = s.tableSize ∧ s'.logSize = s.logSize ∧ s'.mask = s.mask ∧
      s'.nodeCount = s.nodeCount ∧ kv s'.nodes = kv s.nodes ∧
      ∀ i, ¬ InCh s.tableSize ch i → i ≠ q → nodeAt s'.nodes i = nodeAt s.nodes i := by
  have hlt := hs.lt (c.hash nq.key)
  obtain ⟨p, hp⟩ : ∃ p, s.table[c.hash nq.key % s.tableSize]? = some p :=
    ⟨_, List.getElem?_eq_getElem (by rw [h.len]; exact hlt)⟩
  unfold relink
  simp only [hs.and, hp]
  cases p with
  | none =>
    obtain ⟨ns', g1, g2, g3⟩ := setNext_spec hnq none
    have hns : ∀ j, nodeAt ns' j = nodeAt s.nodes j := by
      intro j
      rw [g3]
      split
      · rename_i hj
        subst hj
        rw [hnq, ← hnx]
      · rfl
    have h2 : Buckets c ns' s.tableSize s.table ch :=
      ⟨h.len, fun b p hb => (h.chain b p hb).congr (fun i _ => by rw [hns]), h.nodup,
        fun b hb i hi => by rw [hns]; exact h.hash b hb i hi⟩
    obtain ⟨ch', e1, e2⟩ := bucket_empty h2 (by rw [hns]; exact hnq) hnx rfl hlt hq hp
    exact ⟨{ s with
      binCount := s.binCount + 1
      nodes := ns'
      table := s.table.set (c.hash nq.key % s.tableSize) (some q) }, ch', by simp only [g1], e1, e2,
      rfl, rfl, rfl, rfl, g2, fun i _ _ => hns i⟩
  | some r =>
    simp only
    cases hat : c.atEnd with
    | true =>
      obtain ⟨m, e, g1, g2⟩ := findLast_spec s.nodes.length r _ (h.chain _ _ hp) (h.length_le hlt)
      obtain ⟨ne, hne⟩ := (h.chain _ _ hp).exists_node e (by rw [g1]; simp)
      obtain ⟨ns', k1, k2, k3⟩ := setNext_spec hne (some q)
      obtain ⟨ch', e1, e2⟩ := bucket_end h hnq hnx rfl hlt hq g1 hne k3
      refine ⟨{ s with nodes := ns' }, ch', by simp [g2, k1], e1, e2, rfl, rfl, rfl, rfl, k2, ?_⟩
      intro i hi _
      show nodeAt ns' i = _
      rw [k3, if_neg]
      intro heq
      subst heq
      exact hi ⟨_, hlt, by rw [g1]; simp⟩
    | false =>
      obtain ⟨ns', k1, k2, k3⟩ := setNext_spec hnq (some r)
      obtain ⟨ch', e1, e2⟩ := bucket_front h hnq rfl hlt hq hp k3
      refine ⟨{ s with
        nodes := ns'
        table := s.table.set (c.hash nq.key % s.tableSize) (some q) }, ch', by simp [k1], e1, e2, rfl,
        rfl, rfl, rfl, k2, ?_⟩
      intro i _ hi
      show nodeAt ns' i = _
      rw [k3, if_neg hi]

theorem growChain_spec : ∀ (f : ℕ) (l : List ℕ) (p : Option ℕ) (s : State K V) (ch : ℕ → List ℕ)
    (rest : List ℕ), Sized s → Buckets c s.nodes s.tableSize s.table ch → IsChain s.nodes p l →
    l.length ≤ f → (l ++ rest).Nodup → (∀ i ∈ l ++ rest, ¬ InCh s.tableSize ch i) →
    ∃ s' ch', growChain c f p s = some s' ∧ Buckets c s'.nodes s.tableSize s'.table ch' ∧
      (∀ i, InCh s.tableSize ch' i ↔ InCh s.tableSize ch i ∨ i ∈ l) ∧
      s'.tableSize = s.tableSize ∧ s'.logSize = s.logSize ∧ s'.mask = s.mask ∧
      s'.nodeCount = s.nodeCount ∧ kv s'.nodes = kv s.nodes ∧
      ∀ i ∈ rest, nodeAt s'.nodes i = nodeAt s.nodes i := by
  intro f l
  induction l generalizing f with
  | nil =>
    intro p s ch rest hs h hc _ _ _
    cases p with
    | none =>
      refine ⟨s, ch, ?_, h, by simp, rfl, rfl, rfl, rfl, rfl, fun _ _ => rfl⟩
      cases f <;> rfl
    | some i => exact hc.elim
  | cons q l ih =>
    intro p s ch rest hs h hc hf hnd hdis
    cases p with
    | none => exact hc.elim
    | some i =>
      obtain ⟨rfl, n, h1, h2⟩ := hc
      cases f with
      | zero => simp at hf
      | succ f =>
        obtain ⟨ns, k1, k2, k3⟩ := setNext_spec h1 none
        have hqn : ¬ InCh s.tableSize ch i := hdis i (by simp)
        have hns : ∀ j, j ≠ i → nodeAt ns j = nodeAt s.nodes j := fun j hj => by rw [k3, if_neg hj]
        have hne : ∀ b < s.tableSize, ∀ j ∈ ch b, j ≠ i := by
          intro b hb j hj heq
          subst heq
          exact hqn ⟨b, hb, hj⟩
        have hB : Buckets c ns s.tableSize s.table ch := by
          refine ⟨h.len, fun b p hb => (h.chain b p hb).congr (fun j hj => ?_), h.nodup,
            fun b hb j hj => ?_⟩
          · have hbs : b < s.tableSize := by
              rw [← h.len]; exact (List.getElem?_eq_some_iff.mp hb).1
            rw [hns j (hne b hbs j hj)]
          · rw [hns j (hne b hb j hj)]; exact h.hash b hb j hj
        obtain ⟨s₁, ch₁, e1, e2, e3, e4, e5, e6, e7, e8, e9⟩ :=
          relink_spec (s := { s with nodes := ns }) (nq := { n with next := none }) ⟨hs.size, hs.mask⟩
            hB (q := i) (by show nodeAt ns i = _; rw [k3, if_pos rfl]) rfl hqn
        have hnd' := (List.nodup_cons.mp hnd)
        have hkeep : ∀ j ∈ l ++ rest, nodeAt s₁.nodes j = nodeAt s.nodes j := by
          intro j hj
          have hji : j ≠ i := by
            intro heq
            subst heq
            exact hnd'.1 hj
          rw [e9 j (hdis j (List.mem_cons_of_mem _ hj)) hji]
          exact hns j hji
        obtain ⟨s₂, ch₂, f1, f2, f3, f4, f5, f6, f7, f8, f9⟩ := ih f n.next s₁ ch₁ rest
          ⟨by rw [e4, e5]; exact hs.size, by rw [e6, e5]; exact hs.mask⟩ (by rw [e4]; exact e2)
          (h2.congr (fun j hj => by rw [hkeep j (List.mem_append_left _ hj)]))
          (by simp at hf; omega) hnd'.2 (by
            intro j hj hin
            rw [e4] at hin
            rcases (e3 j).mp hin with hin | heq
            · exact hdis j (List.mem_cons_of_mem _ hj) hin
            · subst heq
              exact hnd'.1 hj)
        rw [e4] at f2 f3 f4
        refine ⟨s₂, ch₂, ?_, f2, ?_, f4, f5.trans e5, f6.trans e6, f7.trans e7,
          f8.trans (e8.trans k2), ?_⟩
        · rw [growChain]
          simp only [h1, k1, e1]
          exact f1
        · intro j
          rw [f3]
          have := e3 j
          simp only at this
          rw [this]
          simp [or_assoc]
        · intro j hj
          rw [f9 j hj, hkeep j (List.mem_append_right _ hj)]

theorem growTable_spec : ∀ (old : List (Option ℕ)) (ls : List (List ℕ)) (s : State K V)
    (ch : ℕ → List ℕ), Sized s → Buckets c s.nodes s.tableSize s.table ch →
    List.Forall₂ (IsChain s.nodes) old ls → ls.flatten.Nodup →
    (∀ i ∈ ls.flatten, ¬ InCh s.tableSize ch i) →
    ∃ s' ch', growTable c old s = some s' ∧ Buckets c s'.nodes s.tableSize s'.table ch' ∧
      (∀ i, InCh s.tableSize ch' i ↔ InCh s.tableSize ch i ∨ i ∈ ls.flatten) ∧
      s'.tableSize = s.tableSize ∧ s'.logSize = s.logSize ∧ s'.mask = s.mask ∧
      s'.nodeCount = s.nodeCount ∧ kv s'.nodes = kv s.nodes := by
  intro old
  induction old with
  | nil =>
    intro ls s ch hs h hf _ _
    cases hf
    exact ⟨s, ch, rfl, h, by simp, rfl, rfl, rfl, rfl, rfl⟩
  | cons p old ih =>
    intro ls s ch hs h hf hnd hdis
    cases hf with
    | @cons _ l _ ls hc hf =>
      rw [List.flatten_cons] at hnd hdis
      have hlen : l.length ≤ s.nodes.length := by
        have h1 : l.Subperm (List.range s.nodes.length) := by
          apply List.subperm_of_subset (hnd.of_append_left)
          intro i hi
          obtain ⟨n, g⟩ := hc.exists_node i hi
          exact List.mem_range.mpr (nodeAt_lt g)
        simpa using h1.length_le
      obtain ⟨s₁, ch₁, e1, e2, e3, e4, e5, e6, e7, e8, e9⟩ :=
        growChain_spec s.nodes.length l p s ch ls.flatten hs h hc hlen hnd hdis
      have hf' : List.Forall₂ (IsChain s₁.nodes) old ls := by
        rw [List.forall₂_iff_get] at hf ⊢
        refine ⟨hf.1, fun i h₁ h₂ => (hf.2 i h₁ h₂).congr (fun j hj => ?_)⟩
        rw [e9 j (List.mem_flatten.mpr ⟨_, List.get_mem _ _, hj⟩)]
      obtain ⟨s₂, ch₂, f1, f2, f3, f4, f5, f6, f7, f8⟩ := ih ls s₁ ch₁
        ⟨by rw [e4, e5]; exact hs.size, by rw [e6, e5]; exact hs.mask⟩ (by rw [e4]; exact e2) hf'
        hnd.of_append_right (by
          intro j hj hin
          rw [e4] at hin
          rcases (e3 j).mp hin with hin | hin
          · exact hdis j (List.mem_append_right _ hj) hin
          · exact (List.disjoint_of_nodup_append hnd) hin hj)
      rw [e4] at f2 f3 f4
      refine ⟨s₂, ch₂, ?_, f2, ?_, f4, f5.trans e5, f6.trans e6, f7.trans e7, f8.trans e8⟩
      · rw [growTable]
        simp only [e1]
        exact f1
      · intro j
        rw [f3, e3, List.flatten_cons, List.mem_append, or_assoc]

/-- The invariant of the table, with the entries it holds. -/
structure Inv (c : Conf K) (s : State K V) (l : List (K × V)) : Prop where
  sized : Sized s
  count : s.nodeCount = l.length
  kv : kv s.nodes = l.map some
  distinct : l.Pairwise (fun a b => c.eq a.1 b.1 = false)
  buckets : ∃ ch, Buckets c s.nodes s.tableSize s.table ch ∧
    ∀ i, InCh s.tableSize ch i ↔ i < s.nodes.length

theorem inv_mk (nbits : ℕ) : Inv c (mk nbits : State K V) [] := by
  refine ⟨⟨rfl, rfl⟩, rfl, rfl, .nil, fun _ => [], ⟨?_, ?_, ?_, ?_⟩, ?_⟩
  · simp [mk]
  · intro b p hb
    have := List.eq_of_mem_replicate (List.mem_of_getElem? hb)
    subst this
    trivial
  · intro b _; exact List.nodup_nil
  · intro b _ i hi; cases hi
  · intro i
    simp [InCh, mk]

theorem flatten_nodup {size : ℕ} {table : List (Option ℕ)} {ch : ℕ → List ℕ}
    (h : Buckets c ns size table ch) : ((List.range size).map ch).flatten.Nodup := by
  rw [List.nodup_flatten]
  constructor
  · intro l hl
    obtain ⟨b, hb, rfl⟩ := List.mem_map.mp hl
    exact h.nodup b (List.mem_range.mp hb)
  · rw [List.pairwise_map]
    refine List.Pairwise.imp_of_mem ?_ (List.nodup_range (n := size))
    intro a b ha hb hab i hi hi'
    obtain ⟨n, g1, g2⟩ := h.hash a (List.mem_range.mp ha) i hi
    obtain ⟨n', g3, g4⟩ := h.hash b (List.mem_range.mp hb) i hi'
    rw [g1] at g3
    cases g3
    exact hab (g2.symm.trans g4)

theorem forall₂_chains {size : ℕ} {table : List (Option ℕ)} {ch : ℕ → List ℕ}
    (h : Buckets c ns size table ch) :
    List.Forall₂ (IsChain ns) table ((List.range size).map ch) := by
  rw [List.forall₂_iff_get]
  refine ⟨by simp [h.len], fun i h₁ h₂ => ?_⟩
  have := h.chain i table[i] (List.getElem?_eq_getElem h₁)
  simpa using this

theorem mem_flatten_range {size : ℕ} {ch : ℕ → List ℕ} {i : ℕ} :
    i ∈ ((List.range size).map ch).flatten ↔ InCh size ch i := by
  simp only [List.mem_flatten, List.mem_map, List.mem_range, InCh]
  constructor
  · rintro ⟨l, ⟨b, hb, rfl⟩, hi⟩; exact ⟨b, hb, hi⟩
  · rintro ⟨b, hb, hi⟩; exact ⟨_, ⟨b, hb, rfl⟩, hi⟩

theorem grow_spec {s : State K V} {l : List (K × V)} (h : Inv c s l) (nbits : ℕ) :
    ∃ s', grow c s nbits = some s' ∧ Inv c s' l := by
  obtain ⟨ch, hB, hall⟩ := h.buckets
  have h0 : Buckets c s.nodes (2 ^ nbits) (List.replicate (2 ^ nbits) none) (fun _ => []) := by
    refine ⟨by simp, ?_, fun _ _ => List.nodup_nil, nofun⟩
    intro b p hb
    have := List.eq_of_mem_replicate (List.mem_of_getElem? hb)
    subst this
    trivial
  obtain ⟨s', ch', e1, e2, e3, e4, e5, e6, e7, e8⟩ := growTable_spec (c := c) s.table
    ((List.range s.tableSize).map ch) { s with
      tableSize := 2 ^ nbits
      logSize := nbits
      mask := 2 ^ nbits - 1
      table := List.replicate (2 ^ nbits) none
      binCount := 0 } (fun _ => []) ⟨rfl, rfl⟩ h0 (forall₂_chains hB) (flatten_nodup hB)
    (by rintro i _ ⟨b, _, hi⟩; cases hi)
  refine ⟨{ s' with maxCount := threshold s'.tableSize }, ?_, ⟨?_, ?_⟩, ?_, ?_, h.distinct, ch', ?_, ?_⟩
  · rw [grow, List.take_of_length_le (by rw [hB.len]), e1]
  · show s'.tableSize = 2 ^ s'.logSize
    rw [e4, e5]
  · show s'.mask = 2 ^ s'.logSize - 1
    rw [e6, e5]
  · exact e7.trans h.count
  · exact e8.trans h.kv
  · show Buckets c s'.nodes s'.tableSize s'.table ch'
    rw [e4]; exact e2
  · intro i
    show InCh s'.tableSize ch' i ↔ i < s'.nodes.length
    rw [e4]
    have hlen : s'.nodes.length = s.nodes.length := by
      rw [← kv_length, e8, kv_length]
    rw [hlen, ← hall i]
    refine (e3 i).trans ?_
    rw [← mem_flatten_range (ch := ch)]
    constructor
    · rintro (⟨b, _, hi⟩ | hi)
      · cases hi
      · exact hi
    · exact Or.inr

theorem insertEnd_spec {s : State K V} {l : List (K × V)} (h : Inv c s l) (r : ℕ) :
    ∃ s', insertEnd c r s = some ((true, r), s') ∧ Inv c s' l := by
  unfold insertEnd
  split
  · obtain ⟨s', h1, h2⟩ := grow_spec h (s.logSize + 2)
    exact ⟨s', by rw [h1], h2⟩
  · exact ⟨s, rfl, h⟩

theorem Inv.nodes_length {s : State K V} {l : List (K × V)} (h : Inv c s l) :
    s.nodes.length = l.length := by
  rw [← kv_length, h.kv, List.length_map]

theorem Inv.nodeAt_eq {s : State K V} {l : List (K × V)} (h : Inv c s l) {i : ℕ} {n : Node K V}
    (hn : nodeAt s.nodes i = some n) : l[i]? = some (n.key, n.value) := by
  have := kv_nodeAt hn
  rw [h.kv, List.getElem?_map] at this
  cases hl : l[i]? with
  | none => rw [hl] at this; cases this
  | some e => rw [hl] at this; simpa using this

theorem Inv.exists_nodeAt {s : State K V} {l : List (K × V)} (h : Inv c s l) {i : ℕ} {e : K × V}
    (hl : l[i]? = some e) : ∃ nx, nodeAt s.nodes i = some ⟨e.1, e.2, nx⟩ := by
  have : (HashTable.kv s.nodes)[i]? = some (some e) := by
    rw [h.kv, List.getElem?_map, hl]; rfl
  rw [HashTable.kv, List.getElem?_map] at this
  obtain ⟨a, ha, hb⟩ := Option.map_eq_some_iff.mp this
  obtain ⟨n, hn, he⟩ := Option.map_eq_some_iff.mp hb
  subst he
  exact ⟨n.next, by rw [nodeAt, ha, hn]; rfl⟩

/-- A node with an equal key is in the bucket of the key. -/
theorem mem_bucket (hc : c.Lawful) {s : State K V} {l : List (K × V)} (h : Inv c s l)
    {ch : ℕ → List ℕ} (hB : Buckets c s.nodes s.tableSize s.table ch)
    (hall : ∀ i, InCh s.tableSize ch i ↔ i < s.nodes.length) {k : K} {i : ℕ} {e : K × V}
    (he : l[i]? = some e) (heq : c.eq e.1 k = true) : i ∈ ch (c.hash k % s.tableSize) := by
  obtain ⟨nx, hn⟩ := h.exists_nodeAt he
  obtain ⟨b, hb, hi⟩ := (hall i).mpr (nodeAt_lt hn)
  obtain ⟨n, g1, g2⟩ := hB.hash b hb i hi
  rw [hn] at g1
  cases g1
  rw [← hc.hash _ _ heq, show c.hash e.1 % s.tableSize = b from g2]
  exact hi

theorem find_of_mem (hc : c.Lawful) {s : State K V} {l : List (K × V)} (h : Inv c s l) {k : K} {i : ℕ}
    {n : Node K V} (hn : nodeAt s.nodes i = some n) (heq : c.eq n.key k = true) :
    specFind c.eq l k = some i := by
  have hl := h.nodeAt_eq hn
  obtain ⟨hi, hl'⟩ := List.getElem?_eq_some_iff.mp hl
  rw [specFind, List.findIdx?_eq_some_iff_getElem]
  refine ⟨hi, by rw [hl']; exact heq, ?_⟩
  intro j hj
  have := List.pairwise_iff_getElem.mp h.distinct j i (by omega) hi hj
  rw [hl'] at this
  intro hcon
  have h3 := hc.trans _ _ _ hcon (hc.symm _ _ heq)
  rw [this] at h3
  cases h3

theorem find_none (hc : c.Lawful) {s : State K V} {l : List (K × V)} (h : Inv c s l)
    {ch : ℕ → List ℕ} (hB : Buckets c s.nodes s.tableSize s.table ch)
    (hall : ∀ i, InCh s.tableSize ch i ↔ i < s.nodes.length) {k : K}
    (hno : ∀ i ∈ ch (c.hash k % s.tableSize), ∀ n, nodeAt s.nodes i = some n → c.eq n.key k = false) :
    specFind c.eq l k = none := by
  rw [specFind, List.findIdx?_eq_none_iff]
  intro e he
  obtain ⟨i, hi⟩ := List.mem_iff_getElem?.mp he
  by_contra hcon
  have hcon : c.eq e.1 k = true := by simpa using hcon
  obtain ⟨nx, hn⟩ := h.exists_nodeAt hi
  have := hno i (mem_bucket hc h hB hall hi hcon) _ hn
  rw [hcon] at this
  cases this

theorem lookup_spec (hc : c.Lawful) {s : State K V} {l : List (K × V)} (h : Inv c s l) (k : K) :
    lookup c s k = some (specFind c.eq l k) := by
  obtain ⟨ch, hB, hall⟩ := h.buckets
  have hlt := h.sized.lt (c.hash k)
  obtain ⟨p, hp⟩ : ∃ p, s.table[c.hash k % s.tableSize]? = some p :=
    ⟨_, List.getElem?_eq_getElem (by rw [hB.len]; exact hlt)⟩
  rw [lookup]
  simp only [h.sized.and, hp]
  rcases lookupLoop_spec (c := c) k s.nodes.length p _ (hB.chain _ _ hp) (hB.length_le hlt) with
    ⟨i, n, g1, g2, g3, g4⟩ | ⟨g1, g2⟩
  · rw [g4, find_of_mem hc h g2 g3]
  · rw [g2, find_none hc h hB hall g1]

theorem insert_spec (hc : c.Lawful) {s : State K V} {l : List (K × V)} (h : Inv c s l) (k : K) (v : V) :
    (∀ i, specFind c.eq l k = some i → insert c s k v = some ((false, i), s)) ∧
    (specFind c.eq l k = none →
      ∃ s', insert c s k v = some ((true, l.length), s') ∧ Inv c s' (l ++ [(k, v)])) := by
  obtain ⟨ch, hB, hall⟩ := h.buckets
  have hlt := h.sized.lt (c.hash k)
  obtain ⟨p, hp⟩ : ∃ p, s.table[c.hash k % s.tableSize]? = some p :=
    ⟨_, List.getElem?_eq_getElem (by rw [hB.len]; exact hlt)⟩
  -- the state after `makeNode`
  have hnew : nodeAt (s.nodes ++ [some ⟨k, v, none⟩]) s.nodes.length = some ⟨k, v, none⟩ := by
    simp [nodeAt]
  have hold : ∀ i, i < s.nodes.length →
      nodeAt (s.nodes ++ [some ⟨k, v, none⟩]) i = nodeAt s.nodes i := by
    intro i hi
    simp [nodeAt, List.getElem?_append_left hi]
  have hmem : ∀ b < s.tableSize, ∀ i ∈ ch b, i < s.nodes.length :=
    fun b hb i hi => (hall i).mp ⟨b, hb, hi⟩
  have hB' : Buckets c (s.nodes ++ [some ⟨k, v, none⟩]) s.tableSize s.table ch := by
    refine ⟨hB.len, fun b p hb => (hB.chain b p hb).congr (fun i hi => ?_), hB.nodup,
      fun b hb i hi => ?_⟩
    · have hbs : b < s.tableSize := by rw [← hB.len]; exact (List.getElem?_eq_some_iff.mp hb).1
      rw [hold i (hmem b hbs i hi)]
    · rw [hold i (hmem b hb i hi)]; exact hB.hash b hb i hi
  have hq : ¬ InCh s.tableSize ch s.nodes.length := fun hin => by
    have := (hall _).mp hin
    omega
  have hkv : kv (s.nodes ++ [some ⟨k, v, none⟩]) = (l ++ [(k, v)]).map some := by
    have := h.kv
    unfold kv at this ⊢
    rw [List.map_append, this, List.map_append]
    rfl
  have hdist : specFind c.eq l k = none → (l ++ [(k, v)]).Pairwise (fun a b => c.eq a.1 b.1 = false) := by
    intro hnone
    rw [List.pairwise_append]
    refine ⟨h.distinct, List.pairwise_singleton _ _, ?_⟩
    intro a ha b hb
    rw [List.mem_singleton] at hb
    subst hb
    exact (List.findIdx?_eq_none_iff.mp hnone) a ha
  have hcount : s.nodeCount + 1 = (l ++ [(k, v)]).length := by simp [h.count]
  -- what is left to show for each way of linking
  have hfin : ∀ (ns : List (Option (Node K V))) (table : List (Option ℕ)) (ch' : ℕ → List ℕ),
      specFind c.eq l k = none → Buckets c ns s.tableSize table ch' →
      (∀ i, InCh s.tableSize ch' i ↔ InCh s.tableSize ch i ∨ i = s.nodes.length) →
      kv ns = kv (s.nodes ++ [some ⟨k, v, none⟩]) →
      Inv c { s with nodeCount := s.nodeCount + 1, nodes := ns, table := table } (l ++ [(k, v)]) := by
    intro ns table ch' hnone e1 e2 e3
    refine ⟨⟨h.sized.size, h.sized.mask⟩, hcount, e3.trans hkv, hdist hnone, ch', e1, ?_⟩
    intro i
    show InCh s.tableSize ch' i ↔ i < ns.length
    rw [e2, hall, ← kv_length (ns := ns), e3, kv_length, List.length_append, List.length_singleton]
    omega
  rw [insert]
  simp only [h.sized.and, hp]
  cases p with
  | none =>
    have hnil := (hB.chain _ _ hp).none
    have hnone : specFind c.eq l k = none := by
      apply find_none hc h hB hall
      rw [hnil]
      nofun
    refine ⟨fun i hi => (by rw [hnone] at hi; cases hi), fun _ => ?_⟩
    obtain ⟨ch', e1, e2⟩ := bucket_empty hB' hnew rfl rfl hlt hq hp
    obtain ⟨s', g1, g2⟩ := insertEnd_spec (hfin _ _ ch' hnone e1 e2 rfl) s.nodes.length
    refine ⟨s', ?_, g2⟩
    rw [← h.nodes_length]
    exact g1
  | some t =>
    have hch := hB.chain _ _ hp
    rcases walk_spec (c := c) k s.nodes.length t _ hch (hB.length_le hlt) with
      ⟨i, n, g1, g2, g3, g4⟩ | ⟨g1, m, e, g2, g3⟩
    · have hf := find_of_mem hc h g2 g3
      refine ⟨fun j hj => ?_, fun hn => by rw [hf] at hn; cases hn⟩
      rw [hf] at hj
      cases hj
      simp only [g4]
    · have hnone := find_none hc h hB hall g1
      refine ⟨fun i hi => (by rw [hnone] at hi; cases hi), fun _ => ?_⟩
      simp only [g3, makeNode]
      obtain ⟨ne, hne⟩ := (hB'.chain _ _ hp).exists_node e (by rw [g2]; simp)
      cases hat : c.atEnd with
      | true =>
        obtain ⟨ns', k1, k2, k3⟩ := setNext_spec hne (some s.nodes.length)
        obtain ⟨ch', e1, e2⟩ := bucket_end hB' hnew rfl rfl hlt hq g2 hne k3
        obtain ⟨s', f1, f2⟩ := insertEnd_spec (hfin _ _ ch' hnone e1 e2 k2) s.nodes.length
        refine ⟨s', ?_, f2⟩
        simp only [k1, if_true]
        rw [f1, h.nodes_length]
      | false =>
        obtain ⟨ns', k1, k2, k3⟩ := setNext_spec hnew (some t)
        obtain ⟨ch', e1, e2⟩ := bucket_front hB' hnew rfl hlt hq hp k3
        obtain ⟨s', f1, f2⟩ := insertEnd_spec (hfin _ _ ch' hnone e1 e2 k2) s.nodes.length
        refine ⟨s', ?_, f2⟩
        simp only [k1, Bool.false_eq_true, if_false]
        rw [f1, h.nodes_length]

theorem setValue_spec {s : State K V} {l : List (K × V)} (h : Inv c s l) (i : ℕ) (v : V) :
    (l[i]? = none → setValue s i v = none) ∧
    ∀ e, l[i]? = some e → ∃ s', setValue s i v = some s' ∧ Inv c s' (l.set i (e.1, v)) := by
  constructor
  · intro hn
    have : nodeAt s.nodes i = none := by
      cases hx : nodeAt s.nodes i with
      | none => rfl
      | some n => rw [h.nodeAt_eq hx] at hn; cases hn
    simp [setValue, this]
  · intro e he
    obtain ⟨nx, hn⟩ := h.exists_nodeAt he
    have hlt := nodeAt_lt hn
    have hat : ∀ j, nodeAt (s.nodes.set i (some ⟨e.1, v, nx⟩)) j =
        if j = i then some ⟨e.1, v, nx⟩ else nodeAt s.nodes j := by
      intro j
      unfold nodeAt
      rw [List.getElem?_set]
      by_cases hij : i = j
      · subst hij; simp [hlt]
      · have : ¬ j = i := fun h => hij h.symm
        simp [hij, this]
    refine ⟨{ s with nodes := s.nodes.set i (some ⟨e.1, v, nx⟩) }, by simp [setValue, hn],
      ⟨h.sized.size, h.sized.mask⟩, by simpa using h.count, ?_, ?_, ?_⟩
    · have := h.kv
      show kv (s.nodes.set i _) = _
      unfold kv at this ⊢
      rw [List.map_set, this, List.map_set]
      rfl
    · have hd := h.distinct
      obtain ⟨hi, he'⟩ := List.getElem?_eq_some_iff.mp he
      rw [List.pairwise_iff_getElem] at hd ⊢
      intro a b ha hb hab
      have hk : ∀ (a : ℕ) (ha : a < l.length) (ha' : a < (l.set i (e.1, v)).length),
          ((l.set i (e.1, v))[a]).1 = l[a].1 := by
        intro a ha ha'
        rw [List.getElem_set]
        split
        · rename_i hia
          subst hia
          rw [he']
        · rfl
      rw [hk a (by simpa using ha), hk b (by simpa using hb)]
      exact hd a b (by simpa using ha) (by simpa using hb) hab
    · obtain ⟨ch, hB, hall⟩ := h.buckets
      refine ⟨ch, ⟨hB.len, fun b p hb => (hB.chain b p hb).congr (fun j hj => ?_), hB.nodup,
        fun b hb j hj => ?_⟩, fun j => by simpa using hall j⟩
      · rw [hat]
        split
        · rename_i hji; subst hji; rw [hn]; rfl
        · rfl
      · obtain ⟨n, g1, g2⟩ := hB.hash b hb j hj
        rw [hat]
        split
        · rename_i hji
          subst hji
          rw [hn] at g1
          cases g1
          exact ⟨_, rfl, g2⟩
        · exact ⟨n, g1, g2⟩

theorem getEntry_spec {s : State K V} {l : List (K × V)} (h : Inv c s l) (i : ℕ) :
    getEntry s i = l[i]? := by
  cases he : l[i]? with
  | none =>
    have : nodeAt s.nodes i = none := by
      cases hx : nodeAt s.nodes i with
      | none => rfl
      | some n => rw [h.nodeAt_eq hx] at he; cases he
    simp [getEntry, this]
  | some e =>
    obtain ⟨nx, hn⟩ := h.exists_nodeAt he
    simp [getEntry, hn]

theorem computeNodeCount_spec {s : State K V} {l : List (K × V)} (h : Inv c s l) :
    computeNodeCount s = some l.length := by
  obtain ⟨ch, hB, hall⟩ := h.buckets
  have hperm : ((List.range s.tableSize).map ch).flatten.Perm (List.range s.nodes.length) := by
    rw [List.perm_ext_iff_of_nodup (flatten_nodup hB) List.nodup_range]
    intro i
    rw [mem_flatten_range, hall, List.mem_range]
  have hgen : ∀ (t : List (Option ℕ)) (ls : List (List ℕ)) (r : ℕ), List.Forall₂ (IsChain s.nodes) t ls →
      (∀ l ∈ ls, l.length ≤ s.nodes.length) →
      t.foldlM (fun r p => (chainLength s.nodes s.nodes.length p).map (r + ·)) r =
        some (r + ls.flatten.length) := by
    intro t
    induction t with
    | nil => intro ls r hf _; cases hf; simp
    | cons p t ih =>
      intro ls r hf hl
      cases hf with
      | @cons _ l _ ls hc hf =>
        rw [List.foldlM_cons, chainLength_spec _ _ _ hc (hl l List.mem_cons_self)]
        simp only [Option.map_some, Option.bind_eq_bind, Option.bind_some]
        rw [ih ls _ hf (fun l' hl' => hl l' (List.mem_cons_of_mem _ hl'))]
        simp [add_assoc]
  rw [computeNodeCount, List.take_of_length_le (by rw [hB.len]),
    hgen _ _ 0 (forall₂_chains hB) (by
      intro l hl
      obtain ⟨b, hb, rfl⟩ := List.mem_map.mp hl
      exact hB.length_le (List.mem_range.mp hb)), hperm.length_eq]
  simp [h.nodes_length]

theorem step_spec (hc : c.Lawful) {s : State K V} {l : List (K × V)} (h : Inv c s l) (op : Op K V) :
    (specStep c.eq l op = none → step c s op = none) ∧
    ∀ o l', specStep c.eq l op = some (o, l') → ∃ s', step c s op = some (o, s') ∧ Inv c s' l' := by
  cases op with
  | insert k v =>
    have hi := insert_spec hc h k v
    simp only [specStep, step]
    cases hf : specFind c.eq l k with
    | none =>
      refine ⟨nofun, fun o l' ho => ?_⟩
      cases ho
      obtain ⟨s', g1, g2⟩ := hi.2 hf
      exact ⟨s', by rw [g1]; rfl, g2⟩
    | some i =>
      refine ⟨nofun, fun o l' ho => ?_⟩
      cases ho
      exact ⟨s, by rw [hi.1 i hf]; rfl, h⟩
  | lookup k =>
    refine ⟨nofun, fun o l' ho => ?_⟩
    cases ho
    exact ⟨s, by simp only [step, lookup_spec hc h k]; rfl, h⟩
  | getEntry i =>
    simp only [specStep, step, getEntry_spec h]
    cases he : l[i]? with
    | none => exact ⟨fun _ => rfl, nofun⟩
    | some e =>
      refine ⟨nofun, fun o l' ho => ?_⟩
      cases ho
      exact ⟨s, rfl, h⟩
  | setValue i v =>
    have hv := setValue_spec h i v
    simp only [specStep, step]
    cases he : l[i]? with
    | none => exact ⟨fun _ => by rw [hv.1 he]; rfl, nofun⟩
    | some e =>
      refine ⟨nofun, fun o l' ho => ?_⟩
      cases ho
      obtain ⟨s', g1, g2⟩ := hv.2 e he
      exact ⟨s', by rw [g1]; rfl, g2⟩

theorem run_spec (hc : c.Lawful) : ∀ (ops : List (Op K V)) (s : State K V) (l : List (K × V)),
    Inv c s l → (specRun c.eq l ops = none → run c s ops = none) ∧
    ∀ outs l', specRun c.eq l ops = some (outs, l') →
      ∃ s', run c s ops = some (outs, s') ∧ Inv c s' l' := by
  intro ops
  induction ops with
  | nil =>
    intro s l h
    refine ⟨nofun, fun outs l' ho => ?_⟩
    cases ho
    exact ⟨s, rfl, h⟩
  | cons op ops ih =>
    intro s l h
    have h1 := step_spec hc h op
    simp only [specRun, run]
    cases hsp : specStep c.eq l op with
    | none => exact ⟨fun _ => by rw [h1.1 hsp], nofun⟩
    | some r =>
      obtain ⟨s₁, g1, g2⟩ := h1.2 r.1 r.2 hsp
      have h2 := ih s₁ r.2 g2
      simp only [g1]
      cases hrs : specRun c.eq r.2 ops with
      | none => exact ⟨fun _ => by rw [h2.1 hrs], nofun⟩
      | some q =>
        obtain ⟨s₂, f1, f2⟩ := h2.2 q.1 q.2 hrs
        refine ⟨nofun, fun outs l' ho => ?_⟩
        cases ho
        exact ⟨s₂, by rw [f1], f2⟩

theorem relink_logSize {s s' : State K V} {q : ℕ} {k : K} (h : relink c s q k = some s') :
    s'.logSize = s.logSize := by
  unfold relink at h
  simp only at h
  split at h
  · cases h
  · split at h
    · cases h
    · cases h; rfl
  · split at h
    · split at h
      · cases h
      · split at h
        · cases h
        · cases h; rfl
    · split at h
      · cases h
      · cases h; rfl

theorem growChain_logSize : ∀ (f : ℕ) (p : Option ℕ) (s s' : State K V),
    growChain c f p s = some s' → s'.logSize = s.logSize := by
  intro f
  induction f with
  | zero =>
    intro p s s' h
    cases p with
    | none => cases h; rfl
    | some q => cases h
  | succ f ih =>
    intro p s s' h
    cases p with
    | none => cases h; rfl
    | some q =>
      rw [growChain] at h
      split at h
      · cases h
      · split at h
        · cases h
        · split at h
          · cases h
          · rename_i h1
            have h2 := relink_logSize h1
            exact (ih _ _ _ h).trans h2

theorem growTable_logSize : ∀ (old : List (Option ℕ)) (s s' : State K V),
    growTable c old s = some s' → s'.logSize = s.logSize := by
  intro old
  induction old with
  | nil => intro s s' h; cases h; rfl
  | cons p old ih =>
    intro s s' h
    rw [growTable] at h
    split at h
    · cases h
    · rename_i h1
      exact (ih _ _ h).trans (growChain_logSize _ _ _ _ h1)

theorem grow_logSize {s s' : State K V} {nbits : ℕ} (h : grow c s nbits = some s') :
    s'.logSize = nbits := by
  rw [grow] at h
  split at h
  · cases h
  · rename_i h1
    cases h
    exact growTable_logSize _ _ _ h1

/-! ## The size of the table -/

/-- What growing keeps. -/
def SameCount (s s' : State K V) : Prop := s'.nodeCount = s.nodeCount ∧ s'.tableSize = s.tableSize

theorem SameCount.trans {s s' s'' : State K V} (h : SameCount s s') (h' : SameCount s' s'') : SameCount s s'' :=
  ⟨h'.1.trans h.1, h'.2.trans h.2⟩

theorem relink_count {s s' : State K V} {q : ℕ} {k : K} (h : relink c s q k = some s') : SameCount s s' := by
  unfold relink at h
  simp only at h
  split at h
  · cases h
  · split at h
    · cases h
    · cases h; exact ⟨rfl, rfl⟩
  · split at h
    · split at h
      · cases h
      · split at h
        · cases h
        · cases h; exact ⟨rfl, rfl⟩
    · split at h
      · cases h
      · cases h; exact ⟨rfl, rfl⟩

theorem growChain_count : ∀ (f : ℕ) (p : Option ℕ) (s s' : State K V),
    growChain c f p s = some s' → SameCount s s' := by
  intro f
  induction f with
  | zero =>
    intro p s s' h
    cases p with
    | none => cases h; exact ⟨rfl, rfl⟩
    | some q => cases h
  | succ f ih =>
    intro p s s' h
    cases p with
    | none => cases h; exact ⟨rfl, rfl⟩
    | some q =>
      rw [growChain] at h
      split at h
      · cases h
      · split at h
        · cases h
        · split at h
          · cases h
          · rename_i h1
            have h2 := relink_count h1
            exact SameCount.trans h2 (ih _ _ _ h)

theorem growTable_count : ∀ (old : List (Option ℕ)) (s s' : State K V),
    growTable c old s = some s' → SameCount s s' := by
  intro old
  induction old with
  | nil => intro s s' h; cases h; exact ⟨rfl, rfl⟩
  | cons p old ih =>
    intro s s' h
    rw [growTable] at h
    split at h
    · cases h
    · rename_i h1
      exact SameCount.trans (growChain_count _ _ _ _ h1) (ih _ _ h)

theorem grow_count {s s' : State K V} {nbits : ℕ} (h : grow c s nbits = some s') :
    s'.nodeCount = s.nodeCount ∧ s'.maxCount = threshold (2 ^ nbits) := by
  rw [grow] at h
  split at h
  · cases h
  · rename_i h1
    cases h
    have := growTable_count _ _ _ h1
    refine ⟨this.1, ?_⟩
    show threshold _ = _
    rw [this.2]

/-- The bits of the table as the code computes them. -/
def codeBits (start : ℕ) : ℕ → ℕ
  | 0 => start
  | n + 1 => if threshold (2 ^ codeBits start n) < n + 1 then codeBits start n + 2 else codeBits start n

/-- The size fits the number of nodes. -/
structure Fit (start : ℕ) (s : State K V) : Prop where
  bits : s.logSize = codeBits start s.nodeCount
  max : s.maxCount = threshold (2 ^ s.logSize)

theorem fit_mk (nbits : ℕ) : Fit nbits (mk nbits : State K V) := ⟨rfl, rfl⟩

theorem insertEnd_fit {start : ℕ} {s₀ s s' : State K V} {r : ℕ} {b : Bool × ℕ} (h₀ : Fit start s₀)
    (h : insertEnd c r s = some (b, s'))
    (h1 : s.nodeCount = s₀.nodeCount + 1) (h2 : s.logSize = s₀.logSize) (h3 : s.maxCount = s₀.maxCount) : Fit start s' := by
  unfold insertEnd at h
  split at h
  · rename_i hc
    split at h
    · cases h
    · rename_i hg
      cases h
      obtain ⟨g1, g2⟩ := grow_count hg
      have g3 := grow_logSize hg
      refine ⟨?_, by rw [g2, g3]⟩
      rw [g1, h1, codeBits, ← h₀.bits, ← h₀.max, if_pos (by omega), g3, h2]
  · rename_i hc
    cases h
    refine ⟨?_, by rw [h3, h2]; exact h₀.max⟩
    rw [h1, codeBits, ← h₀.bits, ← h₀.max, if_neg (by omega), h2]

theorem insert_fit {start : ℕ} {s s' : State K V} {k : K} {v : V} {b : Bool × ℕ} (h₀ : Fit start s)
    (h : insert c s k v = some (b, s')) : Fit start s' := by
  unfold insert at h
  simp only [makeNode] at h
  split at h
  · cases h
  · exact insertEnd_fit h₀ h rfl rfl rfl
  · split at h
    · cases h
    · cases h; exact h₀
    · split at h
      · split at h
        · cases h
        · exact insertEnd_fit h₀ h rfl rfl rfl
      · split at h
        · cases h
        · exact insertEnd_fit h₀ h rfl rfl rfl

theorem step_fit {start : ℕ} {s s' : State K V} {op : Op K V} {o : Out K V} (h₀ : Fit start s)
    (h : step c s op = some (o, s')) : Fit start s' := by
  cases op with
  | insert k v =>
    obtain ⟨⟨b, t⟩, h1, h2⟩ := Option.map_eq_some_iff.mp h
    cases h2
    exact insert_fit h₀ h1
  | lookup k =>
    obtain ⟨r, h1, h2⟩ := Option.map_eq_some_iff.mp h
    cases h2
    exact h₀
  | getEntry i =>
    obtain ⟨r, h1, h2⟩ := Option.map_eq_some_iff.mp h
    cases h2
    exact h₀
  | setValue i v =>
    obtain ⟨r, h1, h2⟩ := Option.map_eq_some_iff.mp h
    cases h2
    unfold setValue at h1
    split at h1
    · cases h1
    · cases h1; exact ⟨h₀.bits, h₀.max⟩

theorem run_fit {start : ℕ} : ∀ (ops : List (Op K V)) (s s' : State K V) (outs : List (Out K V)), Fit start s →
    run c s ops = some (outs, s') → Fit start s' := by
  intro ops
  induction ops with
  | nil => intro s s' outs h₀ h; cases h; exact h₀
  | cons op ops ih =>
    intro s s' outs h₀ h
    rw [run] at h
    split at h
    · cases h
    · rename_i h1
      split at h
      · cases h
      · rename_i h2
        cases h
        exact ih _ _ _ (step_fit h₀ h1) h2

theorem threshold_eq (n : ℕ) (h : n ≤ 54) : threshold (2 ^ n) = 2 ^ n / 10 := by
  unfold threshold
  interval_cases n <;> norm_num

theorem bitsFor_mono (start n : ℕ) : bitsFor start n ≤ bitsFor start (n + 1) := by
  rw [bitsFor]; split <;> omega

theorem codeBits_eq (start n : ℕ) (h : bitsFor start n ≤ 54) : codeBits start n = bitsFor start n := by
  induction n with
  | zero => rfl
  | succ n ih =>
    have h1 := (bitsFor_mono start n).trans h
    rw [codeBits, bitsFor, ih h1, threshold_eq _ h1]

theorem bitsFor_step (start n : ℕ) (ih : n ≤ 2 ^ bitsFor start n / 10 ∧ 2 ≤ bitsFor start n) :
    n + 1 ≤ 2 ^ bitsFor start (n + 1) / 10 ∧ 2 ≤ bitsFor start (n + 1) := by
  rw [bitsFor]
  split
  · refine ⟨?_, by omega⟩
    obtain ⟨h1, h2⟩ := ih
    have : 4 ≤ 2 ^ bitsFor start n := by
      calc 4 = 2 ^ 2 := rfl
        _ ≤ _ := Nat.pow_le_pow_right (by norm_num) h2
    rw [pow_add]
    omega
  · exact ⟨by omega, ih.2⟩

theorem bitsFor_from (start m : ℕ) (h : m ≤ 2 ^ bitsFor start m / 10 ∧ 2 ≤ bitsFor start m) (n : ℕ) (hn : m ≤ n) :
    n ≤ 2 ^ bitsFor start n / 10 := by
  obtain ⟨d, rfl⟩ := Nat.exists_eq_add_of_le hn
  have : ∀ d, m + d ≤ 2 ^ bitsFor start (m + d) / 10 ∧ 2 ≤ bitsFor start (m + d) := by
    intro d
    induction d with
    | zero => exact h
    | succ d ih => exact bitsFor_step start (m + d) ih
  exact (this d).1

theorem bitsFor_load (start n : ℕ) (h : 2 ≤ start ∨ 3 ≤ n ∨ (start = 1 ∧ 2 ≤ n) ∨ n = 0) :
    n ≤ 2 ^ bitsFor start n / 10 := by
  by_cases h2 : 2 ≤ start
  · exact bitsFor_from start 0 ⟨Nat.zero_le _, h2⟩ n (Nat.zero_le _)
  · by_cases h0 : n = 0
    · rw [h0]; exact Nat.zero_le _
    · have : start = 0 ∨ start = 1 := by omega
      rcases this with rfl | rfl
      · exact bitsFor_from 0 3 (by simp [bitsFor]) n (by omega)
      · exact bitsFor_from 1 2 (by simp [bitsFor]) n (by omega)

end Verif.HashTable
