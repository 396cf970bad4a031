import Verif.TourTree
import Mathlib.Tactic.Ring

/-!
# Helper lemmas for `TourTree`

The invariant of the tournament tree and that each call keeps it.
-/

namespace Verif.TourTree

variable {E : Type}

/-! ## Positions of leaves -/

/-- The leaf of each player when there are `n` players. -/
def leafPos : ℕ → List ℕ
  | 0 => []
  | n + 1 => (leafPos n).map (fun x => if x = n then 2 * n else x) ++ [2 * n + 1]

theorem leafPos_length (n : ℕ) : (leafPos n).length = n := by
  induction n with
  | zero => rfl
  | succ n ih => simp [leafPos, ih]

theorem mem_leafPos (n x : ℕ) : x ∈ leafPos n ↔ n ≤ x ∧ x < 2 * n := by
  induction n generalizing x with
  | zero => simp [leafPos]
  | succ n ih =>
    simp only [leafPos, List.mem_append, List.mem_map, List.mem_singleton]
    constructor
    · rintro (⟨a, ha, rfl⟩ | rfl)
      · have := (ih a).mp ha
        split <;> omega
      · omega
    · intro h
      by_cases h1 : x = 2 * n + 1
      · exact Or.inr h1
      · left
        by_cases h2 : x = 2 * n
        · exact ⟨n, (ih n).mpr (by omega), by simp [h2]⟩
        · exact ⟨x, (ih x).mpr (by omega), by rw [if_neg (by omega)]⟩

/-! ## Ancestors -/

/-- `i` is a proper ancestor of `pos`. -/
def Anc (i pos : ℕ) : Prop := ∃ k, pos / 2 ^ (k + 1) = i

theorem anc_half (pos : ℕ) : Anc (pos / 2) pos := ⟨0, by simp⟩

theorem anc_step {i pos : ℕ} (h : Anc i (pos / 2)) : Anc i pos := by
  obtain ⟨k, hk⟩ := h
  refine ⟨k + 1, ?_⟩
  rw [Nat.div_div_eq_div_mul, ← pow_succ'] at hk
  exact hk

theorem anc_cases {i pos : ℕ} (h : Anc i pos) : i = pos / 2 ∨ Anc i (pos / 2) := by
  obtain ⟨k, hk⟩ := h
  cases k with
  | zero => left; simpa using hk.symm
  | succ k =>
    right
    refine ⟨k, ?_⟩
    rw [Nat.div_div_eq_div_mul, ← pow_succ']
    exact hk

theorem anc_lt {i pos : ℕ} (h : Anc i pos) (hp : 1 ≤ pos) : i < pos := by
  obtain ⟨k, rfl⟩ := h
  exact Nat.div_lt_self hp (Nat.one_lt_two_pow (by omega))

theorem not_anc_one {i : ℕ} (hi : 1 ≤ i) : ¬ Anc i 1 := fun h => by
  have := anc_lt h (le_refl _)
  omega

/-! ## The invariant -/

/-- The winner of node `i` is the winner of one of its children. -/
def Choice (tree : List ℕ) (i : ℕ) : Prop := rd tree i = rd tree (2 * i) ∨ rd tree i = rd tree (2 * i + 1)

/-- The entry that has won node `i`. -/
def entAt (players : List (E × ℕ)) (tree : List ℕ) (i : ℕ) : Option E :=
  (rd tree i).bind (fun p => (players[p]?).map Prod.fst)

/-- The winner of node `i` is not less than the winners of its children. -/
def Ord (c : PQConf E) (players : List (E × ℕ)) (tree : List ℕ) (i : ℕ) : Prop :=
  ∀ k, (k = 2 * i ∨ k = 2 * i + 1) → ∀ a b, entAt players tree i = some a →
    entAt players tree k = some b → c.lt a b = false

/-- The part of the invariant that does not depend on the order of entries. -/
structure Shape (s : State E) : Prop where
  len : s.tree.length = 2 * s.players.length - 1
  leafs : s.players.map Prod.snd = leafPos s.players.length
  leafTree : ∀ p q, s.players[p]? = some q → rd s.tree q.2 = some p
  choice : ∀ i, 1 ≤ i → i < s.players.length → Choice s.tree i
  cap : s.tree.length ≤ s.cap
  capPos : 2 ≤ s.cap
  pcap : s.cap + 1 ≤ 2 * s.pcap

/-- The whole invariant. -/
structure Inv (c : PQConf E) (s : State E) : Prop extends Shape s where
  ord : ∀ i, 1 ≤ i → i < s.players.length → Ord c s.players s.tree i

theorem leaf_range {s : State E} (h : Shape s) {p : ℕ} {q : E × ℕ} (hq : s.players[p]? = some q) :
    s.players.length ≤ q.2 ∧ q.2 < 2 * s.players.length := by
  rw [← mem_leafPos, ← h.leafs]
  exact List.mem_map_of_mem (List.mem_of_getElem? hq)

/-- Each leaf belongs to a player. -/
theorem leaf_exists {s : State E} (h : Shape s) {i : ℕ} (h1 : s.players.length ≤ i)
    (h2 : i < 2 * s.players.length) : ∃ (p : ℕ) (q : E × ℕ), s.players[p]? = some q ∧ q.2 = i := by
  have : i ∈ s.players.map Prod.snd := by rw [h.leafs, mem_leafPos]; exact ⟨h1, h2⟩
  obtain ⟨q, hq, rfl⟩ := List.mem_map.mp this
  obtain ⟨p, hp⟩ := List.mem_iff_getElem?.mp hq
  exact ⟨p, q, hp, rfl⟩

/-- The winner of a node has its leaf below that node, and has won all nodes on the way. -/
theorem path {s : State E} (h : Shape s) : ∀ (n i : ℕ), 2 * s.players.length - i = n → 1 ≤ i →
    i < 2 * s.players.length → ∃ (p : ℕ) (q : E × ℕ) (k : ℕ), s.players[p]? = some q ∧ rd s.tree i = some p ∧
      q.2 / 2 ^ k = i ∧ ∀ m ≤ k, rd s.tree (q.2 / 2 ^ m) = some p := by
  intro n
  induction n using Nat.strong_induction_on with
  | _ n ih =>
    intro i hn h1 h2
    by_cases hl : s.players.length ≤ i
    · obtain ⟨p, q, hq, rfl⟩ := leaf_exists h hl h2
      refine ⟨p, q, 0, hq, h.leafTree p q hq, by simp, ?_⟩
      intro m hm
      have : m = 0 := by omega
      subst this
      simpa using h.leafTree p q hq
    · have key : ∀ j, (j = 2 * i ∨ j = 2 * i + 1) → rd s.tree i = rd s.tree j →
          ∃ (p : ℕ) (q : E × ℕ) (k : ℕ), s.players[p]? = some q ∧ rd s.tree i = some p ∧
          q.2 / 2 ^ k = i ∧ ∀ m ≤ k, rd s.tree (q.2 / 2 ^ m) = some p := by
        intro j hj hrd
        obtain ⟨p, q, k, e1, e2, e3, e4⟩ := ih (2 * s.players.length - j) (by omega) j rfl (by omega)
          (by omega)
        have e5 : q.2 / 2 ^ (k + 1) = i := by
          rw [pow_succ, ← Nat.div_div_eq_div_mul, e3]; omega
        refine ⟨p, q, k + 1, e1, by rw [hrd, e2], e5, ?_⟩
        intro m hm
        rcases Nat.lt_or_ge k m with hk | hk
        · have : m = k + 1 := by omega
          subst this
          rw [e5, hrd, e2]
        · exact e4 m hk
      rcases h.choice i h1 (by omega) with hc | hc
      · exact key _ (Or.inl rfl) hc
      · exact key _ (Or.inr rfl) hc

/-- Tree cells point to players. -/
theorem cell_lt {s : State E} (h : Shape s) {i p : ℕ} (hp : rd s.tree i = some p) :
    p < s.players.length := by
  have hb := rd_bounds hp
  have hl := h.len
  obtain ⟨p', q, k, e1, e2, _⟩ := path h _ i rfl hb.1 (by omega)
  rw [hp] at e2
  cases e2
  exact (List.getElem?_eq_some_iff.mp e1).1

/-- The occurrences of a player are on the path up from its leaf, without gaps. -/
theorem occ {s : State E} (h : Shape s) {i p : ℕ} {q : E × ℕ} (hp : rd s.tree i = some p)
    (hq : s.players[p]? = some q) :
    ∃ k, q.2 / 2 ^ k = i ∧ ∀ m ≤ k, rd s.tree (q.2 / 2 ^ m) = some p := by
  have hb := rd_bounds hp
  have hl := h.len
  obtain ⟨p', q', k, e1, e2, e3, e4⟩ := path h _ i rfl hb.1 (by omega)
  rw [hp] at e2
  cases e2
  rw [hq] at e1
  cases e1
  exact ⟨k, e3, e4⟩

theorem entAt_some {s : State E} (h : Shape s) {i : ℕ} (h1 : 1 ≤ i) (h2 : i ≤ s.tree.length) :
    ∃ a, entAt s.players s.tree i = some a := by
  obtain ⟨p, hp⟩ := rd_exists h1 h2
  have hlt := cell_lt h hp
  exact ⟨_, by rw [entAt, hp, Option.bind_some, List.getElem?_eq_getElem hlt]; rfl⟩

/-- The winner of the root is a maximum. -/
theorem root_max {c : PQConf E} (hc : StrictWeak c.lt) {s : State E} (h : Inv c s) {x : E}
    (hx : entAt s.players s.tree 1 = some x) :
    ∀ i, 1 ≤ i → ∀ y, entAt s.players s.tree i = some y → c.lt x y = false := by
  intro i
  induction i using Nat.strong_induction_on with
  | _ i ih =>
    intro h1 y hy
    by_cases hi : i = 1
    · subst hi
      rw [hx] at hy
      cases hy
      exact hc.irrefl _
    · have hb : i ≤ s.tree.length := by
        unfold entAt at hy
        cases hr : rd s.tree i with
        | none => rw [hr] at hy; cases hy
        | some p => exact (rd_bounds hr).2
      have hl := h.len
      obtain ⟨a, ha⟩ := entAt_some h.toShape (i := i / 2) (by omega) (by omega)
      have h2 := ih (i / 2) (by omega) (by omega) a ha
      have h3 := h.ord (i / 2) (by omega) (by omega) i (by omega) a y ha hy
      exact hc.ge_trans h2 h3

/-! ## The loops -/

theorem sibling_spec {pos : ℕ} (h : 2 ≤ pos) :
    (sibling pos = 2 * (pos / 2) ∧ pos = 2 * (pos / 2) + 1 ∨
     sibling pos = 2 * (pos / 2) + 1 ∧ pos = 2 * (pos / 2)) := by
  unfold sibling
  split <;> omega

/-- The replay loop: makes all ancestors of `pos` right, leaves the other cells alone. -/
theorem replayLoop_spec (c : PQConf E) (players : List (E × ℕ)) :
    ∀ (pos : ℕ) (tree : List ℕ) (player : ℕ), 1 ≤ pos → pos ≤ tree.length → tree.length % 2 = 1 →
      (∀ i p, rd tree i = some p → p < players.length) → rd tree pos = some player →
      ∃ tree', replayLoop c players tree pos player = some tree' ∧ tree'.length = tree.length ∧
        (∀ i, ¬ Anc i pos → rd tree' i = rd tree i) ∧
        (∀ i, 1 ≤ i → Anc i pos → Choice tree' i) ∧
        (StrictWeak c.lt → ∀ i, 1 ≤ i → Anc i pos → Ord c players tree' i) := by
  intro pos
  induction pos using Nat.strong_induction_on with
  | _ pos ih =>
    intro tree player h1 h2 hodd hval hpl
    by_cases hroot : pos = 1
    · subst hroot
      refine ⟨tree, by rw [replayLoop]; simp, rfl, fun _ _ => rfl, ?_, ?_⟩
      · intro i hi ha; exact absurd ha (not_anc_one hi)
      · intro _ i hi ha; exact absurd ha (not_anc_one hi)
    · have hsib := sibling_spec (pos := pos) (by omega)
      obtain ⟨opp, hopp⟩ := rd_exists (t := tree) (i := sibling pos) (by omega) (by omega)
      have hpb := hval _ _ hpl
      have hob := hval _ _ hopp
      have hpe := List.getElem?_eq_getElem hpb
      have hoe := List.getElem?_eq_getElem hob
      generalize hw : (if c.lt players[player].1 players[opp].1 then opp else player) = win
      have hwr := wr_some (t := tree) win (i := pos / 2) (by omega) (by omega)
      generalize ht1 : tree.set (pos / 2 - 1) win = tree1 at hwr
      have hrd1 : ∀ j, rd tree1 j = if j = pos / 2 then some win else rd tree j := fun j => rd_wr hwr
      have hwin : win = opp ∨ win = player := by
        rw [← hw]; split
        · exact Or.inl rfl
        · exact Or.inr rfl
      have hval1 : ∀ i p, rd tree1 i = some p → p < players.length := by
        intro i p hp
        rw [hrd1] at hp
        split at hp
        · cases hp
          rcases hwin with h | h <;> rw [h] <;> assumption
        · exact hval i p hp
      obtain ⟨tree', e1, e2, e3, e4, e5⟩ := ih (pos / 2) (by omega) tree1 win (by omega)
        (by rw [wr_length hwr]; omega) (by rw [wr_length hwr]; omega) hval1 (by rw [hrd1, if_pos rfl])
      have hnotanc : ∀ j, pos / 2 ≤ j → ¬ Anc j (pos / 2) := by
        intro j hj ha
        have := anc_lt ha (by omega)
        omega
      have f1 : rd tree' (pos / 2) = some win := by
        rw [e3 _ (hnotanc _ (by omega)), hrd1, if_pos rfl]
      have f2 : rd tree' pos = some player := by
        rw [e3 _ (hnotanc _ (by omega)), hrd1, if_neg (by omega), hpl]
      have f3 : rd tree' (sibling pos) = some opp := by
        rw [e3 _ (hnotanc _ (by omega)), hrd1, if_neg (by omega), hopp]
      refine ⟨tree', ?_, by rw [e2, wr_length hwr], ?_, ?_, ?_⟩
      · rw [replayLoop, if_neg hroot, if_neg (by omega), hopp]
        simp only [hpe, hoe, hw, hwr]
        exact e1
      · intro i hi
        have hne : i ≠ pos / 2 := fun h => hi (h ▸ anc_half pos)
        rw [e3 i (fun h => hi (anc_step h)), hrd1, if_neg hne]
      · intro i hi ha
        rcases anc_cases ha with rfl | ha
        · unfold Choice
          rw [f1]
          rcases hsib with ⟨hs1, hs2⟩ | ⟨hs1, hs2⟩
          · have g2 : rd tree' (2 * (pos / 2) + 1) = some player := by rw [← hs2]; exact f2
            rw [hs1] at f3
            rw [f3, g2]
            rcases hwin with rfl | rfl <;> simp
          · have g2 : rd tree' (2 * (pos / 2)) = some player := by rw [← hs2]; exact f2
            rw [hs1] at f3
            rw [f3, g2]
            rcases hwin with rfl | rfl <;> simp
        · exact e4 i hi ha
      · intro hc i hi ha
        rcases anc_cases ha with rfl | ha
        · intro k hk a b hea heb
          have hk' : k = pos ∨ k = sibling pos := by omega
          have hea' : entAt players tree' (pos / 2) = (players[win]?).map Prod.fst := by
            rw [entAt, f1]; rfl
          rw [hea'] at hea
          have hor : entAt players tree' pos = some players[player].1 := by
            rw [entAt, f2, Option.bind_some, hpe]; rfl
          have hos : entAt players tree' (sibling pos) = some players[opp].1 := by
            rw [entAt, f3, Option.bind_some, hoe]; rfl
          cases hlt : c.lt players[player].1 players[opp].1 with
          | true =>
            rw [hlt, if_pos rfl] at hw
            subst hw
            rw [hoe] at hea
            cases hea
            rcases hk' with rfl | rfl
            · rw [hor] at heb; cases heb; exact hc.asymm hlt
            · rw [hos] at heb; cases heb; exact hc.irrefl _
          | false =>
            rw [hlt, if_neg (by simp)] at hw
            subst hw
            rw [hpe] at hea
            cases hea
            rcases hk' with rfl | rfl
            · rw [hor] at heb; cases heb; exact hc.irrefl _
            · rw [hos] at heb; cases heb; exact hlt
        · exact e5 hc i hi ha


theorem entAt_congr {players : List (E × ℕ)} {t t' : List ℕ} {i : ℕ} (h : rd t' i = rd t i) :
    entAt players t' i = entAt players t i := by rw [entAt, entAt, h]

theorem entAt_of {players : List (E × ℕ)} {t : List ℕ} {i p : ℕ} {q : E × ℕ} (h : rd t i = some p)
    (hq : players[p]? = some q) : entAt players t i = some q.1 := by
  rw [entAt, h, Option.bind_some, hq]; rfl

/-- The loop of `push`: everything is right but node `pos / 2`. -/
theorem pushLoop_spec (c : PQConf E) (players : List (E × ℕ)) :
    ∀ (pos : ℕ) (tree : List ℕ) (p q : ℕ) (pe qe : E × ℕ), 2 ≤ pos → pos ≤ tree.length →
      tree.length % 2 = 1 → rd tree pos = some p → rd tree (pos / 2) = some q →
      players[p]? = some pe → players[q]? = some qe →
      (∀ i r, rd tree i = some r → r < players.length) →
      (rd tree (sibling pos) = some q ∨ c.lt qe.1 pe.1 = true) →
      (∀ i, 1 ≤ i → 2 * i < tree.length → i ≠ pos / 2 → Choice tree i) →
      ∃ tree', pushLoop c players tree pos (pos / 2) = some tree' ∧ tree'.length = tree.length ∧
        (∀ i, ¬ Anc i pos → rd tree' i = rd tree i) ∧
        (∀ i, 1 ≤ i → 2 * i < tree.length → Choice tree' i) ∧
        (StrictWeak c.lt →
          (∀ i, 1 ≤ i → 2 * i < tree.length → i ≠ pos / 2 → Ord c players tree i) →
          (∀ b, entAt players tree (sibling pos) = some b → c.lt qe.1 b = false) →
          (∀ i, 1 ≤ i → 2 * i < tree.length → Ord c players tree' i)) := by
  intro pos
  induction pos using Nat.strong_induction_on with
  | _ pos ih =>
    intro tree p q pe qe h1 h2 hodd hp hq hpe hqe hval hj hch
    have hsib := sibling_spec h1
    cases hlt : c.lt qe.1 pe.1 with
    | false =>
      have hj' : rd tree (sibling pos) = some q := by
        rcases hj with h | h
        · exact h
        · rw [hlt] at h; cases h
      refine ⟨tree, ?_, rfl, fun _ _ => rfl, ?_, ?_⟩
      · rw [pushLoop]
        split
        · rename_i h; rw [hq] at h; cases h
        · rename_i q' h
          rw [hq] at h; cases h
          simp only [hp, hqe, hpe, hlt, if_true]
      · intro i hi hil
        by_cases hip : i = pos / 2
        · subst hip
          unfold Choice
          rw [hq, ← hj']
          rcases hsib with ⟨hs1, _⟩ | ⟨hs1, _⟩
          · left; rw [hs1]
          · right; rw [hs1]
        · exact hch i hi hil hip
      · intro hc hord hsb i hi hil
        by_cases hip : i = pos / 2
        · subst hip
          intro k hk a b ha hb
          rw [entAt_of hq hqe] at ha
          cases ha
          have hk' : k = pos ∨ k = sibling pos := by omega
          rcases hk' with rfl | rfl
          · rw [entAt_of hp hpe] at hb
            cases hb
            exact hlt
          · exact hsb b hb
        · exact hord i hi hil hip
    | true =>
      have hwr := wr_some (t := tree) p (i := pos / 2) (by omega) (by omega)
      generalize ht1 : tree.set (pos / 2 - 1) p = tree1 at hwr
      have hrd1 : ∀ j, rd tree1 j = if j = pos / 2 then some p else rd tree j := fun j => rd_wr hwr
      have hlen1 := wr_length hwr
      have hval1 : ∀ i r, rd tree1 i = some r → r < players.length := by
        intro i r hr
        rw [hrd1] at hr
        split at hr
        · cases hr
          exact hval _ _ hp
        · exact hval i r hr
      have hch1 : ∀ i, 1 ≤ i → 2 * i < tree.length → i ≠ pos / 2 / 2 → Choice tree1 i := by
        intro i hi hil hne
        unfold Choice
        by_cases hip : i = pos / 2
        · rw [hrd1, if_pos hip]
          have : pos = 2 * i ∨ pos = 2 * i + 1 := by omega
          rcases this with h | h
          · left; rw [hrd1, if_neg (by omega), ← h, hp]
          · right; rw [hrd1, if_neg (by omega), ← h, hp]
        · have := hch i hi hil hip
          unfold Choice at this
          rw [hrd1, hrd1, hrd1, if_neg hip, if_neg (by omega), if_neg (by omega)]
          exact this
      have hord1 : StrictWeak c.lt →
          (∀ i, 1 ≤ i → 2 * i < tree.length → i ≠ pos / 2 → Ord c players tree i) →
          (∀ b, entAt players tree (sibling pos) = some b → c.lt qe.1 b = false) →
          (∀ i, 1 ≤ i → 2 * i < tree.length → i ≠ pos / 2 / 2 → Ord c players tree1 i) := by
        intro hc hord hsb i hi hil hne k hk a b ha hb
        by_cases hip : i = pos / 2
        · have hr : rd tree1 i = some p := by rw [hrd1, if_pos hip]
          rw [entAt_of hr hpe] at ha
          cases ha
          have hk' : k = pos ∨ k = sibling pos := by omega
          have hkr : rd tree1 k = rd tree k := by rw [hrd1, if_neg (by omega)]
          rw [entAt_congr hkr] at hb
          rcases hk' with rfl | rfl
          · rw [entAt_of hp hpe] at hb
            cases hb
            exact hc.irrefl _
          · have h3 := hsb b hb
            exact hc.ge_trans (hc.asymm hlt) h3
        · have hkr : rd tree1 k = rd tree k := by rw [hrd1, if_neg (by omega)]
          have hir : rd tree1 i = rd tree i := by rw [hrd1, if_neg hip]
          rw [entAt_congr hkr] at hb
          rw [entAt_congr hir] at ha
          exact hord i hi hil hip k hk a b ha hb
      have hstep : pushLoop c players tree pos (pos / 2) =
          if pos / 2 = 1 then some tree1 else pushLoop c players tree1 (pos / 2) (pos / 2 / 2) := by
        rw [pushLoop]
        split
        · rename_i h; rw [hq] at h; cases h
        · rename_i q' h
          rw [hq] at h; cases h
          simp only [hp, hqe, hpe, hlt, hwr]
          simp
      by_cases hroot : pos / 2 = 1
      · refine ⟨tree1, by rw [hstep, if_pos hroot], hlen1, ?_, ?_, ?_⟩
        · intro i hi
          rw [hrd1, if_neg]
          intro h
          exact hi (h ▸ anc_half pos)
        · intro i hi hil
          exact hch1 i hi hil (by omega)
        · intro hc hord hsb i hi hil
          exact hord1 hc hord hsb i hi hil (by omega)
      · obtain ⟨q', hq'⟩ := rd_exists (t := tree1) (i := pos / 2 / 2) (by omega) (by omega)
        have hq0 : rd tree (pos / 2 / 2) = some q' := by
          rw [hrd1, if_neg (by omega)] at hq'
          exact hq'
        have hqe' := List.getElem?_eq_getElem (hval1 _ _ hq')
        have hsib2 := sibling_spec (pos := pos / 2) (by omega)
        have hchq := hch (pos / 2 / 2) (by omega) (by omega) (by omega)
        have hj1 : rd tree1 (sibling (pos / 2)) = some q' ∨
            c.lt (players[q']'(hval1 _ _ hq')).1 pe.1 = true := by
          unfold Choice at hchq
          rw [hq0] at hchq
          have hor : some q' = rd tree (pos / 2) ∨ some q' = rd tree (sibling (pos / 2)) := by
            rcases hsib2 with ⟨hs1, hs2⟩ | ⟨hs1, hs2⟩
            · rw [hs1]
              rcases hchq with h | h
              · right; exact h
              · left; rw [← hs2] at h; exact h
            · rw [hs1]
              rcases hchq with h | h
              · left; rw [← hs2] at h; exact h
              · right; exact h
          rcases hor with h | h
          · right
            rw [hq] at h
            cases h
            rw [hqe] at hqe'
            cases hqe'
            exact hlt
          · left
            rw [hrd1, if_neg (by omega)]
            exact h.symm
        obtain ⟨tree', e1, e2, e3, e4, e5⟩ := ih (pos / 2) (by omega) tree1 p q' pe _ (by omega)
          (by omega) (by omega) (by rw [hrd1, if_pos rfl]) hq' hpe hqe' hval1 hj1
          (by rw [hlen1]; exact hch1)
        rw [hlen1] at e4 e5
        refine ⟨tree', by rw [hstep, if_neg hroot]; exact e1, by omega, ?_, e4, ?_⟩
        · intro i hi
          rw [e3 i (fun h => hi (anc_step h)), hrd1, if_neg]
          intro h
          exact hi (h ▸ anc_half pos)
        · intro hc hord hsb
          apply e5 hc (hord1 hc hord hsb)
          intro b hb
          have hr : rd tree1 (sibling (pos / 2)) = rd tree (sibling (pos / 2)) := by
            rw [hrd1, if_neg (by omega)]
          rw [entAt_congr hr] at hb
          exact hord (pos / 2 / 2) (by omega) (by omega) (by omega) (sibling (pos / 2)) (by omega) _ b
            (entAt_of hq0 hqe') hb

/-! ## `push` -/

theorem shape_reallocate {s : State E} (h : Shape s) :
    Shape (reallocate s) ∧ 2 ≤ (reallocate s).cap - s.tree.length := by
  have hc := h.cap
  have hp := h.capPos
  have hne : s.cap ≠ 0 := by omega
  refine ⟨⟨h.len, h.leafs, h.leafTree, h.choice, ?_, ?_, ?_⟩, ?_⟩ <;>
    simp only [reallocate, if_neg hne] <;> omega

theorem shape_init : Shape (init : State E) := by
  refine ⟨rfl, rfl, ?_, ?_, ?_, ?_, ?_⟩ <;> simp [init, reallocate]

theorem anc_le_half {i pos : ℕ} (h : Anc i pos) (hp : 1 ≤ pos) : i ≤ pos / 2 := by
  rcases anc_cases h with h | h
  · omega
  · rcases Nat.eq_zero_or_pos (pos / 2) with h0 | h0
    · obtain ⟨k, hk⟩ := h
      rw [h0, Nat.zero_div] at hk
      omega
    · have := anc_lt h h0
      omega

theorem push_spec (c : PQConf E) {s : State E} (h : Shape s) (e : E) :
    ∃ s', push c s e = some s' ∧ Shape s' ∧ entries s' = entries s ++ [e] ∧
      (StrictWeak c.lt → Inv c s → Inv c s') := by
  obtain ⟨s1, hs1, h1, hfree, hent, htree, hinv⟩ : ∃ s1, s1 =
      (if s.cap - s.tree.length ≥ 2 then s else reallocate s) ∧ Shape s1 ∧
      2 ≤ s1.cap - s1.tree.length ∧ s1.players = s.players ∧ s1.tree = s.tree ∧
      (Inv c s → Inv c s1) := by
    refine ⟨_, rfl, ?_⟩
    split
    · exact ⟨h, by omega, rfl, rfl, id⟩
    · exact ⟨(shape_reallocate h).1, (shape_reallocate h).2, rfl, rfl,
        fun hi => ⟨(shape_reallocate h).1, hi.ord⟩⟩
  unfold push
  rw [← hs1]
  have hentS : entries s = entries s1 := by rw [entries, entries, hent]
  rw [hentS]
  clear hs1 hent htree
  have hlen := h1.len
  have hpc := h1.pcap
  by_cases hemp : s1.tree = []
  · have hn0 : s1.players.length = 0 := by rw [hemp] at hlen; simp at hlen; omega
    have hp0 : s1.players = [] := List.length_eq_zero_iff.mp hn0
    refine ⟨{ s1 with tree := [0], players := [(e, 1)] }, ?_, ?_, ?_, ?_⟩
    · rw [if_pos hemp]
      rw [hemp] at hfree
      simp at hfree
      simp [playersPush, treePush, hemp, hp0, show 0 < s1.pcap by omega, show 0 < s1.cap by omega]
    · refine ⟨rfl, rfl, ?_, ?_, ?_, h1.capPos, hpc⟩
      · intro p q hq
        cases p with
        | zero => simp at hq; subst hq; rfl
        | succ p => simp at hq
      · intro i hi hi'
        simp at hi'
        omega
      · have := h1.capPos
        simp; omega
    · simp [entries, hp0]
    · intro _ _
      refine ⟨?_, ?_⟩
      · refine ⟨rfl, rfl, ?_, ?_, ?_, h1.capPos, hpc⟩
        · intro p q hq
          cases p with
          | zero => simp at hq; subst hq; rfl
          | succ p => simp at hq
        · intro i hi hi'
          simp at hi'
          omega
        · have := h1.capPos
          simp; omega
      · intro i hi hi'
        simp at hi'
        omega
  · have hne : s1.tree.length ≠ 0 := fun h0 => hemp (List.length_eq_zero_iff.mp h0)
    generalize hn : s1.players.length = n at *
    have hlen' : s1.tree.length + 1 = 2 * n := by omega
    have hpp : (s1.tree.length + 1) / 2 = n := by omega
    obtain ⟨md, me, hmd, hml⟩ := leaf_exists h1 (i := n) (by omega) (by omega)
    have hrd : rd s1.tree n = some md := by rw [← hml]; exact h1.leafTree _ _ hmd
    have hmdl : md < n := by rw [← hn]; exact (List.getElem?_eq_some_iff.mp hmd).1
    -- the new players and the tree before the loop
    generalize hps : s1.players.set md (me.1, 2 * n) ++ [(e, 2 * n + 1)] = ps
    generalize ht2 : s1.tree ++ [md] ++ [n] = t2
    have hpsl : ps.length = n + 1 := by rw [← hps]; simp [hn]
    have ht2l : t2.length = 2 * n + 1 := by rw [← ht2]; simp; omega
    have hps_last : ps[n]? = some (e, 2 * n + 1) := by
      rw [← hps, List.getElem?_append_right (by simp [hn])]
      simp [hn]
    have hps_md : ps[md]? = some (me.1, 2 * n) := by
      rw [← hps, List.getElem?_append_left (by simp; omega), List.getElem?_set]
      simp; omega
    have hps_old : ∀ r, r < n → r ≠ md → ps[r]? = s1.players[r]? := by
      intro r hr hrm
      rw [← hps, List.getElem?_append_left (by simp; omega), List.getElem?_set, if_neg (by omega)]
    have hps_fst : ∀ r, r < n → (ps[r]?).map Prod.fst = (s1.players[r]?).map Prod.fst := by
      intro r hr
      by_cases hrm : r = md
      · subst hrm; rw [hps_md, hmd]; rfl
      · rw [hps_old r hr hrm]
    have ht2_old : ∀ i, i < 2 * n → rd t2 i = rd s1.tree i := by
      intro i hi
      rcases Nat.eq_zero_or_pos i with h0 | h0
      · subst h0; rfl
      · rw [← ht2, rd_append_left (by simp; omega) h0, rd_append_left (by omega) h0]
    have ht2_2n : rd t2 (2 * n) = some md := by
      rw [← ht2, rd_append_left (by simp; omega) (by omega)]
      have := rd_append_last (t := s1.tree) (a := md)
      rwa [hlen'] at this
    have ht2_last : rd t2 (2 * n + 1) = some n := by
      have := rd_append_last (t := s1.tree ++ [md]) (a := n)
      rw [List.length_append, List.length_singleton, hlen', ht2] at this
      exact this
    have hval : ∀ i r, rd t2 i = some r → r < ps.length := by
      intro i r hr
      have hb := rd_bounds hr
      rw [hpsl]
      by_cases hi : i < 2 * n
      · rw [ht2_old i hi] at hr
        have := cell_lt h1 hr
        omega
      · by_cases hi2 : i = 2 * n
        · subst hi2; rw [ht2_2n] at hr; cases hr; omega
        · have : i = 2 * n + 1 := by omega
          subst this; rw [ht2_last] at hr; cases hr; omega
    have hhalf : (2 * n + 1) / 2 = n := by omega
    have hsib : sibling (2 * n + 1) = 2 * n := by unfold sibling; rw [if_neg (by omega)]; omega
    obtain ⟨t', e1, e2, e3, e4, e5⟩ := pushLoop_spec c ps (2 * n + 1) t2 n md (e, 2 * n + 1)
      (me.1, 2 * n) (by omega) (by omega) (by omega) ht2_last
      (by rw [hhalf, ht2_old n (by omega)]; exact hrd) hps_last hps_md hval
      (by rw [hsib]; exact Or.inl ht2_2n)
      (by
        intro i hi hil hne
        have := h1.choice i hi (by omega)
        unfold Choice at this ⊢
        rw [ht2_old _ (by omega), ht2_old _ (by omega), ht2_old _ (by omega)]
        exact this)
    rw [hhalf] at e1
    have hent' : ps.map Prod.fst = s1.players.map Prod.fst ++ [e] := by
      apply List.ext_getElem?
      intro r
      rw [List.getElem?_map]
      by_cases hr : r < n
      · rw [hps_fst r hr, List.getElem?_append_left (by simp; omega), List.getElem?_map]
      · by_cases hr2 : r = n
        · subst hr2
          rw [hps_last, List.getElem?_append_right (by simp; omega)]
          simp [hn]
        · rw [List.getElem?_eq_none (by omega), List.getElem?_eq_none (by simp; omega)]
          rfl
    have hshape : Shape { s1 with tree := t', players := ps } := by
      refine ⟨?_, ?_, ?_, ?_, ?_, h1.capPos, hpc⟩
      · show t'.length = 2 * ps.length - 1
        omega
      · show ps.map Prod.snd = leafPos ps.length
        rw [hpsl, leafPos, ← hps, List.map_append, List.map_set]
        congr 1
        rw [← hn, ← h1.leafs]
        apply List.ext_getElem?
        intro r
        rw [List.getElem?_set]
        simp only [List.getElem?_map]
        by_cases hr : md = r
        · subst hr
          rw [if_pos rfl, if_pos (by simp; omega), hmd]
          simp [hml, hn]
        · rw [if_neg hr]
          cases hpr : s1.players[r]? with
          | none => rfl
          | some q =>
            simp only [Option.map_some]
            rw [if_neg]
            intro hqn
            have := h1.leafTree r q hpr
            rw [hqn, hn, hrd] at this
            cases this
            exact hr rfl
      · intro p q hq
        have hq : ps[p]? = some q := hq
        show rd t' q.2 = some p
        have hpl := (List.getElem?_eq_some_iff.mp hq).1
        have hnanc : ∀ j, n < j → ¬ Anc j (2 * n + 1) := by
          intro j hj ha
          have := anc_le_half ha (by omega)
          omega
        by_cases hpn : p = n
        · subst hpn
          rw [hps_last] at hq
          cases hq
          rw [e3 _ (hnanc _ (by omega))]
          exact ht2_last
        · by_cases hpm : p = md
          · subst hpm
            rw [hps_md] at hq
            cases hq
            rw [e3 _ (hnanc _ (by omega))]
            exact ht2_2n
          · rw [hps_old p (by omega) hpm] at hq
            have hr := leaf_range h1 hq
            have hlt := h1.leafTree p q hq
            have hqn : q.2 ≠ n := by
              intro hqn
              rw [hqn, hrd] at hlt
              cases hlt
              exact hpm rfl
            rw [e3 _ (hnanc _ (by omega)), ht2_old _ (by omega)]
            exact hlt
      · intro i hi hil
        have hil : i < ps.length := hil
        exact e4 i hi (by omega)
      · show t'.length ≤ s1.cap
        omega
    refine ⟨{ s1 with tree := t', players := ps }, ?_, hshape, hent', ?_⟩
    · rw [if_neg hemp]
      simp only [show 2 * n / 2 = n by omega, hrd, treePush, Option.bind_eq_bind, Option.bind_some,
        show s1.tree.length < s1.cap by omega, if_true, setLeaf, hmd, Option.map_some, playersPush,
        List.length_append, List.length_singleton, hlen', List.length_set, hn,
        show n < s1.pcap by omega, show 2 * n < s1.cap by omega, hpsl, Nat.add_sub_cancel, hps, ht2, ht2l, e1]
    · intro hc hi
      have hi := hinv hi
      refine ⟨hshape, ?_⟩
      have hentold : ∀ i, i < 2 * n → entAt ps t2 i = entAt s1.players s1.tree i := by
        intro i hi
        unfold entAt
        rw [ht2_old i hi]
        cases hr : rd s1.tree i with
        | none => rfl
        | some r =>
          simp only [Option.bind_some]
          exact hps_fst r (by have := cell_lt h1 hr; omega)
      intro i hi1 hil
      have hil : i < ps.length := hil
      refine e5 hc ?_ ?_ i hi1 (by omega)
      · intro i hi1 hil hne k hk a b ha hb
        rw [hentold _ (by omega)] at ha hb
        exact hi.ord i hi1 (by omega) k hk a b ha hb
      · intro b hb
        rw [hsib, entAt_of ht2_2n hps_md] at hb
        cases hb
        exact hc.irrefl _

theorem pushRange_spec (c : PQConf E) (l : List E) : ∀ {s : State E}, Shape s →
    ∃ s', pushRange c s l = some s' ∧ Shape s' ∧ entries s' = entries s ++ l ∧
      (StrictWeak c.lt → Inv c s → Inv c s') := by
  induction l with
  | nil => intro s h; exact ⟨s, rfl, h, by simp, fun _ h => h⟩
  | cons e l ih =>
    intro s h
    obtain ⟨s1, e1, e2, e3, e4⟩ := push_spec c h e
    obtain ⟨s2, f1, f2, f3, f4⟩ := ih e2
    refine ⟨s2, by rw [pushRange, e1]; exact f1, f2, by rw [f3, e3]; simp, ?_⟩
    intro hc hi
    exact f4 hc (e4 hc hi)

/-! ## `decreaseTop` -/

theorem nonempty_tree {s : State E} (h : Shape s) : s.tree.length = 0 ↔ entries s = [] := by
  have := h.len
  rw [entries, List.map_eq_nil_iff, ← List.length_eq_zero_iff]
  omega

/-- The order afterwards needs the order before only between entries that stay: `c₀` may compare
the top differently. -/
theorem decreaseTop_core (c : PQConf E) {s : State E} (h : Shape s) (hne : entries s ≠ []) (e : E) :
    ∃ x s', top s = some x ∧ decreaseTop c s e = some s' ∧ Shape s' ∧
      (∃ i, (entries s)[i]? = some x ∧ entries s' = (entries s).set i e ∧
        ∀ c₀ : PQConf E, StrictWeak c.lt → Inv c₀ s →
          (∀ j k a b, j ≠ i → k ≠ i → (entries s)[j]? = some a → (entries s)[k]? = some b →
            c.lt a b = c₀.lt a b) → Inv c s') := by
  have hlen := h.len
  have hl0 : s.tree.length ≠ 0 := fun h0 => hne ((nonempty_tree h).mp h0)
  obtain ⟨w, hw⟩ := rd_exists (t := s.tree) (i := 1) (by omega) (by omega)
  have hwl := cell_lt h hw
  obtain ⟨q, hq⟩ : ∃ q, s.players[w]? = some q := ⟨_, List.getElem?_eq_getElem hwl⟩
  have hps : setEntry s.players w e = some (s.players.set w (e, q.2)) := by
    simp [setEntry, hq]
  generalize hpsd : s.players.set w (e, q.2) = ps at hps
  have hpw : ps[w]? = some (e, q.2) := by
    rw [← hpsd, List.getElem?_set, if_pos rfl, if_pos hwl]
  have hpo : ∀ r, r ≠ w → ps[r]? = s.players[r]? := by
    intro r hr
    rw [← hpsd, List.getElem?_set, if_neg (Ne.symm hr)]
  have hpl : ps.length = s.players.length := by rw [← hpsd]; simp
  have hr := leaf_range h hq
  obtain ⟨t', e1, e2, e3, e4, e5⟩ := replayLoop_spec c ps q.2 s.tree w (by omega) (by omega) (by omega)
    (fun i p hp => by rw [hpl]; exact cell_lt h hp) (h.leafTree w q hq)
  have hshape : Shape { s with players := ps, tree := t' } := by
    refine ⟨?_, ?_, ?_, ?_, ?_, h.capPos, h.pcap⟩
    · show t'.length = 2 * ps.length - 1
      omega
    · show ps.map Prod.snd = leafPos ps.length
      rw [hpl, ← h.leafs, ← hpsd, List.map_set]
      apply List.ext_getElem?
      intro r
      rw [List.getElem?_set]
      split
      · rename_i hrw
        subst hrw
        rw [if_pos (by simpa using hwl), List.getElem?_map, hq]
        rfl
      · rfl
    · intro p q' hq'
      have hq' : ps[p]? = some q' := hq'
      show rd t' q'.2 = some p
      have hq2 : ∃ q'', s.players[p]? = some q'' ∧ q''.2 = q'.2 := by
        by_cases hpw' : p = w
        · subst hpw'
          rw [hpw] at hq'
          cases hq'
          exact ⟨q, hq, rfl⟩
        · rw [hpo p hpw'] at hq'
          exact ⟨q', hq', rfl⟩
      obtain ⟨q'', g1, g2⟩ := hq2
      rw [← g2]
      have hr' := leaf_range h g1
      rw [e3]
      · exact h.leafTree p q'' g1
      · intro ha
        have := anc_le_half ha (by omega)
        omega
    · intro i hi hil
      have hil : i < s.players.length := by rw [← hpl]; exact hil
      show Choice t' i
      by_cases ha : Anc i q.2
      · exact e4 i hi ha
      · have := h.choice i hi hil
        -- a child on the path would make `i` an ancestor
        have hsub : ∀ j, (j = 2 * i ∨ j = 2 * i + 1) → ¬ Anc j q.2 := by
          intro j hj hja
          apply ha
          obtain ⟨k, hk⟩ := hja
          exact ⟨k + 1, by rw [pow_succ, ← Nat.div_div_eq_div_mul, hk]; omega⟩
        unfold Choice at this ⊢
        rw [e3 _ ha, e3 _ (hsub _ (Or.inl rfl)), e3 _ (hsub _ (Or.inr rfl))]
        exact this
    · show t'.length ≤ s.cap
      have := h.cap
      omega
  refine ⟨q.1, { s with players := ps, tree := t' }, ?_, ?_, hshape, w, ?_, ?_, ?_⟩
  · simp [top, hw, hq]
  · simp [decreaseTop, hw, hps, hpw, e1]
  · rw [entries, List.getElem?_map, hq]; rfl
  · show ps.map Prod.fst = _
    rw [← hpsd, List.map_set, entries]
  · intro c₀ hc hi hagree
    refine ⟨hshape, ?_⟩
    intro i hi1 hil
    have hil : i < s.players.length := by rw [← hpl]; exact hil
    show Ord c ps t' i
    by_cases ha : Anc i q.2
    · exact e5 hc i hi1 ha
    · have hsub : ∀ j, (j = 2 * i ∨ j = 2 * i + 1) → ¬ Anc j q.2 := by
        intro j hj hja
        apply ha
        obtain ⟨k, hk⟩ := hja
        exact ⟨k + 1, by rw [pow_succ, ← Nat.div_div_eq_div_mul, hk]; omega⟩
      intro k hk a b hea heb
      have hold : ∀ j x, ¬ Anc j q.2 → j ≠ q.2 → entAt ps t' j = some x →
          entAt s.players s.tree j = some x ∧ ∃ r, r ≠ w ∧ (entries s)[r]? = some x := by
        intro j x hja hjq hx
        unfold entAt at hx ⊢
        rw [e3 j hja] at hx
        cases hrj : rd s.tree j with
        | none => rw [hrj] at hx; cases hx
        | some r =>
          rw [hrj] at hx
          simp only [Option.bind_some] at hx ⊢
          have hrw : r ≠ w := by
            rintro rfl
            obtain ⟨m, hm, _⟩ := occ h hrj hq
            cases m with
            | zero => exact hjq (by simpa using hm.symm)
            | succ m => exact hja ⟨m, hm⟩
          rw [hpo r hrw] at hx
          exact ⟨hx, r, hrw, by rw [entries, List.getElem?_map]; exact hx⟩
      have hkq : k ≠ q.2 := by
        rintro hkq
        apply ha
        exact ⟨0, by rw [← hkq]; simp; omega⟩
      obtain ⟨hea', ra, hra, hra'⟩ := hold i a ha (by omega) hea
      obtain ⟨heb', rb, hrb, hrb'⟩ := hold k b (hsub k hk) hkq heb
      rw [hagree ra rb a b hra hrb hra' hrb']
      exact hi.ord i hi1 hil k hk a b hea' heb'

theorem decreaseTop_spec (c : PQConf E) {s : State E} (h : Shape s) (hne : entries s ≠ []) (e : E) :
    ∃ x s', top s = some x ∧ decreaseTop c s e = some s' ∧ Shape s' ∧
      (∃ i, (entries s)[i]? = some x ∧ entries s' = (entries s).set i e) ∧
      (StrictWeak c.lt → Inv c s → Inv c s') := by
  obtain ⟨x, s', h1, h2, h3, i, h4, h5, h6⟩ := decreaseTop_core c h hne e
  exact ⟨x, s', h1, h2, h3, ⟨i, h4, h5⟩, fun hc hi => h6 c hc hi (fun _ _ _ _ _ _ _ _ => rfl)⟩

/-! ## `pop` -/

/-- Replaying the games of one player in a tree of the right shape. -/
theorem replay_spec (c : PQConf E) {s : State E} (h : Shape s) {w : ℕ} {q : E × ℕ}
    (hq : s.players[w]? = some q) :
    ∃ t', replayLoop c s.players s.tree q.2 w = some t' ∧ Shape { s with tree := t' } ∧
      (StrictWeak c.lt →
        (∀ i, 1 ≤ i → i < s.players.length → ¬ Anc i q.2 → Ord c s.players s.tree i) →
        ∀ i, 1 ≤ i → i < s.players.length → Ord c s.players t' i) := by
  have hlen := h.len
  have hr := leaf_range h hq
  obtain ⟨t', e1, e2, e3, e4, e5⟩ := replayLoop_spec c s.players q.2 s.tree w (by omega) (by omega)
    (by omega) (fun i p hp => cell_lt h hp) (h.leafTree w q hq)
  have hsub : ∀ i, ¬ Anc i q.2 → ∀ j, (j = 2 * i ∨ j = 2 * i + 1) → ¬ Anc j q.2 := by
    intro i ha j hj hja
    apply ha
    obtain ⟨k, hk⟩ := hja
    exact ⟨k + 1, by rw [pow_succ, ← Nat.div_div_eq_div_mul, hk]; omega⟩
  refine ⟨t', e1, ⟨by rw [e2]; exact hlen, h.leafs, ?_, ?_, by rw [e2]; exact h.cap, h.capPos, h.pcap⟩, ?_⟩
  · intro p q' hq'
    have hr' := leaf_range h hq'
    show rd t' q'.2 = some p
    rw [e3]
    · exact h.leafTree p q' hq'
    · intro ha
      have := anc_le_half ha (by omega)
      omega
  · intro i hi hil
    show Choice t' i
    by_cases ha : Anc i q.2
    · exact e4 i hi ha
    · have := h.choice i hi hil
      unfold Choice at this ⊢
      rw [e3 _ ha, e3 _ (hsub i ha _ (Or.inl rfl)), e3 _ (hsub i ha _ (Or.inr rfl))]
      exact this
  · intro hc hord i hi hil
    by_cases ha : Anc i q.2
    · exact e5 hc i hi ha
    · intro k hk a b hea heb
      rw [entAt_congr (e3 i ha)] at hea
      rw [entAt_congr (e3 k (hsub i ha k hk))] at heb
      exact hord i hi hil ha k hk a b hea heb

/-- The renaming loop: given that `right` sits, besides in cell `last`, on a path up from `pos`
without gaps, it replaces all of these by `left`. -/
theorem renameLoop_spec {left right last : ℕ} (hlr : left ≠ right) :
    ∀ (pos : ℕ) (t : List ℕ), 1 ≤ pos → pos < last → last ≤ t.length →
      (∀ j, j ≠ last → rd t j = some right →
        ∃ k, pos / 2 ^ k = j ∧ ∀ m ≤ k, rd t (pos / 2 ^ m) = some right) →
      ∃ t', renameLoop t left right pos = some t' ∧ t'.length = t.length ∧
        ∀ j, rd t' j = if rd t j = some right ∧ j ≠ last then some left else rd t j := by
  intro pos
  induction pos using Nat.strong_induction_on with
  | _ pos ih =>
    intro t h1 h2 h3 hQ
    obtain ⟨p, hp⟩ := rd_exists (t := t) (i := pos) h1 (by omega)
    by_cases hpr : p = right
    · subst hpr
      have hwr := wr_some (t := t) left (i := pos) h1 (by omega)
      generalize ht1 : t.set (pos - 1) left = t1 at hwr
      have hrd1 : ∀ j, rd t1 j = if j = pos then some left else rd t j := fun j => rd_wr hwr
      have hlen1 := wr_length hwr
      have hstep : renameLoop t left p pos =
          if pos = 1 then some t1 else renameLoop t1 left p (pos / 2) := by
        rw [renameLoop]
        split
        · rename_i h; rw [hp] at h; cases h
        · rename_i p' h
          rw [hp] at h; cases h
          simp [hwr]
      have hQ1 : ∀ j, j ≠ last → rd t1 j = some p →
          ∃ k, pos / 2 / 2 ^ k = j ∧ ∀ m ≤ k, rd t1 (pos / 2 / 2 ^ m) = some p := by
        intro j hj hr
        rw [hrd1] at hr
        split at hr
        · cases hr; exact absurd rfl hlr
        · rename_i hjp
          obtain ⟨k, hk, hm⟩ := hQ j hj hr
          cases k with
          | zero => simp at hk; omega
          | succ k =>
            have hdiv : ∀ m, pos / 2 / 2 ^ m = pos / 2 ^ (m + 1) := by
              intro m
              rw [Nat.div_div_eq_div_mul, ← pow_succ']
            refine ⟨k, by rw [hdiv]; exact hk, ?_⟩
            intro m hmk
            rw [hdiv, hrd1, if_neg]
            · exact hm (m + 1) (by omega)
            · have := Nat.div_lt_self h1 (Nat.one_lt_two_pow (n := m + 1) (by omega))
              omega
      by_cases hroot : pos = 1
      · refine ⟨t1, by rw [hstep, if_pos hroot], hlen1, ?_⟩
        intro j
        rw [hrd1]
        split
        · rename_i hj
          subst hj
          rw [if_pos ⟨hp, by omega⟩]
        · rename_i hj
          rw [if_neg]
          rintro ⟨hr, hjl⟩
          obtain ⟨k, hk, hm⟩ := hQ1 j hjl (by rw [hrd1, if_neg hj]; exact hr)
          have := hm 0 (by omega)
          rw [hroot] at this
          simp [rd] at this
      · obtain ⟨t', e1, e2, e3⟩ := ih (pos / 2) (by omega) t1 (by omega) (by omega) (by omega) hQ1
        refine ⟨t', by rw [hstep, if_neg hroot]; exact e1, by omega, ?_⟩
        intro j
        rw [e3, hrd1]
        by_cases hj : j = pos
        · subst hj
          rw [if_pos rfl, if_pos (c := rd t j = some p ∧ j ≠ last) ⟨hp, by omega⟩]
          split <;> rfl
        · rw [if_neg hj]
    · refine ⟨t, ?_, rfl, ?_⟩
      · rw [renameLoop]
        split
        · rename_i h; rw [hp] at h; cases h
        · rename_i p' h
          rw [hp] at h; cases h
          simp [hpr]
      · intro j
        rw [if_neg]
        rintro ⟨hr, hjl⟩
        obtain ⟨k, _, hm⟩ := hQ j hjl hr
        have := hm 0 (by omega)
        simp only [pow_zero, Nat.div_one] at this
        rw [hp] at this
        cases this
        exact hpr rfl

theorem last_leaf {s : State E} (h : Shape s) (hn : 1 ≤ s.players.length) :
    ∃ q, s.players[s.players.length - 1]? = some q ∧ q.2 = 2 * s.players.length - 1 := by
  obtain ⟨n, hn'⟩ : ∃ n, s.players.length = n + 1 := ⟨s.players.length - 1, by omega⟩
  have hlt : n < s.players.length := by omega
  have h1 : (s.players.map Prod.snd)[n]? = some (2 * n + 1) := by
    rw [h.leafs, hn', leafPos, List.getElem?_append_right (by simp [leafPos_length])]
    simp [leafPos_length]
  rw [List.getElem?_map, List.getElem?_eq_getElem hlt] at h1
  refine ⟨s.players[n], by rw [hn']; simp, ?_⟩
  simp at h1
  omega

theorem swap_perm {l : List E} {i j : ℕ} {a b : E} (ha : l[i]? = some a) (hb : l[j]? = some b)
    (hij : i ≠ j) : ((l.set i b).set j a).Perm l := by
  obtain ⟨hi, hia⟩ := List.getElem?_eq_some_iff.mp ha
  obtain ⟨hj, hjb⟩ := List.getElem?_eq_some_iff.mp hb
  apply perm_of_wsum
  have h1 := wsum_set (fun e => ({e} : Multiset E)) l i b hi
  have h2 := wsum_set (fun e => ({e} : Multiset E)) (l.set i b) j a (by simpa using hj)
  have h3 : (l.set i b)[j]'(by simpa using hj) = b := by
    rw [List.getElem_set_ne hij]; exact hjb
  rw [h3] at h2
  rw [hia] at h1
  rw [h1] at h2
  exact add_right_cancel h2

/-- The first phase of `pop`: afterwards the last player has won no game. -/
theorem phase1 (c : PQConf E) {s : State E} (h : Shape s) (hn : 2 ≤ s.players.length)
    {left right par : ℕ} (hleft : rd s.tree (s.tree.length - 1) = some left)
    (hright : rd s.tree s.tree.length = some right)
    (hpar : rd s.tree (s.tree.length / 2) = some par) :
    ∃ ps t, promoteLeft s left right (s.tree.length / 2) par = some (ps, t) ∧
      ps.length = s.players.length ∧
      Shape { s with players := ps, tree := t } ∧
      right = s.players.length - 1 ∧ rd t (s.tree.length - 1) = some left ∧
      (∀ j, rd t j = some right → j = s.tree.length) ∧
      (ps.map Prod.fst).Perm (entries s) ∧ entAt ps t 1 = entAt s.players s.tree 1 ∧
      (Inv c s → StrictWeak c.lt → ∀ i, 1 ≤ i → i < s.players.length → Ord c ps t i) := by
  have hlen := h.len
  unfold promoteLeft
  generalize hnn : s.players.length = n at *
  have hL : s.tree.length = 2 * n - 1 := hlen
  have hhalf : s.tree.length / 2 = n - 1 := by omega
  obtain ⟨rq, hrq, hrl⟩ := last_leaf h (by omega)
  rw [hnn] at hrq hrl
  have hrn : right = n - 1 := by
    have := h.leafTree _ _ hrq
    rw [hrl, ← hL, hright] at this
    cases this
    rfl
  obtain ⟨l', lq, hlq, hll⟩ := leaf_exists h (i := 2 * n - 2) (by omega) (by omega)
  have hll' : l' = left := by
    have := h.leafTree _ _ hlq
    rw [hll, show 2 * n - 2 = s.tree.length - 1 by omega, hleft] at this
    cases this
    rfl
  subst hll'
  rw [← hrn] at hrq
  have hlr : l' ≠ right := by
    rintro rfl
    rw [hlq] at hrq
    cases hrq
    omega
  rw [hhalf] at hpar ⊢
  -- where `right` is
  have hoccR : ∀ j, j ≠ s.tree.length → rd s.tree j = some right →
      ∃ k, (n - 1) / 2 ^ k = j ∧ ∀ m ≤ k, rd s.tree ((n - 1) / 2 ^ m) = some right := by
    intro j hj hr
    obtain ⟨k, hk, hm⟩ := occ h hr hrq
    have hdiv : ∀ m, (n - 1) / 2 ^ m = rq.2 / 2 ^ (m + 1) := by
      intro m
      rw [hrl, pow_succ', ← Nat.div_div_eq_div_mul]
      congr 1
      omega
    cases k with
    | zero => simp at hk; omega
    | succ k =>
      refine ⟨k, by rw [hdiv]; exact hk, ?_⟩
      intro m hmk
      rw [hdiv]
      exact hm (m + 1) (by omega)
  by_cases hrp : right = par
  · rw [if_pos hrp]
    rw [← hrp] at hpar
    obtain ⟨t, e1, e2, e3⟩ := renameLoop_spec hlr (n - 1) s.tree (by omega) (by omega) (le_refl _) hoccR
    -- where `left` is
    have hoccL : ∀ j, rd s.tree j = some l' → j = 2 * n - 2 := by
      intro j hr
      obtain ⟨k, hk, hm⟩ := occ h hr hlq
      cases k with
      | zero => simp at hk; omega
      | succ k =>
        have := hm 1 (by omega)
        rw [hll, show (2 * n - 2) / 2 ^ 1 = n - 1 by omega, hpar] at this
        cases this
        exact absurd rfl hlr
    have hll2 := (List.getElem?_eq_some_iff.mp hlq).1
    have hrr2 := (List.getElem?_eq_some_iff.mp hrq).1
    generalize hpsd : (s.players.set l' (rq.1, lq.2)).set right (lq.1, rq.2) = ps
    have hswap : swapEntries s.players l' right = some ps := by
      simp only [swapEntries, hlq, hrq, setEntry, Option.bind_eq_bind, Option.bind_some,
        Option.map_some]
      rw [List.getElem?_set, if_neg hlr, hrq]
      simp [hpsd]
    have hpsl : ps.length = n := by rw [← hpsd]; simp [hnn]
    have hps_l : ps[l']? = some (rq.1, lq.2) := by
      rw [← hpsd, List.getElem?_set, if_neg (Ne.symm hlr), List.getElem?_set, if_pos rfl, if_pos hll2]
    have hps_r : ps[right]? = some (lq.1, rq.2) := by
      rw [← hpsd, List.getElem?_set, if_pos rfl, if_pos (by simpa using hrr2)]
    have hps_o : ∀ r, r ≠ l' → r ≠ right → ps[r]? = s.players[r]? := by
      intro r h1 h2
      rw [← hpsd, List.getElem?_set, if_neg (Ne.symm h2), List.getElem?_set, if_neg (Ne.symm h1)]
    have hps_snd : ∀ r : ℕ, (ps[r]?).map Prod.snd = (s.players[r]?).map Prod.snd := by
      intro r
      by_cases h1 : r = l'
      · subst h1; rw [hps_l, hlq]; rfl
      · by_cases h2 : r = right
        · subst h2; rw [hps_r, hrq]; rfl
        · rw [hps_o r h1 h2]
    -- entries at inner nodes are the same
    have hentAt : ∀ j, j ≠ 2 * n - 1 → j ≠ 2 * n - 2 → entAt ps t j = entAt s.players s.tree j := by
      intro j h1 h2
      unfold entAt
      rw [e3]
      cases hr : rd s.tree j with
      | none => simp
      | some r =>
        by_cases hrr : r = right
        · subst hrr
          rw [if_pos ⟨rfl, by omega⟩]
          simp only [Option.bind_some, hps_l, hrq]
          rfl
        · rw [if_neg (by intro hh; cases hh.1; exact hrr rfl)]
          simp only [Option.bind_some]
          rw [hps_o r _ hrr]
          rintro rfl
          exact h2 (hoccL j hr)
    have hshape : Shape { s with players := ps, tree := t } := by
      refine ⟨?_, ?_, ?_, ?_, ?_, h.capPos, h.pcap⟩
      · show t.length = 2 * ps.length - 1
        omega
      · show ps.map Prod.snd = leafPos ps.length
        rw [hpsl, ← hnn, ← h.leafs]
        apply List.ext_getElem?
        intro r
        rw [List.getElem?_map, List.getElem?_map, hps_snd]
      · intro p q hq
        have hq : ps[p]? = some q := hq
        show rd t q.2 = some p
        have := hps_snd p
        rw [hq] at this
        cases hsp : s.players[p]? with
        | none => rw [hsp] at this; cases this
        | some q' =>
          rw [hsp] at this
          simp at this
          have hlt := h.leafTree p q' hsp
          rw [e3, this, hlt, if_neg]
          rintro ⟨h1, h2⟩
          cases h1
          rw [hrq] at hsp
          cases hsp
          omega
      · intro i hi hil
        have hil : i < n := by rw [← hpsl]; exact hil
        show Choice t i
        unfold Choice
        by_cases hin : i = n - 1
        · left
          rw [e3, e3, if_pos ⟨by rw [hin]; exact hpar, by omega⟩, if_neg]
          · rw [show 2 * i = s.tree.length - 1 by omega, hleft]
          · rintro ⟨h1, _⟩
            rw [show 2 * i = s.tree.length - 1 by omega, hleft] at h1
            cases h1
            exact hlr rfl
        · have := h.choice i hi (by omega)
          have hlt1 : i ≠ s.tree.length ∧ 2 * i ≠ s.tree.length ∧ 2 * i + 1 ≠ s.tree.length := by omega
          rcases this with hc | hc
          · left
            rw [e3, e3, hc]
            simp only [hlt1, ne_eq, not_false_eq_true, and_true]
          · right
            rw [e3, e3, hc]
            simp only [hlt1, ne_eq, not_false_eq_true, and_true]
      · show t.length ≤ s.cap
        have := h.cap
        omega
    refine ⟨ps, t, ?_, hpsl, hshape, hrn, ?_, ?_, ?_, ?_, ?_⟩
    · simp [hswap, e1]
    · rw [e3, hleft, if_neg]
      rintro ⟨h1, _⟩
      cases h1
      exact hlr rfl
    · intro j hj
      by_contra hcon
      rw [e3] at hj
      split at hj
      · cases hj; exact hlr rfl
      · rename_i hh
        exact hh ⟨hj, hcon⟩
    · rw [← hpsd, List.map_set, List.map_set]
      exact swap_perm (by rw [List.getElem?_map, hlq]; rfl) (by rw [List.getElem?_map, hrq]; rfl) hlr
    · exact hentAt 1 (by omega) (by omega)
    · intro hinv hc i hi hil k hk a b ha hb
      by_cases hin : i = n - 1
      · have hri : rd t i = some l' := by
          rw [e3, if_pos ⟨by rw [hin]; exact hpar, by omega⟩]
        rw [entAt_of hri hps_l] at ha
        cases ha
        rcases hk with rfl | rfl
        · have hrk : rd t (2 * i) = some l' := by
            rw [e3, if_neg]
            · rw [show 2 * i = s.tree.length - 1 by omega, hleft]
            · rintro ⟨h1, _⟩
              rw [show 2 * i = s.tree.length - 1 by omega, hleft] at h1
              cases h1
              exact hlr rfl
          rw [entAt_of hrk hps_l] at hb
          cases hb
          exact hc.irrefl _
        · have hrk : rd t (2 * i + 1) = some right := by
            rw [e3, if_neg (by omega), show 2 * i + 1 = s.tree.length by omega, hright]
          rw [entAt_of hrk hps_r] at hb
          cases hb
          refine hinv.ord i hi (by omega) (2 * i) (Or.inl rfl) rq.1 lq.1 ?_ ?_
          · exact entAt_of (by rw [hin]; exact hpar) hrq
          · exact entAt_of (by rw [show 2 * i = s.tree.length - 1 by omega, hleft]) hlq
      · rw [hentAt i (by omega) (by omega)] at ha
        rw [hentAt k (by omega) (by omega)] at hb
        exact hinv.ord i hi (by omega) k hk a b ha hb
  · rw [if_neg hrp]
    refine ⟨s.players, s.tree, rfl, hnn, h, hrn, hleft, ?_, List.Perm.refl _, rfl, ?_⟩
    · intro j hj
      by_contra hcon
      obtain ⟨k, _, hm⟩ := hoccR j hcon hj
      have := hm 0 (by omega)
      simp only [pow_zero, Nat.div_one] at this
      rw [hpar] at this
      cases this
      exact hrp rfl
    · intro hinv _ i hi hil
      exact hinv.ord i hi (by omega)

theorem entries_length (s : State E) : (entries s).length = s.players.length := by simp [entries]

theorem pop_spec (c : PQConf E) {s : State E} (h : Shape s) (hne : entries s ≠ []) :
    ∃ x s', top s = some x ∧ pop c s = some (x, s') ∧ Shape s' ∧
      (x :: entries s').Perm (entries s) ∧
      (StrictWeak c.lt → Inv c s → Inv c s') := by
  have hlen := h.len
  have hl0 : s.tree.length ≠ 0 := fun h0 => hne ((nonempty_tree h).mp h0)
  obtain ⟨w, hw⟩ := rd_exists (t := s.tree) (i := 1) (by omega) (by omega)
  have hwl := cell_lt h hw
  obtain ⟨q, hq⟩ : ∃ q, s.players[w]? = some q := ⟨_, List.getElem?_eq_getElem hwl⟩
  by_cases hone : s.tree.length = 1
  · have hn1 : s.players.length = 1 := by omega
    obtain ⟨a, ha⟩ := List.length_eq_one_iff.mp hn1
    obtain ⟨b, hb⟩ := List.length_eq_one_iff.mp hone
    have hsh : Shape { s with tree := s.tree.dropLast, players := s.players.dropLast } := by
      refine ⟨?_, ?_, ?_, ?_, ?_, h.capPos, h.pcap⟩ <;> simp [ha, hb, leafPos]
    refine ⟨q.1, { s with tree := s.tree.dropLast, players := s.players.dropLast }, ?_, ?_, hsh, ?_, ?_⟩
    · simp [top, hw, hq]
    · simp [pop, hw, hq, hone]
    · have : w = 0 := by omega
      subst this
      simp only [ha, List.getElem?_cons_zero, Option.some.injEq] at hq
      simp [entries, ha, hq]
    · intro _ _
      refine ⟨hsh, ?_⟩
      intro i hi hil
      simp [ha] at hil
  · have hn2 : 2 ≤ s.players.length := by omega
    obtain ⟨left, hleft⟩ := rd_exists (t := s.tree) (i := s.tree.length - 1) (by omega) (by omega)
    obtain ⟨right, hright⟩ := rd_exists (t := s.tree) (i := s.tree.length) (by omega) (by omega)
    obtain ⟨par, hpar⟩ := rd_exists (t := s.tree) (i := s.tree.length / 2) (by omega) (by omega)
    obtain ⟨ps, t, hph, hpsl, hsh1, hrn, htl, hocc, hperm, hent1, hord1⟩ :=
      phase1 c h hn2 hleft hright hpar
    generalize hnn : s.players.length = n at *
    have ht1l : t.length = 2 * n - 1 := by
      have : t.length = 2 * ps.length - 1 := hsh1.len
      omega
    have hcell : ∀ i p, rd t i = some p → p < n := by
      intro i p hp
      have : p < ps.length := cell_lt hsh1 hp
      omega
    have hLT : ∀ (p : ℕ) (q : E × ℕ), ps[p]? = some q → rd t q.2 = some p := hsh1.leafTree
    have hLR : ∀ (p : ℕ) (q : E × ℕ), ps[p]? = some q → n ≤ q.2 ∧ q.2 < 2 * n := by
      intro p q hq
      have : ps.length ≤ q.2 ∧ q.2 < 2 * ps.length := leaf_range hsh1 hq
      omega
    obtain ⟨player, hpl⟩ := rd_exists (t := t) (i := 1) (by omega) (by omega)
    have hpr : player ≠ right := by
      rintro rfl
      have := hocc 1 hpl
      omega
    have hpll := hcell _ _ hpl
    obtain ⟨wq, hwq⟩ : ∃ wq, ps[player]? = some wq := ⟨_, List.getElem?_eq_getElem (by omega)⟩
    obtain ⟨rq, hrq⟩ : ∃ rq, ps[right]? = some rq := ⟨_, List.getElem?_eq_getElem (by omega)⟩
    have hlr : left ≠ right := by
      rintro rfl
      have := hocc _ htl
      omega
    have hll := hcell _ _ htl
    obtain ⟨lq, hlq⟩ : ∃ lq, ps[left]? = some lq := ⟨_, List.getElem?_eq_getElem (by omega)⟩
    -- leaves of left and right
    have hleaf : ∀ (p : ℕ) (q : E × ℕ), ps[p]? = some q → (p = left ↔ q.2 = 2 * n - 2) := by
      intro p q hq
      constructor
      · rintro rfl
        obtain ⟨p', q', hq', hl'⟩ := leaf_exists hsh1 (i := 2 * n - 2)
          (by show ps.length ≤ _; omega) (by show _ < 2 * ps.length; omega)
        have hq' : ps[p']? = some q' := hq'
        have h3 := hLT p' q' hq'
        rw [hl', show 2 * n - 2 = s.tree.length - 1 by omega, htl] at h3
        cases h3
        rw [hq'] at hq
        cases hq
        exact hl'
      · intro hq2
        have h3 := hLT p q hq
        rw [hq2, show 2 * n - 2 = s.tree.length - 1 by omega, htl] at h3
        cases h3
        rfl
    have hrleaf : ∀ (p : ℕ) (q : E × ℕ), ps[p]? = some q → p ≠ right → q.2 ≠ 2 * n - 1 := by
      intro p q hq hp hq2
      obtain ⟨q', hq', hl'⟩ := last_leaf hsh1 (by show 1 ≤ ps.length; omega)
      have hq' : ps[ps.length - 1]? = some q' := hq'
      have hl' : q'.2 = 2 * ps.length - 1 := hl'
      have h3 := hLT _ _ hq'
      have h4 := hLT _ _ hq
      rw [hl', hpsl, ← hq2, h4] at h3
      cases h3
      omega
    -- the new players
    have hset1 : setEntry ps player rq.1 = some (ps.set player (rq.1, wq.2)) := by
      simp [setEntry, hwq]
    generalize hps2 : (ps.set player (rq.1, wq.2)).dropLast = ps2
    have hps2l : ps2.length = n - 1 := by rw [← hps2]; simp [hpsl]
    have hps2g : ∀ r, r < n - 1 → ps2[r]? = if r = player then some (rq.1, wq.2) else ps[r]? := by
      intro r hr
      rw [← hps2, List.getElem?_dropLast, if_pos (by simp; omega), List.getElem?_set]
      by_cases hrp : r = player
      · subst hrp; rw [if_pos rfl, if_pos (by omega), if_pos rfl]
      · rw [if_neg (Ne.symm hrp), if_neg hrp]
    have hl2 : left < n - 1 := by omega
    have hp2 : player < n - 1 := by omega
    obtain ⟨l2, hl2q⟩ : ∃ l2, ps2[left]? = some l2 := ⟨_, List.getElem?_eq_getElem (by omega)⟩
    have hset2 : setLeaf ps2 left (s.tree.length / 2) = some (ps2.set left (l2.1, n - 1)) := by
      rw [setLeaf, hl2q]
      simp only [Option.map_some]
      rw [show s.tree.length / 2 = n - 1 by omega]
    generalize hps3 : ps2.set left (l2.1, n - 1) = ps3 at hset2
    have hps3l : ps3.length = n - 1 := by rw [← hps3]; simp [hps2l]
    have hps3g : ∀ r : ℕ, r ≠ left → ps3[r]? = ps2[r]? := by
      intro r hr
      rw [← hps3, List.getElem?_set, if_neg (Ne.symm hr)]
    have hps3left : ps3[left]? = some (l2.1, n - 1) := by
      rw [← hps3, List.getElem?_set, if_pos rfl, if_pos (by omega)]
    have hps3fst : ∀ r, r < n - 1 → r ≠ player → (ps3[r]?).map Prod.fst = (ps[r]?).map Prod.fst := by
      intro r hr hrp
      by_cases hrl : r = left
      · subst hrl
        rw [hps3left]
        have := hps2g r hr
        rw [hl2q, if_neg hrp] at this
        rw [← this]
        rfl
      · rw [hps3g r hrl, hps2g r hr, if_neg hrp]
    have hps3snd : ∀ r, r < n - 1 → r ≠ left → (ps3[r]?).map Prod.snd = (ps[r]?).map Prod.snd := by
      intro r hr hrl
      rw [hps3g r hrl, hps2g r hr]
      split
      · rename_i h'; subst h'; rw [hwq]; rfl
      · rfl
    generalize ht2 : t.dropLast.dropLast = t2
    have ht2l : t2.length = 2 * n - 3 := by rw [← ht2]; simp; omega
    have ht2g : ∀ j, j ≤ 2 * n - 3 → rd t2 j = rd t j := by
      intro j hj
      rw [← ht2, rd_dropLast (by simp; omega), rd_dropLast (by omega)]
    have hpar1 : rd t (n - 1) = some left := by
      have hc : Choice t (n - 1) := hsh1.choice (n - 1) (by omega) (by show n - 1 < ps.length; omega)
      rcases hc with hc | hc
      · rw [hc, show 2 * (n - 1) = s.tree.length - 1 by omega, htl]
      · obtain ⟨p, hp⟩ := rd_exists (t := t) (i := n - 1) (by omega) (by omega)
        have h3 : p = right := by
          obtain ⟨q', hq', hl'⟩ := last_leaf hsh1 (by show 1 ≤ ps.length; omega)
          have hq' : ps[ps.length - 1]? = some q' := hq'
          have hl' : q'.2 = 2 * ps.length - 1 := hl'
          have h3 := hLT _ _ hq'
          rw [hl', hpsl, show 2 * n - 1 = 2 * (n - 1) + 1 by omega, ← hc, hp] at h3
          cases h3
          omega
        have := hocc (n - 1) (by rw [hp, h3])
        omega
    have hsh2 : Shape { s with players := ps3, tree := t2 } := by
      refine ⟨?_, ?_, ?_, ?_, ?_, h.capPos, h.pcap⟩
      · show t2.length = 2 * ps3.length - 1
        omega
      · show ps3.map Prod.snd = leafPos ps3.length
        rw [hps3l]
        have hlf : ps.map Prod.snd = leafPos n := by
          have : ps.map Prod.snd = leafPos ps.length := hsh1.leafs
          rw [this, hpsl]
        have hlf' : leafPos n =
            (leafPos (n - 1)).map (fun x => if x = n - 1 then 2 * (n - 1) else x) ++
              [2 * (n - 1) + 1] := by
          conv_lhs => rw [show n = n - 1 + 1 by omega]
          rfl
        rw [hlf'] at hlf
        apply List.ext_getElem?
        intro r
        by_cases hr : r < n - 1
        · have hrp : r < ps.length := by omega
          have h1 := congrArg (fun l => l[r]?) hlf
          simp only [List.getElem?_map] at h1
          rw [List.getElem?_append_left (by simp [leafPos_length]; omega), List.getElem?_map] at h1
          have hm : r < (leafPos (n - 1)).length := by rw [leafPos_length]; exact hr
          have hmem := (mem_leafPos (n - 1) ((leafPos (n - 1))[r])).mp (List.getElem_mem hm)
          rw [List.getElem?_eq_getElem hm] at h1 ⊢
          rw [List.getElem?_eq_getElem hrp] at h1
          simp only [Option.map_some, Option.some.injEq] at h1
          have hlfr := hleaf r ps[r] (List.getElem?_eq_getElem hrp)
          rw [List.getElem?_map]
          by_cases hrl : r = left
          · have h2 := hlfr.mp hrl
            subst hrl
            rw [hps3left]
            simp only [Option.map_some, Option.some.injEq]
            rw [h2] at h1
            split at h1
            · omega
            · omega
          · have h2 : ps[r].2 ≠ 2 * n - 2 := fun hh => hrl (hlfr.mpr hh)
            rw [hps3snd r hr hrl, List.getElem?_eq_getElem hrp]
            simp only [Option.map_some, Option.some.injEq]
            split at h1
            · omega
            · exact h1
        · rw [List.getElem?_eq_none (by simp; omega), List.getElem?_eq_none (by rw [leafPos_length]; omega)]
      · intro p q' hq'
        have hq' : ps3[p]? = some q' := hq'
        show rd t2 q'.2 = some p
        have hpl' : p < n - 1 := by rw [← hps3l]; exact (List.getElem?_eq_some_iff.mp hq').1
        by_cases hpl'' : p = left
        · subst hpl''
          rw [hps3left] at hq'
          cases hq'
          rw [ht2g _ (by omega)]
          exact hpar1
        · have h1 := hps3snd p hpl' hpl''
          rw [hq', List.getElem?_eq_getElem (by omega)] at h1
          simp only [Option.map_some, Option.some.injEq] at h1
          have hpq := List.getElem?_eq_getElem (l := ps) (i := p) (by omega)
          have h2 := hLR p _ hpq
          have h3 := hrleaf p _ hpq (by omega)
          have h4 : (ps[p]'(by omega)).2 ≠ 2 * n - 2 := fun hh => hpl'' ((hleaf p _ hpq).mpr hh)
          rw [ht2g _ (by omega), h1]
          exact hLT p _ hpq
      · intro i hi hil
        have hil : i < n - 1 := by rw [← hps3l]; exact hil
        have : Choice t i := hsh1.choice i hi (by show i < ps.length; omega)
        show Choice t2 i
        unfold Choice at this ⊢
        rw [ht2g _ (by omega), ht2g _ (by omega), ht2g _ (by omega)]
        exact this
      · show t2.length ≤ s.cap
        have := h.cap
        omega
    obtain ⟨q3, hq3⟩ : ∃ q3, ps3[player]? = some q3 := ⟨_, List.getElem?_eq_getElem (by omega)⟩
    obtain ⟨t', e1, e2, e3⟩ := replay_spec c hsh2 (w := player) (q := q3) hq3
    have e1 : replayLoop c ps3 t2 q3.2 player = some t' := e1
    have e2 : Shape { s with players := ps3, tree := t' } := e2
    have htop : entAt s.players s.tree 1 = some q.1 := entAt_of hw hq
    have hwq1 : wq.1 = q.1 := by
      rw [← hent1, entAt_of hpl hwq] at htop
      simpa using htop
    refine ⟨q.1, { s with players := ps3, tree := t' }, ?_, ?_, e2, ?_, ?_⟩
    · simp [top, hw, hq]
    · simp only [pop, hw, hq, Option.bind_eq_bind, Option.bind_some, hone, if_false, hleft, hright,
        hpar]
      rw [hph]
      simp only [Option.bind_some, hpl, hrq, hset1, hps2, hset2, ht2, hq3, e1]
    · -- contents
      refine List.Perm.trans ?_ hperm
      show (q.1 :: ps3.map Prod.fst).Perm (ps.map Prod.fst)
      have hlast : ps.map Prod.fst = (ps.map Prod.fst).dropLast ++ [rq.1] := by
        have hne' : ps.map Prod.fst ≠ [] := by
          intro h0
          have := congrArg List.length h0
          simp at this
          rw [this] at hpsl
          simp at hpsl
          omega
        conv_lhs => rw [← List.dropLast_append_getLast hne']
        congr 2
        rw [List.getLast_eq_getElem, List.getElem_map]
        have h5 : ps[right]? = ps[(ps.map Prod.fst).length - 1]? := by
          congr 1
          simp
          omega
        rw [hrq, List.getElem?_eq_getElem (by simp; omega)] at h5
        simp only [Option.some.injEq] at h5
        rw [h5]
      have hnew : ps3.map Prod.fst = ((ps.map Prod.fst).dropLast).set player rq.1 := by
        apply List.ext_getElem?
        intro r
        by_cases hr : r < n - 1
        · rw [List.getElem?_set, List.getElem?_dropLast, if_pos (c := r < _) (by simp; omega)]
          rw [List.getElem?_map, List.getElem?_map]
          by_cases hrp : player = r
          · subst hrp
            rw [if_pos rfl, if_pos (by simp; omega)]
            by_cases hrl : player = left
            · have h6 := hps2g player hr
              rw [if_pos rfl, hrl, hl2q] at h6
              rw [hrl, hps3left]
              cases h6
              rfl
            · rw [hps3g player hrl, hps2g player hr, if_pos rfl]
              rfl
          · rw [if_neg hrp]
            exact hps3fst r hr (Ne.symm hrp)
        · rw [List.getElem?_eq_none (by simp; omega), List.getElem?_eq_none (by simp; omega)]
      rw [hnew]
      have hpd : player < ((ps.map Prod.fst).dropLast).length := by simp; omega
      have hpe : ((ps.map Prod.fst).dropLast)[player] = q.1 := by
        rw [List.getElem_dropLast, List.getElem_map, ← hwq1]
        rw [List.getElem?_eq_getElem (by omega)] at hwq
        simp only [Option.some.injEq] at hwq
        rw [hwq]
      apply perm_of_wsum
      have h7 := wsum_set (fun e => ({e} : Multiset E)) ((ps.map Prod.fst).dropLast) player rq.1 hpd
      rw [hpe] at h7
      rw [wsum_cons, add_comm, h7]
      conv_rhs => rw [hlast, wsum_append]
      simp
    · intro hc hinv
      refine ⟨e2, ?_⟩
      have hord1 := hord1 hinv hc
      intro i hi hil
      have hil : i < ps3.length := hil
      refine e3 hc ?_ i hi hil
      intro i hi hil ha k hk a b hea heb
      have hil : i < n - 1 := by rw [← hps3l]; exact hil
      have hea : entAt ps3 t2 i = some a := hea
      have heb : entAt ps3 t2 k = some b := heb
      -- where the player is
      have hoccP : ∀ j, j ≤ 2 * n - 3 → rd t j = some player → j = q3.2 ∨ Anc j q3.2 := by
        intro j hj hr
        obtain ⟨m, hm, _⟩ := occ hsh1 hr hwq
        by_cases hpl' : player = left
        · have h8 : wq.2 = 2 * n - 2 := (hleaf player wq hwq).mp hpl'
          have h9 : q3.2 = n - 1 := by
            rw [hpl', hps3left] at hq3
            cases hq3
            rfl
          cases m with
          | zero => simp at hm; omega
          | succ m =>
            have h10 : q3.2 / 2 ^ m = j := by
              rw [h9, ← hm, h8, pow_succ', ← Nat.div_div_eq_div_mul]
              congr 1
              omega
            cases m with
            | zero => left; simpa using h10.symm
            | succ m => right; exact ⟨m, h10⟩
        · have h9 : q3.2 = wq.2 := by
            have := hps3snd player hp2 hpl'
            rw [hq3, hwq] at this
            simpa using this
          rw [h9]
          cases m with
          | zero => left; simpa using hm.symm
          | succ m => right; exact ⟨m, hm⟩
      have hnp : ∀ j, j ≤ 2 * n - 3 → j ≠ q3.2 → ¬ Anc j q3.2 → entAt ps3 t2 j = entAt ps t j := by
        intro j hj h1 h2
        unfold entAt
        rw [ht2g j hj]
        cases hr : rd t j with
        | none => rfl
        | some r =>
          simp only [Option.bind_some]
          have hrl := hcell _ _ hr
          apply hps3fst
          · by_contra hcon
            have : r = right := by omega
            subst this
            have := hocc j hr
            omega
          · rintro rfl
            rcases hoccP j hj hr with h | h
            · exact h1 h
            · exact h2 h
      have hq3r : n - 1 ≤ q3.2 := by
        have : ps3.length ≤ q3.2 ∧ _ := leaf_range hsh2 hq3
        omega
      have hka : ¬ Anc k q3.2 := by
        rintro ⟨m, hm⟩
        apply ha
        exact ⟨m + 1, by rw [pow_succ, ← Nat.div_div_eq_div_mul, hm]; omega⟩
      have hkq : k ≠ q3.2 := by
        intro hkq
        exact ha ⟨0, by rw [← hkq]; simp; omega⟩
      rw [hnp i (by omega) (by omega) ha] at hea
      rw [hnp k (by omega) hkq hka] at heb
      exact hord1 i hi (by omega) k hk a b hea heb

theorem shape_run (c : PQConf E) : ∀ (ops : List (PQOp E)) (s : State E) (outs : List (Option E))
    (s' : State E), Shape s → (impl c).run s ops = some (outs, s') → Shape s' := by
  intro ops
  induction ops with
  | nil =>
    intro s outs s' hs h
    cases h
    exact hs
  | cons op ops ih =>
    intro s outs s' hs h
    simp only [PQImpl.run] at h
    split at h
    · cases h
    · rename_i o s₁ h1
      split at h
      · cases h
      · rename_i os s₂ h2
        cases h
        refine ih s₁ os s' ?_ h2
        have h1 : step c s op = some (o, s₁) := h1
        have hne : op.needsTop → entries s ≠ [] := by
          intro hn he
          have h0 : s.tree.length = 0 := (nonempty_tree hs).mpr he
          have hr : rd s.tree 1 = none := by
            cases h : rd s.tree 1 with
            | none => rfl
            | some p => have := rd_bounds h; omega
          cases op with
          | push e => exact hn.elim
          | pushRange l => exact hn.elim
          | top => simp [step, top, hr] at h1
          | pop => simp [step, pop, hr] at h1
          | decreaseTop e => simp [step, decreaseTop, hr] at h1
          | clear => exact hn.elim
        cases op with
        | push e =>
          obtain ⟨s₃, g1, g2, _⟩ := push_spec c hs e
          simp only [step, g1, Option.map_some] at h1
          cases h1
          exact g2
        | pushRange l =>
          obtain ⟨s₃, g1, g2, _⟩ := pushRange_spec c l hs
          simp only [step, g1, Option.map_some] at h1
          cases h1
          exact g2
        | top =>
          obtain ⟨x, _, g1, _⟩ := pop_spec c hs (hne trivial)
          simp only [step, g1, Option.map_some] at h1
          cases h1
          exact hs
        | pop =>
          obtain ⟨x, s₃, _, g1, g2, _⟩ := pop_spec c hs (hne trivial)
          simp only [step, g1, Option.map_some] at h1
          cases h1
          exact g2
        | decreaseTop e =>
          obtain ⟨x, s₃, _, g1, g2, _⟩ := decreaseTop_spec c hs (hne trivial) e
          simp only [step, g1, Option.map_some] at h1
          cases h1
          exact g2
        | clear =>
          cases h1
          exact ⟨rfl, rfl, fun p q h => by simp [clear] at h,
            fun i _ h => by simp [clear] at h, Nat.zero_le _, hs.capPos, hs.pcap⟩

theorem replayLoop_congr (c c' : PQConf E) (players : List (E × ℕ))
    (h : ∀ a ∈ players.map Prod.fst, ∀ b ∈ players.map Prod.fst, c.lt a b = c'.lt a b) :
    ∀ (pos : ℕ) (tree : List ℕ) (player : ℕ),
      replayLoop c players tree pos player = replayLoop c' players tree pos player := by
  intro pos
  induction pos using Nat.strong_induction_on with
  | _ pos ih =>
    intro tree player
    rw [replayLoop, replayLoop]
    split
    · rfl
    · split
      · rfl
      · split
        · rfl
        · split
          · rename_i pe oe hp ho
            rw [← h pe.1 (List.mem_map_of_mem (List.mem_of_getElem? hp)) oe.1
              (List.mem_map_of_mem (List.mem_of_getElem? ho))]
            split
            · rfl
            · exact ih _ (by omega) _ _
          · rfl

theorem pop_congr (c c' : PQConf E) (s s' : State E) (x : E) (hpop : pop c s = some (x, s'))
    (h : ∀ a ∈ entries s', ∀ b ∈ entries s', c.lt a b = c'.lt a b) :
    pop c' s = some (x, s') := by
  unfold pop at hpop
  obtain ⟨winner, h1, hpop⟩ := Option.bind_eq_some_iff.mp hpop
  obtain ⟨q, h2, hpop⟩ := Option.bind_eq_some_iff.mp hpop
  by_cases hone : s.tree.length = 1
  · rw [if_pos hone] at hpop
    simp only [pop, h1, h2, Option.bind_eq_bind, Option.bind_some, if_pos hone]
    exact hpop
  · rw [if_neg hone] at hpop
    obtain ⟨left, h4, hpop⟩ := Option.bind_eq_some_iff.mp hpop
    obtain ⟨right, h5, hpop⟩ := Option.bind_eq_some_iff.mp hpop
    obtain ⟨par, h6, hpop⟩ := Option.bind_eq_some_iff.mp hpop
    obtain ⟨⟨ps, t⟩, h7, hpop⟩ := Option.bind_eq_some_iff.mp hpop
    obtain ⟨player, h8, hpop⟩ := Option.bind_eq_some_iff.mp hpop
    obtain ⟨r, h9, hpop⟩ := Option.bind_eq_some_iff.mp hpop
    obtain ⟨ps1, h10, hpop⟩ := Option.bind_eq_some_iff.mp hpop
    obtain ⟨ps2, h11, hpop⟩ := Option.bind_eq_some_iff.mp hpop
    obtain ⟨q2, h12, hpop⟩ := Option.bind_eq_some_iff.mp hpop
    obtain ⟨t', h13, hpop⟩ := Option.bind_eq_some_iff.mp hpop
    have he : entries s' = ps2.map Prod.fst := by cases hpop; rfl
    rw [he] at h
    rw [replayLoop_congr c c' ps2 h] at h13
    simp only [pop, h1, h2, h4, h5, h6, h7, h8, h9, h10, h11, h12, h13, if_neg hone,
      Option.bind_eq_bind, Option.bind_some]
    exact hpop

end Verif.TourTree
