import Verif.QueueVisitSpec
import Verif.PropComTree
import Verif.TourTreeProofs

/-!
# Lemmas about `forAll` of the priority queues
-/

namespace Verif.Visit

open Verif.ComTree

variable {E : Type}

/-- The visit of a list from `got` on. -/
def walk (ask : List E → Ans) : List E → List E → List E × Ans
  | [], got => (got, .go)
  | e :: l, got =>
    match ask (got ++ [e]) with
    | .go => walk ask l (got ++ [e])
    | .stop => (got ++ [e], .stop)
    | .threw => (got ++ [e], .threw)

theorem prefix_concat {p got : List E} {e : E} (h : p <+: got ++ [e]) (hn : p ≠ got ++ [e]) : p <+: got := by
  rcases List.prefix_concat_iff.mp h with h | h
  · exact absurd h hn
  · exact h

theorem walk_shown (ask : List E → Ans) : ∀ (l got : List E),
    (∀ p, p <+: got → p ≠ [] → ask p = .go) → Shown (got ++ l) ask (walk ask l got).1 (walk ask l got).2 := by
  intro l
  induction l with
  | nil =>
    intro got hg
    refine ⟨by rw [List.append_nil]; exact List.prefix_refl _, fun p hp h1 _ => hg p hp h1, fun _ => ?_, fun h => ?_⟩
    · exact ⟨by rw [List.append_nil]; rfl, fun h => hg _ (List.prefix_refl _) h⟩
    · exact absurd rfl h
  | cons e l ih =>
    intro got hg
    have hpre : got ++ [e] <+: got ++ e :: l := ⟨l, by rw [List.append_assoc, List.singleton_append]⟩
    have hold : ∀ p, p <+: got ++ [e] → p ≠ [] → p ≠ got ++ [e] → ask p = .go :=
      fun p hp h1 h2 => hg p (prefix_concat hp h2) h1
    rw [walk]
    cases ha : ask (got ++ [e]) with
    | go =>
      have := ih (got ++ [e]) (by
        intro p hp h1
        by_cases h2 : p = got ++ [e]
        · rw [h2]; exact ha
        · exact hold p hp h1 h2)
      rw [List.append_assoc, List.singleton_append] at this
      exact this
    | stop =>
      show Shown (got ++ e :: l) ask (got ++ [e]) .stop
      exact ⟨hpre, hold, nofun, fun _ => ⟨by simp, ha⟩⟩
    | threw =>
      show Shown (got ++ e :: l) ask (got ++ [e]) .threw
      exact ⟨hpre, hold, nofun, fun _ => ⟨by simp, ha⟩⟩

theorem walk_nil_shown (ask : List E → Ans) (l : List E) : Shown l ask (walk ask l []).1 (walk ask l []).2 := by
  have := walk_shown ask l [] (fun p hp h => absurd (List.prefix_nil.mp hp) h)
  rwa [List.nil_append] at this

/-! ## Heap -/

theorem cell_reps {k : NodeConf} (hk : k.Ok) {t : List E} {i : ℕ} {x : Node} (h : Reps k i x) :
    cell k t x = rd t i := by
  unfold Reps at h
  unfold cell
  by_cases hf : k.fi = true
  · rw [if_pos hf] at h ⊢
    obtain ⟨m, _, hS⟩ := hk hf
    have hpos : 0 < k.S.toNat := by rw [hS]; exact Nat.two_pow_pos m
    rw [h, Nat.mul_mod_left, if_pos rfl, Nat.mul_div_cancel _ hpos]
  · rw [if_neg hf] at h ⊢
    rw [h, Nat.mul_one]

theorem heapLoop_eq {k : NodeConf} (hk : k.Ok) {t : List E} {ask : List E → Ans} {stop : Node}
    (hov : (t.length + 1) * k.unit.toNat < 2 ^ 64) (hstop : Reps k (t.length + 1) stop) :
    ∀ (n i : ℕ) (it : Node) (got : List E), Reps k (i + 1) it → i ≤ t.length → t.length - i < n →
      heapLoop k t ask stop n it got = some (walk ask (t.drop i) got) := by
  intro n
  induction n with
  | zero => intro i it got _ _ h; omega
  | succ n ih =>
    intro i it got hit hi hn
    rw [heapLoop]
    by_cases h : i = t.length
    · rw [if_pos ((node_lt k hk _ _ hit _ _ hstop).2.mpr (by rw [h])), h, List.drop_length]
      rfl
    · have hne : it ≠ stop := fun e => h (by have := (node_lt k hk _ _ hit _ _ hstop).2.mp e; omega)
      have hlt : i < t.length := by omega
      have hnext := node_next k (i + 1) it hit (lt_of_le_of_lt (Nat.mul_le_mul_right _ (by omega)) hov)
      rw [if_neg hne, cell_reps hk hit, rd, if_neg (by omega), Nat.add_sub_cancel,
        List.getElem?_eq_getElem hlt, List.drop_eq_getElem_cons hlt, walk]
      dsimp only
      rw [ih (i + 1) (k.next it) (got ++ [t[i]]) hnext (by omega) (by omega)]
      cases ask (got ++ [t[i]]) <;> rfl

/-! ## TourTree -/

theorem tourLoop_eq {players : List (E × ℕ)} {ask : List E → Ans} : ∀ (n i : ℕ) (got : List E),
    i ≤ players.length → players.length - i < n →
    tourLoop players ask players.length n i got = some (walk ask ((players.map Prod.fst).drop i) got) := by
  intro n
  induction n with
  | zero => intro i got _ h; omega
  | succ n ih =>
    intro i got hi hn
    rw [tourLoop]
    by_cases h : i = players.length
    · rw [if_pos h, h, List.drop_of_length_le (by rw [List.length_map])]
      rfl
    · have hlt : i < players.length := by omega
      rw [if_neg h, List.getElem?_eq_getElem hlt,
        List.drop_eq_getElem_cons (by rw [List.length_map]; exact hlt), walk, List.getElem_map]
      dsimp only
      rw [ih (i + 1) _ (by omega) (by omega)]
      cases ask (got ++ [players[i].1]) <;> rfl

/-- The entries after a visit that has passed `n` of them. -/
def edited (edit : List E → E) (l : List E) (n : ℕ) : List E :=
  l.mapIdx (fun i e => if i < n then edit (l.take (i + 1)) else e)

theorem edited_spec (edit : List E → E) (l : List E) (n : ℕ) : Edited l edit n (edited edit l n) := by
  refine ⟨by rw [edited, List.length_mapIdx], fun i => ?_⟩
  rw [edited, List.getElem?_mapIdx]
  by_cases hi : i < l.length
  · rw [List.getElem?_eq_getElem hi, Option.map_some]
    by_cases hn : i < n
    · rw [if_pos hn, if_pos ⟨hn, hi⟩]
    · rw [if_neg hn, if_neg (fun h => hn h.1)]
  · rw [List.getElem?_eq_none (by omega), Option.map_none, if_neg (fun h => hi h.2)]

theorem edited_set (edit : List E → E) (l : List E) (i : ℕ) :
    (edited edit l i).set i (edit (l.take (i + 1))) = edited edit l (i + 1) := by
  apply List.ext_getElem?
  intro j
  rw [List.getElem?_set, (edited_spec edit l (i + 1)).2 j]
  have hl := (edited_spec edit l i).1
  by_cases hj : i = j
  · subst hj
    rw [if_pos rfl, hl]
    by_cases hi : i < l.length
    · rw [if_pos hi, if_pos ⟨by omega, hi⟩]
    · rw [if_neg hi, if_neg (fun h => hi h.2), List.getElem?_eq_none (by omega)]
  · rw [if_neg hj, (edited_spec edit l i).2 j]
    by_cases h : j < i ∧ j < l.length
    · rw [if_pos h, if_pos ⟨by omega, h.2⟩]
    · rw [if_neg h, if_neg (by omega)]

theorem edited_zero (edit : List E → E) (l : List E) : edited edit l 0 = l := by
  apply List.ext_getElem?
  intro j
  rw [(edited_spec edit l 0).2 j, if_neg (by omega)]

theorem map_setEntry {players players' : List (E × ℕ)} {i : ℕ} {e : E}
    (h : TourTree.setEntry players i e = some players') :
    players'.map Prod.fst = (players.map Prod.fst).set i e ∧ players'.map Prod.snd = players.map Prod.snd := by
  unfold TourTree.setEntry at h
  cases hq : players[i]? with
  | none => rw [hq] at h; cases h
  | some q =>
    rw [hq, Option.map_some] at h
    cases h
    refine ⟨List.map_set, ?_⟩
    rw [List.map_set]
    apply List.ext_getElem?
    intro j
    rw [List.getElem?_set]
    by_cases hj : i = j
    · subst hj
      rw [if_pos rfl, List.getElem?_map, hq, if_pos (by
        rw [List.length_map]; exact (List.getElem?_eq_some_iff.mp hq).1)]
      rfl
    · rw [if_neg hj]

theorem tourLoopMut_eq {ask : List E → Ans} {edit : List E → E} {l : List E} {leafs : List ℕ} :
    ∀ (n i : ℕ) (players : List (E × ℕ)), i ≤ l.length → l.length - i < n →
    players.map Prod.fst = edited edit l i → players.map Prod.snd = leafs →
    ∃ players', tourLoopMut ask edit l.length n i players (l.take i) =
        some (players', (walk ask (l.drop i) (l.take i)).1, (walk ask (l.drop i) (l.take i)).2) ∧
      players'.map Prod.fst = edited edit l (walk ask (l.drop i) (l.take i)).1.length ∧
      players'.map Prod.snd = leafs := by
  intro n
  induction n with
  | zero => intro i players _ h; omega
  | succ n ih =>
    intro i players hi hn hp hs
    have hlen : players.length = l.length := by
      rw [← (edited_spec edit l i).1, ← hp, List.length_map]
    rw [tourLoopMut]
    by_cases h : i = l.length
    · rw [if_pos h, h, List.drop_length, List.take_length]
      refine ⟨players, rfl, ?_, hs⟩
      rw [hp, h]
      rfl
    · have hlt : i < l.length := by omega
      have hltp : i < players.length := by omega
      have hq : players[i].1 = l[i] := by
        have h1 : (players.map Prod.fst)[i]? = (edited edit l i)[i]? := by rw [hp]
        rw [(edited_spec edit l i).2 i, if_neg (by omega), List.getElem?_map, List.getElem?_eq_getElem hltp,
          List.getElem?_eq_getElem hlt] at h1
        exact Option.some.inj h1
      have htake : l.take i ++ [l[i]] = l.take (i + 1) := by rw [List.take_append_getElem]
      rw [if_neg h, List.getElem?_eq_getElem hltp, List.drop_eq_getElem_cons hlt, walk]
      dsimp only
      rw [hq, htake]
      have hset : TourTree.setEntry players i (edit (l.take (i + 1))) =
          some (players.set i (edit (l.take (i + 1)), players[i].2)) := by
        rw [TourTree.setEntry, List.getElem?_eq_getElem hltp]
        rfl
      obtain ⟨g1, g2⟩ := map_setEntry hset
      rw [hset]
      dsimp only
      rw [hp, edited_set] at g1
      rw [hs] at g2
      have hlt' : (l.take (i + 1)).length = i + 1 := by rw [List.length_take]; omega
      cases ask (l.take (i + 1)) with
      | go => exact ih (i + 1) _ (by omega) (by omega) g1 g2
      | stop => exact ⟨_, rfl, by rw [g1, hlt'], g2⟩
      | threw => exact ⟨_, rfl, by rw [g1, hlt'], g2⟩

/-- A visitor that keeps the order keeps the tournament. -/
theorem inv_edit {c : PQConf E} {s : TourTree.State E} (hi : TourTree.Inv c s) {players : List (E × ℕ)}
    (hs : players.map Prod.snd = s.players.map Prod.snd)
    (hk : KeepsOrder c.lt (s.players.map Prod.fst) (players.map Prod.fst)) :
    TourTree.Inv c { s with players := players } := by
  have hlen : players.length = s.players.length := by
    have := congrArg List.length hs
    rwa [List.length_map, List.length_map] at this
  have hget : ∀ (p : ℕ) (q : E × ℕ), players[p]? = some q → ∃ e, s.players[p]? = some (e, q.2) := by
    intro p q hq
    have h1 : (players.map Prod.snd)[p]? = (s.players.map Prod.snd)[p]? := by rw [hs]
    rw [List.getElem?_map, List.getElem?_map, hq, Option.map_some] at h1
    cases h2 : s.players[p]? with
    | none => rw [h2] at h1; cases h1
    | some r =>
      rw [h2] at h1
      have : q.2 = r.2 := Option.some.inj h1
      exact ⟨r.1, by rw [this]⟩
  refine ⟨⟨?_, ?_, ?_, ?_, hi.cap, hi.capPos, ?_⟩, ?_⟩
  · show s.tree.length = 2 * players.length - 1
    rw [hlen]; exact hi.len
  · show players.map Prod.snd = TourTree.leafPos players.length
    rw [hs, hlen]; exact hi.leafs
  · intro p q hq
    obtain ⟨e, he⟩ := hget p q hq
    exact hi.leafTree p (e, q.2) he
  · intro i h1 h2
    exact hi.choice i h1 (by rw [← hlen]; exact h2)
  · exact hi.pcap
  · intro i h1 h2 k hk' a b ha hb
    have ho := hi.ord i h1 (by rw [← hlen]; exact h2) k hk'
    unfold TourTree.entAt at ha hb ho
    cases hri : rd s.tree i with
    | none => rw [hri] at ha; cases ha
    | some p =>
      cases hrk : rd s.tree k with
      | none => rw [hrk] at hb; cases hb
      | some p' =>
        rw [hri, Option.bind_some] at ha
        rw [hrk, Option.bind_some] at hb
        rw [hri, hrk, Option.bind_some, Option.bind_some] at ho
        have old : ∀ (r : ℕ) (x : E), (players[r]?).map Prod.fst = some x →
            ∃ y, (s.players[r]?).map Prod.fst = some y := by
          intro r x hx
          cases hq : players[r]? with
          | none => rw [hq] at hx; cases hx
          | some q =>
            obtain ⟨e, he⟩ := hget r q hq
            exact ⟨e, by rw [he]; rfl⟩
        obtain ⟨a₀, ha₀⟩ := old p a ha
        obtain ⟨b₀, hb₀⟩ := old p' b hb
        refine hk p p' a₀ b₀ a b ?_ ?_ ?_ ?_ (ho a₀ b₀ ha₀ hb₀)
        · rw [List.getElem?_map]; exact ha₀
        · rw [List.getElem?_map]; exact hb₀
        · rw [List.getElem?_map]; exact ha
        · rw [List.getElem?_map]; exact hb

/-- What a history does to any state that has the invariant, not only to the first one. -/
theorem run_from {M : Type*} [AddCommMonoid M] {I : PQImpl E} {mem : E → List E → Prop}
    {allowed : PQOp E → Prop} {lt : E → E → Bool} {w : E → M} {Inv : I.State → Prop}
    (h : I.InvCorrect Inv mem allowed lt w) : ∀ (ops : List (PQOp E)) (s : I.State), Inv s →
    (∀ o ∈ ops, allowed o) → ∀ outs s', I.run s ops = some (outs, s') →
      Inv s' ∧ PQTraceBy mem lt w (I.entries s) ops outs (I.entries s') := by
  intro ops
  induction ops with
  | nil =>
    intro s hs _ outs s' hr
    simp only [PQImpl.run] at hr
    cases hr
    exact ⟨hs, .nil⟩
  | cons op ops ih =>
    intro s hs hal outs s' hr
    simp only [PQImpl.run] at hr
    split at hr
    · cases hr
    · rename_i o s₁ h1
      split at hr
      · cases hr
      · rename_i os s₂ h2
        cases hr
        have hnt : op.needsTop → I.entries s ≠ [] := by
          intro hn he
          rw [h.undef s op hs hn he] at h1
          cases h1
        obtain ⟨o', s₁', g1, g2, g3, _⟩ := h.step s op hs (hal op List.mem_cons_self) hnt
        rw [g1] at h1
        cases h1
        obtain ⟨k1, k2⟩ := ih s₁ g2 (fun o ho => hal o (List.mem_cons_of_mem _ ho)) _ _ h2
        exact ⟨k1, .cons g3 k2⟩

theorem step_none_iff {M : Type*} [AddCommMonoid M] {I : PQImpl E} {mem : E → List E → Prop}
    {allowed : PQOp E → Prop} {lt : E → E → Bool} {w : E → M} {Inv : I.State → Prop}
    (h : I.InvCorrect Inv mem allowed lt w) {s : I.State} (hs : Inv s) {op : PQOp E} (ha : allowed op) :
    I.step s op = none ↔ op.needsTop ∧ I.entries s = [] := by
  constructor
  · intro hn
    by_contra hcon
    obtain ⟨o', s₁', g1, _⟩ := h.step s op hs ha (fun h1 h2 => hcon ⟨h1, h2⟩)
    rw [g1] at hn
    cases hn
  · intro hn
    exact h.undef s op hs hn.1 hn.2

/-! ## Geobucket -/

theorem bucketLoop_eq {es : List E} {ask : List E → Ans} : ∀ (n i : ℕ) (got : List E),
    i ≤ es.length → es.length - i < n →
    bucketLoop es ask es.length n i got = some (walk ask (es.drop i) got) := by
  intro n
  induction n with
  | zero => intro i got _ h; omega
  | succ n ih =>
    intro i got hi hn
    rw [bucketLoop]
    by_cases h : i = es.length
    · rw [if_pos h, h, List.drop_length]
      rfl
    · have hlt : i < es.length := by omega
      rw [if_neg h, List.getElem?_eq_getElem hlt, List.drop_eq_getElem_cons hlt, walk]
      dsimp only
      rw [ih (i + 1) _ (by omega) (by omega)]
      cases ask (got ++ [es[i]]) <;> rfl

theorem walk_append (ask : List E → Ans) : ∀ (l l' got : List E),
    walk ask (l ++ l') got = (match walk ask l got with
      | (got, .go) => walk ask l' got
      | (got, .stop) => (got, .stop)
      | (got, .threw) => (got, .threw)) := by
  intro l
  induction l with
  | nil => intro l' got; rfl
  | cons e l ih =>
    intro l' got
    rw [List.cons_append, walk, walk]
    cases ask (got ++ [e]) with
    | go => exact ih l' _
    | stop => rfl
    | threw => rfl

theorem geoLoop_eq {bs : List (Geobucket.Bucket E)} {ask : List E → Ans} {rounds : ℕ}
    (hr : ∀ b ∈ bs, b.es.length < rounds) : ∀ (n i : ℕ) (got : List E),
    i ≤ bs.length → bs.length - i < n →
    geoLoop bs ask bs.length rounds n i got =
      some (walk ask ((bs.drop i).flatMap Geobucket.Bucket.es) got) := by
  intro n
  induction n with
  | zero => intro i got _ h; omega
  | succ n ih =>
    intro i got hi hn
    rw [geoLoop]
    by_cases h : i = bs.length
    · rw [if_pos h, h, List.drop_length]
      rfl
    · have hlt : i < bs.length := by omega
      rw [if_neg h, List.getElem?_eq_getElem hlt, List.drop_eq_getElem_cons hlt, List.flatMap_cons, walk_append]
      dsimp only
      rw [bucketLoop_eq rounds 0 got (Nat.zero_le _) (by have := hr _ (List.getElem_mem hlt); omega), List.drop_zero]
      rcases hw : walk ask bs[i].es got with ⟨g, a⟩
      cases a with
      | go => exact ih (i + 1) g (by omega) (by omega)
      | stop => rfl
      | threw => rfl

end Verif.Visit
