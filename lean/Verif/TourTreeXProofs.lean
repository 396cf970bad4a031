import Verif.TourTreeX
import Verif.TourTreeProofs

/-!
# Where comparisons have values, the checked tournament tree is the plain one
-/

namespace Verif.TourTree

variable {E : Type}

theorem replayLoopX_eq (c : PQConf E) (cmp : E → E → Cmp) (players : List (E × ℕ))
    (h : ∀ a ∈ players.map Prod.fst, ∀ b ∈ players.map Prod.fst, cmp a b = .val (c.lt a b)) :
    ∀ (pos : ℕ) (tree : List ℕ) (player : ℕ),
      replayLoopX cmp players tree pos player =
        Res.ofOption (replayLoop c players tree pos player) := by
  intro pos
  induction pos using Nat.strong_induction_on with
  | _ pos ih =>
    intro tree player
    rw [replayLoop, replayLoopX]
    split
    · rfl
    · split
      · rfl
      · cases h1 : rd tree (sibling pos) with
        | none => rfl
        | some o =>
          simp only
          cases h2 : players[player]? with
          | none => rfl
          | some pe =>
            cases h3 : players[o]? with
            | none => rfl
            | some oe =>
              simp only
              rw [h pe.1 (List.mem_map_of_mem (List.mem_of_getElem? h2)) oe.1
                (List.mem_map_of_mem (List.mem_of_getElem? h3))]
              simp only
              cases h4 : wr tree (pos / 2) (if c.lt pe.1 oe.1 then o else player) with
              | none => rfl
              | some t => exact ih _ (by omega) _ _

theorem pushLoop_none (c : PQConf E) {players : List (E × ℕ)} {tree : List ℕ} {pos posParent : ℕ}
    (h : rd tree posParent = none) : pushLoop c players tree pos posParent = none := by
  rw [pushLoop]
  split
  · rfl
  · rename_i q hq
    rw [h] at hq
    cases hq

theorem pushLoop_some (c : PQConf E) {players : List (E × ℕ)} {tree : List ℕ} {pos posParent q : ℕ}
    (h : rd tree posParent = some q) : pushLoop c players tree pos posParent =
      match rd tree pos with
      | none => none
      | some p =>
        match players[q]?, players[p]? with
        | some qe, some pe =>
          if c.lt qe.1 pe.1 = false then some tree
          else
            match wr tree posParent p with
            | none => none
            | some tree' =>
              if posParent = 1 then some tree'
              else pushLoop c players tree' posParent (posParent / 2)
        | _, _ => none := by
  rw [pushLoop]
  split
  · rename_i hn
    rw [hn] at h
    cases h
  · rename_i q' hq
    rw [h] at hq
    cases hq
    rfl

theorem pushLoopX_eq (c : PQConf E) (cmp : E → E → Cmp) (players : List (E × ℕ))
    (h : ∀ a ∈ players.map Prod.fst, ∀ b ∈ players.map Prod.fst, cmp a b = .val (c.lt a b)) :
    ∀ (posParent : ℕ) (tree : List ℕ) (pos : ℕ),
      pushLoopX cmp players tree pos posParent =
        Res.ofOption (pushLoop c players tree pos posParent) := by
  intro posParent
  induction posParent using Nat.strong_induction_on with
  | _ posParent ih =>
    intro tree pos
    rw [pushLoopX]
    split
    · rename_i hn
      rw [pushLoop_none c hn]
      rfl
    · rename_i q hq
      rw [pushLoop_some c hq]
      have hb := (rd_bounds hq).1
      cases h1 : rd tree pos with
      | none => rfl
      | some p =>
        simp only
        cases h2 : players[q]? with
        | none => rfl
        | some qe =>
          cases h3 : players[p]? with
          | none => rfl
          | some pe =>
            simp only
            rw [h qe.1 (List.mem_map_of_mem (List.mem_of_getElem? h2)) pe.1
              (List.mem_map_of_mem (List.mem_of_getElem? h3))]
            cases hc : c.lt qe.1 pe.1 with
            | false => rfl
            | true =>
              simp only [Bool.true_eq_false, if_false]
              cases h4 : wr tree posParent p with
              | none => rfl
              | some t =>
                simp only
                split
                · rfl
                · exact ih _ (by omega) _ _

theorem pushX_eq (c : PQConf E) (cmp : E → E → Cmp) {s s' : State E} {e : E}
    (hpush : push c s e = some s')
    (h : ∀ a ∈ entries s', ∀ b ∈ entries s', cmp a b = .val (c.lt a b)) :
    pushX cmp s e = .ok s' := by
  unfold push at hpush
  unfold pushX
  simp only at hpush ⊢
  generalize hs1 : (if s.cap - s.tree.length ≥ 2 then s else reallocate s) = s1 at hpush ⊢
  by_cases h0 : s1.tree = []
  · rw [if_pos h0] at hpush ⊢
    have : pushFirst s1 e = some s' := hpush
    rw [this]
    rfl
  · rw [if_neg h0] at hpush ⊢
    obtain ⟨moveDown, h1, hpush⟩ := Option.bind_eq_some_iff.mp hpush
    obtain ⟨s2, h2, hpush⟩ := Option.bind_eq_some_iff.mp hpush
    obtain ⟨ps, h3, hpush⟩ := Option.bind_eq_some_iff.mp hpush
    obtain ⟨s4, h4, hpush⟩ := Option.bind_eq_some_iff.mp hpush
    obtain ⟨s5, h5, hpush⟩ := Option.bind_eq_some_iff.mp hpush
    obtain ⟨t, h6, hpush⟩ := Option.bind_eq_some_iff.mp hpush
    have hl : pushLeaf s1 e = some s5 := by
      simp [pushLeaf, h1, h2, h3, h4, h5]
    have he : s' = { s5 with tree := t } := by cases hpush; rfl
    rw [hl]
    simp only
    rw [pushLoopX_eq c cmp s5.players (by rw [he] at h; exact h), h6, he]
    rfl

theorem popX_eq (c : PQConf E) (cmp : E → E → Cmp) {s s' : State E} {x : E}
    (hpop : pop c s = some (x, s'))
    (h : ∀ a ∈ entries s', ∀ b ∈ entries s', cmp a b = .val (c.lt a b)) :
    popX cmp s = .ok s' := by
  unfold pop at hpop
  obtain ⟨winner, h1, hpop⟩ := Option.bind_eq_some_iff.mp hpop
  obtain ⟨q, h2, hpop⟩ := Option.bind_eq_some_iff.mp hpop
  have htop : top s = some q.1 := by simp [top, h1, h2]
  unfold popX
  rw [htop]
  simp only
  by_cases hone : s.tree.length = 1
  · rw [if_pos hone] at hpop ⊢
    cases hpop
    rfl
  · rw [if_neg hone] at hpop ⊢
    obtain ⟨left, h4, hpop⟩ := Option.bind_eq_some_iff.mp hpop
    obtain ⟨right, h5, hpop⟩ := Option.bind_eq_some_iff.mp hpop
    obtain ⟨par, h6, hpop⟩ := Option.bind_eq_some_iff.mp hpop
    obtain ⟨⟨ps, t⟩, h7, hpop⟩ := Option.bind_eq_some_iff.mp hpop
    obtain ⟨player, h8, hpop⟩ := Option.bind_eq_some_iff.mp hpop
    obtain ⟨r, h9, hpop⟩ := Option.bind_eq_some_iff.mp hpop
    obtain ⟨ps1, h10, hpop⟩ := Option.bind_eq_some_iff.mp hpop
    obtain ⟨ps2, h11, hpop⟩ := Option.bind_eq_some_iff.mp hpop
    obtain ⟨q2, h12, hpop⟩ := Option.bind_eq_some_iff.mp hpop
    obtain ⟨t', h13, hpop⟩ := Option.bind_eq_some_iff.mp hpop
    have hm : popMove s = some (ps2, t.dropLast.dropLast, player, q2.2) := by
      simp only [popMove, h4, h5, h6, h7, h8, h9, h10, h11, h12, Option.bind_eq_bind,
        Option.bind_some]
    have he : s' = { s with tree := t', players := ps2 } := by cases hpop; rfl
    rw [hm]
    simp only
    rw [replayLoopX_eq c cmp ps2 (by rw [he] at h; exact h), h13, he]
    rfl

theorem decreaseTopX_eq (c : PQConf E) (cmp : E → E → Cmp) {s s' : State E} {e : E}
    (hdec : decreaseTop c s e = some s')
    (h : ∀ a ∈ entries s', ∀ b ∈ entries s', cmp a b = .val (c.lt a b)) :
    decreaseTopX cmp s e = .ok s' := by
  unfold decreaseTop at hdec
  obtain ⟨player, h1, hdec⟩ := Option.bind_eq_some_iff.mp hdec
  obtain ⟨ps, h2, hdec⟩ := Option.bind_eq_some_iff.mp hdec
  obtain ⟨q, h3, hdec⟩ := Option.bind_eq_some_iff.mp hdec
  obtain ⟨t, h4, hdec⟩ := Option.bind_eq_some_iff.mp hdec
  have hs : decreaseSet s e = some (ps, player, q.2) := by simp [decreaseSet, h1, h2, h3]
  have he : s' = { s with players := ps, tree := t } := by cases hdec; rfl
  unfold decreaseTopX
  rw [hs]
  simp only
  rw [replayLoopX_eq c cmp ps (by rw [he] at h; exact h), h4, he]
  rfl

/-- The invariant depends on comparisons between entries only. -/
theorem Inv.congr {c c' : PQConf E} {s : State E} (h : Inv c s)
    (hcc : ∀ a ∈ entries s, ∀ b ∈ entries s, c'.lt a b = c.lt a b) : Inv c' s := by
  refine ⟨h.toShape, ?_⟩
  intro i h1 h2 k hk a b ha hb
  have hmem : ∀ j x, entAt s.players s.tree j = some x → x ∈ entries s := by
    intro j x hx
    unfold entAt at hx
    cases hr : rd s.tree j with
    | none => rw [hr] at hx; cases hx
    | some p =>
      rw [hr, Option.bind_some, ← List.getElem?_map] at hx
      exact List.mem_of_getElem? hx
  rw [hcc a (hmem i a ha) b (hmem k b hb)]
  exact h.ord i h1 h2 k hk a b ha hb

theorem pushLoop_root (c : PQConf E) (players : List (E × ℕ)) :
    ∀ (posParent : ℕ) (tree tree' : List ℕ) (pos : ℕ),
      pushLoop c players tree pos posParent = some tree' →
      rd tree' 1 = rd tree 1 ∨ rd tree' 1 = rd tree pos := by
  intro posParent
  induction posParent using Nat.strong_induction_on with
  | _ posParent ih =>
    intro tree tree' pos h
    cases hq : rd tree posParent with
    | none => rw [pushLoop_none c hq] at h; cases h
    | some q =>
      rw [pushLoop_some c hq] at h
      have hb := (rd_bounds hq).1
      cases h1 : rd tree pos with
      | none => rw [h1] at h; cases h
      | some p =>
        rw [h1] at h
        simp only at h
        cases h2 : players[q]? with
        | none => rw [h2] at h; cases h
        | some qe =>
          cases h3 : players[p]? with
          | none => rw [h2, h3] at h; cases h
          | some pe =>
            rw [h2, h3] at h
            simp only at h
            split at h
            · cases h; exact Or.inl rfl
            · cases h4 : wr tree posParent p with
              | none => rw [h4] at h; cases h
              | some t =>
                rw [h4] at h
                simp only at h
                split at h
                · rename_i hone
                  cases h
                  right
                  rw [rd_wr h4, if_pos hone.symm]
                · rename_i hone
                  rcases ih _ (by omega) t tree' posParent h with g | g
                  · left
                    rw [g, rd_wr h4, if_neg (by omega)]
                  · right
                    rw [g, rd_wr h4, if_pos rfl]

/-- After a push the top is the new entry or the old top. -/
theorem push_top (c : PQConf E) {s s' : State E} (hs : Shape s) {e : E} (h : push c s e = some s') :
    top s' = some e ∨ top s' = top s := by
  unfold push at h
  simp only at h
  generalize hs1 : (if s.cap - s.tree.length ≥ 2 then s else reallocate s) = s1 at h
  have hsame : s1.tree = s.tree ∧ s1.players = s.players := by
    rw [← hs1]; split <;> exact ⟨rfl, rfl⟩
  have htop : top s1 = top s := by unfold top; rw [hsame.1, hsame.2]
  rw [← htop]
  by_cases h0 : s1.tree = []
  · rw [if_pos h0] at h
    obtain ⟨s2, h2, h⟩ := Option.bind_eq_some_iff.mp h
    have hpl : s1.players = [] := by
      have : entries s = [] := (nonempty_tree hs).mp (by rw [← hsame.1, h0]; rfl)
      rw [hsame.2]
      exact List.map_eq_nil_iff.mp this
    unfold playersPush at h2
    split at h2
    · cases h2
      unfold treePush at h
      split at h
      · cases h
        left
        simp [top, h0, hpl, rd]
      · cases h
    · cases h2
  · rw [if_neg h0] at h
    obtain ⟨moveDown, h1, h⟩ := Option.bind_eq_some_iff.mp h
    obtain ⟨s2, h2, h⟩ := Option.bind_eq_some_iff.mp h
    obtain ⟨ps, h3, h⟩ := Option.bind_eq_some_iff.mp h
    obtain ⟨s4, h4, h⟩ := Option.bind_eq_some_iff.mp h
    obtain ⟨s5, h5, h⟩ := Option.bind_eq_some_iff.mp h
    obtain ⟨t, h6, h⟩ := Option.bind_eq_some_iff.mp h
    unfold treePush at h2
    split at h2
    · cases h2
      unfold setLeaf at h3
      obtain ⟨q, hq, h3⟩ := Option.map_eq_some_iff.mp h3
      unfold playersPush at h4
      split at h4
      · cases h4
        unfold treePush at h5
        split at h5
        · cases h5
          cases h
          simp only at h6 hq h3
          have hpsl : ps.length = s1.players.length := by rw [← h3]; simp
          have hroot : rd (s1.tree ++ [moveDown] ++ [(ps ++ [(e, (s1.tree ++ [moveDown]).length + 1)]).length - 1]) 1 = rd s1.tree 1 := by
            rw [List.append_assoc]
            cases htr : s1.tree with
            | nil => exact absurd htr h0
            | cons a l => simp [rd]
          rcases pushLoop_root c _ _ _ _ _ h6 with g | g
          · right
            rw [hroot] at g
            unfold top
            simp only [g]
            cases hr : rd s1.tree 1 with
            | none => rfl
            | some w =>
              simp only [Option.bind_eq_bind, Option.bind_some]
              have hw : w < s1.players.length := by
                rw [hsame.1] at hr
                rw [hsame.2]
                exact cell_lt hs hr
              rw [List.getElem?_append_left (by omega), ← h3, List.getElem?_set]
              split
              · rename_i hmw
                subst hmw
                rw [if_pos hw, hq]
                rfl
              · rfl
          · left
            have : rd (s1.tree ++ [moveDown] ++ [(ps ++ [(e, (s1.tree ++ [moveDown]).length + 1)]).length - 1])
                (s1.tree ++ [moveDown] ++ [(ps ++ [(e, (s1.tree ++ [moveDown]).length + 1)]).length - 1]).length
                = some ps.length := by
              simp [rd]
            rw [this] at g
            simp [top, g]
        · cases h5
      · cases h4
    · cases h2

end Verif.TourTree
