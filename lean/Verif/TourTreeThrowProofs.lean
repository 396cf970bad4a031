import Verif.TourTreeThrow
import Verif.TourTreeXProofs

/-!
# Helper lemmas for `TourTreeThrow`

A push whose comparison throws leaves the tree that it leaves if that comparison answers that it is not
less. So a push keeps the shape of the tree whatever its comparisons do.
-/

namespace Verif.TourTree

variable {E : Type}

/-- The comparison says less; where it throws or is undefined it does not. -/
def saysLess (cmp : E → E → Cmp) (a b : E) : Bool :=
  match cmp a b with
  | .val b => b
  | _ => false

/-- A configuration that compares as `cmp` where that gives answers. -/
def confOf (cmp : E → E → Cmp) : PQConf E where
  lt := saysLess cmp
  eq _ _ := false
  dedup a _ := a
  supportDedup := false

theorem pushLoopX_any (cmp : E → E → Cmp) (hub : ∀ a b, cmp a b ≠ .ub) (players : List (E × ℕ)) :
    ∀ (posParent : ℕ) (tree tree' : List ℕ) (pos : ℕ),
      pushLoop (confOf cmp) players tree pos posParent = some tree' →
      pushLoopX cmp players tree pos posParent = .ok tree' ∨
        pushLoopX cmp players tree pos posParent = .exn tree' := by
  intro posParent
  induction posParent using Nat.strong_induction_on with
  | _ posParent ih =>
    intro tree tree' pos h
    rw [pushLoopX]
    split
    · rename_i hn
      rw [pushLoop_none _ hn] at h
      cases h
    · rename_i q hq
      rw [pushLoop_some _ hq] at h
      have hb := (rd_bounds hq).1
      cases h1 : rd tree pos with
      | none => rw [h1] at h; cases h
      | some p =>
        rw [h1] at h
        simp only at h ⊢
        cases h2 : players[q]? with
        | none => rw [h2] at h; cases h
        | some qe =>
          cases h3 : players[p]? with
          | none => rw [h2, h3] at h; cases h
          | some pe =>
            rw [h2, h3] at h
            simp only at h ⊢
            cases hc : cmp qe.1 pe.1 with
            | ub => exact absurd hc (hub _ _)
            | exn =>
              rw [if_pos (show (confOf cmp).lt qe.1 pe.1 = false by simp [confOf, saysLess, hc])] at h
              cases h
              exact Or.inr rfl
            | val b =>
              have hlt : (confOf cmp).lt qe.1 pe.1 = b := by simp [confOf, saysLess, hc]
              cases b with
              | false =>
                rw [if_pos hlt] at h
                cases h
                exact Or.inl rfl
              | true =>
                rw [if_neg (by rw [hlt]; simp)] at h
                simp only
                cases h4 : wr tree posParent p with
                | none => rw [h4] at h; cases h
                | some t =>
                  rw [h4] at h
                  simp only at h ⊢
                  split
                  · rename_i h5; rw [if_pos h5] at h; cases h; exact Or.inl rfl
                  · rename_i h5; rw [if_neg h5] at h; exact ih _ (by omega) _ _ _ h

theorem pushX_any (cmp : E → E → Cmp) (hub : ∀ a b, cmp a b ≠ .ub) {s : State E} (hs : Shape s)
    (e : E) : ∃ s', (pushX cmp s e = .ok s' ∨ pushX cmp s e = .exn s') ∧ Shape s' ∧
      entries s' = entries s ++ [e] := by
  obtain ⟨s', hpush, h2, h3, _⟩ := push_spec (confOf cmp) hs e
  refine ⟨s', ?_, h2, h3⟩
  unfold push at hpush
  unfold pushX
  simp only at hpush ⊢
  generalize hs1 : (if s.cap - s.tree.length ≥ 2 then s else reallocate s) = s1 at hpush ⊢
  by_cases h0 : s1.tree = []
  · rw [if_pos h0] at hpush ⊢
    have : pushFirst s1 e = some s' := hpush
    rw [this]
    exact Or.inl rfl
  · rw [if_neg h0] at hpush ⊢
    obtain ⟨moveDown, h1, hpush⟩ := Option.bind_eq_some_iff.mp hpush
    obtain ⟨s2, h2, hpush⟩ := Option.bind_eq_some_iff.mp hpush
    obtain ⟨ps, h3, hpush⟩ := Option.bind_eq_some_iff.mp hpush
    obtain ⟨s4, h4, hpush⟩ := Option.bind_eq_some_iff.mp hpush
    obtain ⟨s5, h5, hpush⟩ := Option.bind_eq_some_iff.mp hpush
    obtain ⟨t, h6, hpush⟩ := Option.bind_eq_some_iff.mp hpush
    have hl : pushLeaf s1 e = some s5 := by
      simp [pushLeaf, h1, h2, h3, h4, h5]
    have he : s' = { s5 with tree := t } := by cases hpush; rfl
    rw [hl]
    simp only
    rcases pushLoopX_any cmp hub s5.players _ _ _ _ h6 with h | h
    · left; rw [h, he]; rfl
    · right; rw [h, he]; rfl

theorem pushRangeX_any (cmp : E → E → Cmp) (hub : ∀ a b, cmp a b ≠ .ub) (l : List E) :
    ∀ {s : State E}, Shape s →
    (∃ s', pushRangeX cmp s l = .ok s' ∧ Shape s' ∧ entries s' = entries s ++ l) ∨
    (∃ s' l₁ e l₂, pushRangeX cmp s l = .exn s' ∧ Shape s' ∧ l = l₁ ++ e :: l₂ ∧
      entries s' = entries s ++ (l₁ ++ [e])) := by
  induction l with
  | nil => intro s hs; exact Or.inl ⟨s, rfl, hs, by simp⟩
  | cons e l ih =>
    intro s hs
    obtain ⟨s', h1, h2, h3⟩ := pushX_any cmp hub hs e
    rw [pushRangeX]
    rcases h1 with h1 | h1
    · rw [h1]
      rcases ih h2 with ⟨s₂, k1, k2, k3⟩ | ⟨s₂, l₁, e', l₂, k1, k2, rfl, k4⟩
      · exact Or.inl ⟨s₂, k1, k2, by rw [k3, h3]; simp⟩
      · exact Or.inr ⟨s₂, e :: l₁, e', l₂, k1, k2, rfl, by rw [k4, h3]; simp⟩
    · rw [h1]
      exact Or.inr ⟨s', [], e, l, rfl, h2, rfl, by rw [h3]; rfl⟩

/-- A comparison that gives answers is that of `confOf`. -/
theorem confOf_val {cmp : E → E → Cmp} (hub : ∀ a b, cmp a b ≠ .ub) (hexn : ∀ a b, cmp a b ≠ .exn)
    (a b : E) : cmp a b = .val ((confOf cmp).lt a b) := by
  cases h : cmp a b with
  | val b => simp only [confOf, saysLess, h]
  | exn => exact absurd h (hexn a b)
  | ub => exact absurd h (hub a b)

theorem popX_any {cmp : E → E → Cmp} (hub : ∀ a b, cmp a b ≠ .ub) (hexn : ∀ a b, cmp a b ≠ .exn)
    {s : State E} (hs : Shape s) (hne : entries s ≠ []) :
    ∃ x s', top s = some x ∧ popX cmp s = .ok s' ∧ Shape s' ∧ (x :: entries s').Perm (entries s) := by
  obtain ⟨x, s', h1, h2, h3, h4, _⟩ := pop_spec (confOf cmp) hs hne
  exact ⟨x, s', h1, popX_eq _ cmp h2 (fun a _ b _ => confOf_val hub hexn a b), h3, h4⟩

theorem decreaseTopX_any {cmp : E → E → Cmp} (hub : ∀ a b, cmp a b ≠ .ub)
    (hexn : ∀ a b, cmp a b ≠ .exn) {s : State E} (hs : Shape s) (hne : entries s ≠ []) (e : E) :
    ∃ x s', top s = some x ∧ decreaseTopX cmp s e = .ok s' ∧ Shape s' ∧
      ∃ i, (entries s)[i]? = some x ∧ entries s' = (entries s).set i e := by
  obtain ⟨x, s', h1, h2, h3, h4, _⟩ := decreaseTop_spec (confOf cmp) hs hne e
  exact ⟨x, s', h1, decreaseTopX_eq _ cmp h2 (fun a _ b _ => confOf_val hub hexn a b), h3, h4⟩

theorem top_mem {s : State E} {x : E} (h : top s = some x) : x ∈ entries s := by
  unfold top at h
  cases hr : rd s.tree 1 with
  | none => simp [hr] at h
  | some p =>
    cases hq : s.players[p]? with
    | none => simp [hr, hq] at h
    | some q =>
      simp [hr, hq] at h
      rw [← h]
      exact List.mem_map_of_mem (List.mem_of_getElem? hq)

theorem top_none {s : State E} (hs : Shape s) (he : entries s = []) : rd s.tree 1 = none := by
  have h0 : s.tree.length = 0 := (nonempty_tree hs).mpr he
  cases h : rd s.tree 1 with
  | none => rfl
  | some p => have := rd_bounds h; omega

theorem wsum_replaced {M : Type*} [AddCommMonoid M] (w : E → M) {l : List E} {i : ℕ} {x : E}
    (hi : l[i]? = some x) (e : E) : wsum w (l.set i e) + w x = wsum w l + w e := by
  obtain ⟨hlt, rfl⟩ := List.getElem?_eq_some_iff.mp hi
  exact wsum_set w l i e hlt

theorem shape_clear {s : State E} (hs : Shape s) : Shape (clear s) :=
  ⟨rfl, rfl, by simp [clear], by simp [clear], by simp [clear], hs.capPos, hs.pcap⟩

end Verif.TourTree
