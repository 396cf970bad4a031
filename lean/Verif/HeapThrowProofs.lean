import Verif.HeapThrow
import Verif.HeapProofs

/-!
# Helper lemmas for `HeapThrow`

Nothing here asks the comparison to be an order.
-/

namespace Verif.Heap

variable {E : Type*} {M : Type*} [AddCancelCommMonoid M]

theorem all_rd {P : E → Prop} {t : List E} (h : ∀ a ∈ t, P a) {i : ℕ} {a : E}
    (ha : rd t i = some a) : P a := h a (rd_mem ha)

theorem all_of_rd {P : E → Prop} {t : List E} (h : ∀ i a, rd t i = some a → P a) :
    ∀ a ∈ t, P a := by
  intro a ha
  obtain ⟨i, hi⟩ := mem_rd ha
  exact h i a hi

theorem all_wr {P : E → Prop} {t t' : List E} (h : ∀ a ∈ t, P a) {i : ℕ} {v : E} (hv : P v)
    (hw : wr t i v = some t') : ∀ a ∈ t', P a := by
  apply all_of_rd
  intro j a ha
  rw [rd_wr hw] at ha
  split at ha
  · cases ha; exact hv
  · exact all_rd h ha

/-- Moving the hole down, whatever the comparisons answer. -/
theorem moveHoleDownX_spec (c : ConfX E) (w : E → M) (P : E → Prop) (n : ℕ) (t : List E) (hole : ℕ)
    (h1 : 1 ≤ hole) (h2 : hole ≤ t.length) (hP : ∀ a ∈ t, P a) :
    ∃ f, moveHoleDownX c n t hole = some f ∧
      match f with
      | .on p _ t' => t'.length = t.length ∧ 1 ≤ p ∧ p ≤ t.length ∧ t.length < 2 * p ∧
        (∀ a ∈ t', P a) ∧
        ∀ x y, rd t hole = some x → rd t' p = some y → wsum w t' + w x = wsum w t + w y
      | .threw _ t' => t'.length = t.length ∧ (∀ a ∈ t', P a) ∧
        ∃ y ∈ t', ∀ x, rd t hole = some x → wsum w t' + w x = wsum w t + w y := by
  fun_induction moveHoleDownX c n t hole with
  | case1 n t => omega
  | case2 n t hole h0 hlt a b hb ha hcmp =>
    refine ⟨_, rfl, rfl, hP, ?_⟩
    obtain ⟨y, hy⟩ := rd_exists h1 h2
    refine ⟨y, rd_mem hy, ?_⟩
    intro x hx
    rw [hx] at hy; cases hy; rfl
  | case3 n t hole h0 hlt a b hb ha less e hcmp hn =>
    exfalso
    simp only [dite_eq_ite] at hn
    obtain ⟨v, hv⟩ := rd_exists (t := t) (i := if less then 2 * hole + 1 else 2 * hole)
      (by split <;> omega) (by split <;> omega)
    rw [hv] at hn
    cases hn
  | case4 n t hole h0 hlt a b hb ha less e hcmp v hv hw =>
    rw [wr_some v h1 h2] at hw
    cases hw
  | case5 n t hole h0 hlt a b hb ha less e hcmp v hv t₁ hw ih =>
    have hl := wr_length hw
    simp only [dite_eq_ite] at ih hv ⊢
    generalize hch : (if less = true then 2 * hole + 1 else 2 * hole) = child at *
    have hchild : 2 * hole ≤ child ∧ child ≤ 2 * hole + 1 := by rw [← hch]; split <;> omega
    obtain ⟨f, e1, e2⟩ := ih (by omega) (by omega) (all_wr hP (all_rd hP hv) hw)
    refine ⟨f, e1, ?_⟩
    have hc1 : rd t₁ child = some v := by
      rw [rd_wr hw, if_neg (by omega)]; exact hv
    have key : ∀ (t' : List E) (x y : E), rd t hole = some x →
        wsum w t' + w v = wsum w t₁ + w y → wsum w t' + w x = wsum w t + w y := by
      intro t' x y hx e1
      have e2 := wsum_wr w hw hx
      apply add_right_cancel (b := w v)
      calc wsum w t' + w x + w v = (wsum w t' + w v) + w x := by abel
        _ = (wsum w t₁ + w x) + w y := by rw [e1]; abel
        _ = wsum w t + w y + w v := by rw [e2]; abel
    cases f with
    | on p n' t' =>
      obtain ⟨g2, g3, g4, g5, gP, g6⟩ := e2
      refine ⟨by omega, g3, by omega, by omega, gP, ?_⟩
      intro x y hx hy
      exact key t' x y hx (g6 v y hc1 hy)
    | threw n' t' =>
      obtain ⟨g2, gP, y, hy, g6⟩ := e2
      refine ⟨by omega, gP, y, hy, ?_⟩
      intro x hx
      exact key t' x y hx (g6 v hc1)
  | case6 n t hole h0 hlt hn =>
    exfalso
    obtain ⟨a, ha⟩ := rd_exists (t := t) (i := 2 * hole) (by omega) (by omega)
    obtain ⟨b, hb⟩ := rd_exists (t := t) (i := 2 * hole + 1) (by omega) (by omega)
    exact hn a b ha hb
  | case7 n t hole h0 hlt he hn =>
    exfalso
    obtain ⟨a, ha⟩ := rd_exists (t := t) (i := 2 * hole) (by omega) (by omega)
    rw [hn] at ha
    cases ha
  | case8 n t hole h0 hlt he v hv hw =>
    rw [wr_some v h1 h2] at hw
    cases hw
  | case9 n t hole h0 hlt he v hv t₁ hw =>
    have hl := wr_length hw
    refine ⟨_, rfl, hl, by omega, by omega, by omega, all_wr hP (all_rd hP hv) hw, ?_⟩
    intro x y hx hy
    rw [rd_wr hw, if_neg (by omega), hv] at hy
    cases hy
    exact wsum_wr w hw hx
  | case10 n t hole h0 hlt he =>
    refine ⟨_, rfl, rfl, h1, h2, by omega, hP, ?_⟩
    intro x y hx hy
    rw [hx] at hy
    cases hy
    rfl

/-- The climb, whatever the comparisons answer. -/
theorem climbX_spec (c : ConfX E) (w : E → M) (P : E → Prop) (n : ℕ) (t : List E) (pos : ℕ)
    (value : E) (h1 : 1 ≤ pos) (h2 : pos ≤ t.length) (hP : ∀ a ∈ t, P a) :
    ∃ f, climbX c n t pos value = some f ∧
      match f with
      | .on (_, p) _ t' => t'.length = t.length ∧ 1 ≤ p ∧ p ≤ t.length ∧ (∀ a ∈ t', P a) ∧
        ∀ x y, rd t pos = some x → rd t' p = some y → wsum w t' + w x = wsum w t + w y
      | .threw _ t' => t'.length = t.length ∧ (∀ a ∈ t', P a) ∧
        ∃ y ∈ t', ∀ x, rd t pos = some x → wsum w t' + w x = wsum w t + w y := by
  fun_induction climbX c n t pos value with
  | case1 n t => omega
  | case2 n t h0 =>
    refine ⟨_, rfl, rfl, h1, h2, hP, ?_⟩
    intro x y hx hy
    rw [hx] at hy; cases hy; rfl
  | case3 n t pos h0 h1' hn =>
    exfalso
    obtain ⟨a, ha⟩ := rd_exists (t := t) (i := pos / 2) (by omega) (by omega)
    rw [hn] at ha
    cases ha
  | case4 n t pos h0 h1' u hu hcmp =>
    refine ⟨_, rfl, rfl, hP, ?_⟩
    obtain ⟨y, hy⟩ := rd_exists h1 h2
    refine ⟨y, rd_mem hy, ?_⟩
    intro x hx
    rw [hx] at hy; cases hy; rfl
  | case5 n t pos h0 h1' u hu e hcmp hw =>
    rw [wr_some u h1 h2] at hw
    cases hw
  | case6 n t pos h0 h1' u hu e hcmp t₁ hw ih =>
    have hl := wr_length hw
    have hu1 : rd t₁ (pos / 2) = some u := by
      rw [rd_wr hw, if_neg (by omega)]; exact hu
    obtain ⟨f, e1, e2⟩ := ih (by omega) (by omega) (all_wr hP (all_rd hP hu) hw)
    refine ⟨f, e1, ?_⟩
    have key : ∀ (t' : List E) (x y : E), rd t pos = some x →
        wsum w t' + w u = wsum w t₁ + w y → wsum w t' + w x = wsum w t + w y := by
      intro t' x y hx e1
      have e2 := wsum_wr w hw hx
      apply add_right_cancel (b := w u)
      calc wsum w t' + w x + w u = (wsum w t' + w u) + w x := by abel
        _ = (wsum w t₁ + w x) + w y := by rw [e1]; abel
        _ = wsum w t + w y + w u := by rw [e2]; abel
    cases f with
    | on p n' t' =>
      obtain ⟨g2, g3, g4, gP, g6⟩ := e2
      refine ⟨by omega, g3, by omega, gP, ?_⟩
      intro x y hx hy
      exact key t' x y hx (g6 u y hu1 hy)
    | threw n' t' =>
      obtain ⟨g2, gP, y, hy, g6⟩ := e2
      refine ⟨by omega, gP, y, hy, ?_⟩
      intro x hx
      exact key t' x y hx (g6 u hu1)
  | case7 n t pos h0 h1' u hu e hcmp =>
    refine ⟨_, rfl, rfl, h1, h2, hP, ?_⟩
    intro x y hx hy
    rw [hx] at hy; cases hy; rfl

/-- What the climb does when it ends below an equal entry, and that moving back undoes it. -/
theorem climbX_dup {c : ConfX E} {t t' : List E} {n n' o p : ℕ} {v : E}
    (h : climbX c n t o v = some (.on (true, p) n' t')) :
    2 ≤ p ∧ p ≤ o ∧ c.supportDedup = true ∧
    (∃ u k, rd t (p / 2) = some u ∧ rd t' (p / 2) = some u ∧ c.cmp k u v = .val false true) ∧
    (∀ i, o < i → rd t' i = rd t i) ∧
    (p = o → t' = t) ∧
    (p < o → ∀ d t₁, wr t' (p / 2) d = some t₁ →
      ∃ tmp t₂, rd t (o / 2) = some tmp ∧ rd t₁ o = some tmp ∧
        moveBack t₁ tmp (o / 2) p = some t₂ ∧
        ∀ i, rd t₂ i = if i = o then some tmp else if i = p / 2 then some d else rd t i) := by
  generalize hr : some (Flow.on (true, p) n' t') = r at h
  fun_induction climbX c n t o v with
  | case1 => rw [← h] at hr; cases hr
  | case2 => rw [← h] at hr; cases hr
  | case3 => rw [← h] at hr; cases hr
  | case4 => rw [← h] at hr; cases hr
  | case5 => rw [← h] at hr; cases hr
  | case7 n t o h0 h1 u hu e hcmp =>
    rw [← h] at hr
    have hr := Option.some.inj hr
    simp only [Flow.on.injEq, Prod.mk.injEq] at hr
    obtain ⟨⟨hb, rfl⟩, rfl, rfl⟩ := hr
    have hb := hb.symm
    simp only [Bool.and_eq_true] at hb
    rw [hb.2] at hcmp
    exact ⟨by omega, le_refl _, hb.1, ⟨u, _, hu, hu, hcmp⟩, fun _ _ => rfl, fun _ => rfl,
      fun hlt => absurd hlt (lt_irrefl _)⟩
  | case6 n t o h0 h1 u hu e hcmp t₁ hw ih =>
    obtain ⟨g1, g2, g3, ⟨u', k, g4, g5, g6⟩, g7, g8, g9⟩ := ih h
    have hbd := wr_bounds hw
    refine ⟨g1, by omega, g3, ⟨u', k, ?_, g5, g6⟩, ?_, by omega, ?_⟩
    · rw [rd_wr hw, if_neg (by omega)] at g4; exact g4
    · intro i hi
      rw [g7 i (by omega), rd_wr hw, if_neg (by omega)]
    · intro _ d T hT
      have hTo : rd T o = some u := by
        rw [rd_wr hT, if_neg (by omega), g7 o (by omega), rd_wr hw, if_pos rfl]
      by_cases hp : p = o / 2
      · have ht' := g8 hp
        refine ⟨u, T, hu, hTo, by rw [hp, moveBack, if_pos rfl], ?_⟩
        intro i
        rw [rd_wr hT, ht', rd_wr hw]
        by_cases hio : i = o
        · rw [if_pos hio, if_neg (by omega), if_pos hio]
        · simp only [if_neg hio]
      · obtain ⟨tmp, t₂, f1, f2, f3, f4⟩ := g9 (by omega) d T hT
        have hbT := rd_bounds f2
        have hwT := wr_some u hbT.1 hbT.2
        obtain ⟨t₂', e1, e2, e3, e4⟩ := moveBack_congr (s := T) (s' := T.set (o / 2 - 1) u)
          (by intro i hi; rw [rd_wr hwT, if_neg (by omega)]) f3
        refine ⟨u, t₂', hu, hTo, ?_, ?_⟩
        · rw [moveBack, if_neg (by omega), dif_neg (by omega), f2]
          simp only [hwT, e1]
        · intro i
          by_cases hi : i ≤ o / 2 / 2
          · rw [e2 i hi, f4, if_neg (by omega), rd_wr hw]
            simp only [if_neg (show i ≠ o by omega)]
          · rw [e3 i (by omega), rd_wr hwT]
            by_cases hi2 : i = o / 2
            · rw [if_pos hi2, if_neg (by omega), if_neg (by omega), hi2, hu]
            · rw [if_neg hi2, ← e4 i (by omega), f4, if_neg hi2]
              rw [if_neg (by omega), rd_wr hw]
              by_cases hio : i = o
              · rw [if_pos hio, if_pos hio]
              · rw [if_neg hio, if_neg hio, if_neg (by omega)]

/-- The deduplication branch, whatever the comparisons answer. -/
theorem mergeUpX_spec {c : ConfX E} {w : E → M} (hw : c.Weight w) {P : E → Prop} (hcl : c.Closed P)
    {t t' : List E} {n n' o p : ℕ} {v x : E} (hx : rd t o = some x)
    (hclimb : climbX c n t o v = some (.on (true, p) n' t')) (hP : ∀ a ∈ t, P a) (hv : P v) :
    ∃ f, mergeUpX c n' t' o p v = some f ∧
      match f with
      | .on last _ t₁ => t₁.length + 1 = t.length ∧ (∀ a ∈ t₁, P a) ∧ P last ∧
        ∃ tmp, (o < t.length → rd t₁ o = some tmp) ∧ (o = t.length → last = tmp) ∧
          wsum w t₁ + w last + w x = wsum w t + w v + w tmp
      | .threw _ t₁ => t₁ = t' := by
  obtain ⟨g1, g2, g3, ⟨u, k, g4, g5, g6⟩, g7, g8, g9⟩ := climbX_dup hclimb
  have hlen := climbX_length hclimb
  have hbo := rd_bounds hx
  have hbu := rd_bounds g5
  cases hd : c.dedup u v with
  | none =>
    refine ⟨.threw n' t', ?_, rfl⟩
    rw [mergeUpX, g5]
    simp only [hd]
  | some d =>
    have hwr := wr_some d hbu.1 hbu.2
    -- the tree after moving back
    have key : ∃ tmp t₂, restore (t'.set (p / 2 - 1) d) o p = some t₂ ∧ P tmp ∧
        ∀ i, rd t₂ i = if i = o then some tmp else if i = p / 2 then some d else rd t i := by
      by_cases hp : p = o
      · refine ⟨x, t'.set (p / 2 - 1) d, by simp [restore, hp], all_rd hP hx, ?_⟩
        intro i
        rw [rd_wr hwr, g8 hp]
        by_cases hio : i = o
        · rw [if_pos hio, if_neg (by omega), hio]; exact hx
        · simp only [if_neg hio]
      · obtain ⟨tmp, t₂, f1, f2, f3, f4⟩ := g9 (by omega) _ _ hwr
        refine ⟨tmp, t₂, ?_, all_rd hP f1, f4⟩
        rw [restore, if_pos hp, f2]
        exact f3
    obtain ⟨tmp, t₂, hback, htmp, hrd⟩ := key
    have hlen2 : t₂.length = t.length := by
      have hl1 : (t'.set (p / 2 - 1) d).length = t.length := by simp [hlen]
      rw [restore_length hback, hl1]
    obtain ⟨last, hlast⟩ := rd_exists (t := t₂) (i := t₂.length) (by omega) (le_refl _)
    have hsum := wsum_two w (show o ≠ p / 2 by omega) hx g4 hrd
    have hdrop := wsum_dropLast w hlast
    have hP2 : ∀ a ∈ t₂, P a := by
      apply all_of_rd
      intro i a ha
      rw [hrd] at ha
      split at ha
      · cases ha; exact htmp
      · split at ha
        · cases ha; exact hcl u v d (all_rd hP g4) hv hd
        · exact all_rd hP ha
    refine ⟨.on last n' t₂.dropLast, ?_, ?_, ?_, all_rd hP2 hlast, tmp, ?_, ?_, ?_⟩
    · rw [mergeUpX, g5]
      simp only [hd, hwr, hback, hlast]
    · rw [List.length_dropLast]; omega
    · intro a ha
      exact hP2 a (List.dropLast_subset _ ha)
    · intro ho
      rw [rd_dropLast (by omega), hrd, if_pos rfl]
    · intro ho
      rw [hlen2, ← ho, hrd, if_pos rfl] at hlast
      cases hlast
      rfl
    · rw [hw g3 k u v d g6 hd] at hsum
      apply add_right_cancel (b := w u)
      rw [hdrop, hsum]
      abel

/-- Putting a value into a hole whose cell holds `x`. An exception loses one entry `v'` and leaves one
entry `y` twice. -/
theorem moveValueUpX_spec {c : ConfX E} {w : E → M} (hw : c.Weight w) {P : E → Prop}
    (hcl : c.Closed P) (n : ℕ) (t : List E) (o : ℕ) (v x : E) (hx : rd t o = some x)
    (hP : ∀ a ∈ t, P a) (hv : P v) :
    ∃ f, moveValueUpX c n t o v = some f ∧
      match f with
      | .on _ _ t' => (∀ a ∈ t', P a) ∧ wsum w t' + w x = wsum w t + w v
      | .threw _ t' => (∀ a ∈ t', P a) ∧ ∃ v' y, P v' ∧ y ∈ t' ∧
        wsum w t' + w v' + w x = wsum w t + w v + w y := by
  induction hn : t.length using Nat.strong_induction_on generalizing n t v x with
  | _ l ih =>
    have hb := rd_bounds hx
    obtain ⟨r, hr, hr'⟩ := climbX_spec c w P n t o v hb.1 hb.2 hP
    rw [moveValueUpX]
    split
    · rename_i hcl; rw [hr] at hcl; cases hcl
    · rename_i n' t' hcl
      rw [hr] at hcl
      cases hcl
      obtain ⟨_, gP, y, hy, g⟩ := hr'
      refine ⟨_, rfl, gP, v, y, hv, hy, ?_⟩
      rw [add_right_comm, g x hx, add_right_comm]
    · rename_i pos n' t' hcl
      rw [hr] at hcl
      cases hcl
      obtain ⟨g2, g3, g4, gP, g7⟩ := hr'
      have hwr := wr_some (t := t') v g3 (by omega)
      obtain ⟨y, hy⟩ := rd_exists (t := t') (i := pos) g3 (by omega)
      rw [hwr]
      refine ⟨_, rfl, all_wr gP hv hwr, ?_⟩
      have e1 := g7 x y hx hy
      have e2 := wsum_wr w hwr hy
      apply add_right_cancel (b := w y)
      rw [add_right_comm, e2, add_right_comm, e1]
      abel
    · rename_i pos n' t' hclimb
      obtain ⟨f, f1, f2⟩ := mergeUpX_spec hw hcl hx hclimb hP hv
      split
      · rename_i hm; rw [f1] at hm; cases hm
      · rename_i n₁ t₁ hm
        rw [f1] at hm
        cases hm
        have f2 : t₁ = t' := f2
        subst f2
        rw [hr] at hclimb
        cases hclimb
        obtain ⟨g2, g3, g4, gP, g7⟩ := hr'
        obtain ⟨y, hy⟩ := rd_exists (t := t₁) (i := pos) g3 (by omega)
        refine ⟨_, rfl, gP, v, y, hv, rd_mem hy, ?_⟩
        rw [add_right_comm, g7 x y hx hy, add_right_comm]
      · rename_i last n₁ t₁ hm
        rw [f1] at hm
        cases hm
        obtain ⟨k1, kP, kl, tmp, k2, k3, k4⟩ := f2
        split
        · rename_i ho
          have := k3 (by omega)
          subst this
          refine ⟨_, rfl, kP, ?_⟩
          apply add_right_cancel (b := w last)
          rw [add_right_comm, k4]
        · rename_i ho
          obtain ⟨f', m1, m2⟩ := ih t₁.length (by omega) n₁ t₁ last tmp (k2 (by omega)) kP kl rfl
          refine ⟨f', m1, ?_⟩
          cases f' with
          | on _ n₂ t₂ =>
            refine ⟨m2.1, ?_⟩
            apply add_right_cancel (b := w tmp)
            rw [add_right_comm, m2.2, k4]
          | threw n₂ t₂ =>
            obtain ⟨mP, v', y, hv', hy, m3⟩ := m2
            refine ⟨mP, v', y, hv', hy, ?_⟩
            apply add_right_cancel (b := w tmp)
            calc wsum w t₂ + w v' + w x + w tmp = (wsum w t₂ + w v' + w tmp) + w x := by abel
              _ = (wsum w t₁ + w last + w x) + w y := by rw [m3]; abel
              _ = wsum w t + w v + w y + w tmp := by rw [k4]; abel

theorem pushX_spec {c : ConfX E} {w : E → M} (hw : c.Weight w) {P : E → Prop} (hcl : c.Closed P)
    (n : ℕ) (t : List E) (e : E) (hP : ∀ a ∈ t, P a) (he : P e) :
    ∃ f, pushX c n t e = some f ∧
      match f with
      | .on _ _ t' => (∀ a ∈ t', P a) ∧ wsum w t' = wsum w t + w e
      | .threw _ t' => (∀ a ∈ t', P a) ∧ ∃ v y, P v ∧ y ∈ t' ∧
        wsum w t' + w v = wsum w t + w e + w y := by
  have hx : rd (t ++ [e]) (t.length + 1) = some e := rd_append_last
  have hP' : ∀ a ∈ t ++ [e], P a := by
    intro a ha
    rcases List.mem_append.mp ha with h | h
    · exact hP a h
    · rw [List.mem_singleton.mp h]; exact he
  obtain ⟨f, h1, h2⟩ := moveValueUpX_spec hw hcl n (t ++ [e]) (t.length + 1) e e hx hP' he
  have hs : wsum w (t ++ [e]) = wsum w t + w e := by simp
  refine ⟨f, h1, ?_⟩
  cases f with
  | on _ n' t' =>
    refine ⟨h2.1, ?_⟩
    have := h2.2
    rw [hs] at this
    exact add_right_cancel this
  | threw n' t' =>
    obtain ⟨gP, v, y, hv, hy, g⟩ := h2
    refine ⟨gP, v, y, hv, hy, ?_⟩
    rw [hs] at g
    apply add_right_cancel (b := w e)
    rw [g]
    abel

theorem pushRangeX_spec {c : ConfX E} {w : E → M} (hw : c.Weight w) {P : E → Prop}
    (hcl : c.Closed P) (l : List E) : ∀ (n : ℕ) (t : List E), (∀ a ∈ t, P a) → (∀ a ∈ l, P a) →
    ∃ f, pushRangeX c n t l = some f ∧
      match f with
      | .on _ _ t' => (∀ a ∈ t', P a) ∧ wsum w t' = wsum w t + wsum w l
      | .threw _ t' => (∀ a ∈ t', P a) ∧ ∃ l₁ e l₂ v y, l = l₁ ++ e :: l₂ ∧ P v ∧ y ∈ t' ∧
        wsum w t' + w v = wsum w t + wsum w (l₁ ++ [e]) + w y := by
  induction l with
  | nil => intro n t hP _; exact ⟨_, rfl, hP, by simp⟩
  | cons e l ih =>
    intro n t hP hl
    obtain ⟨f, h1, h2⟩ := pushX_spec hw hcl n t e hP (hl e List.mem_cons_self)
    rw [pushRangeX, h1]
    cases f with
    | threw n' t' =>
      obtain ⟨gP, v, y, hv, hy, g⟩ := h2
      refine ⟨_, rfl, gP, [], e, l, v, y, rfl, hv, hy, ?_⟩
      simpa using g
    | on _ n' t' =>
      obtain ⟨f', k1, k2⟩ := ih n' t' h2.1 (fun a ha => hl a (List.mem_cons_of_mem _ ha))
      refine ⟨f', k1, ?_⟩
      cases f' with
      | on _ n₂ t₂ =>
        refine ⟨k2.1, ?_⟩
        rw [k2.2, h2.2, wsum_cons]
        abel
      | threw n₂ t₂ =>
        obtain ⟨gP, l₁, e', l₂, v, y, rfl, hv, hy, g⟩ := k2
        refine ⟨gP, e :: l₁, e', l₂, v, y, rfl, hv, hy, ?_⟩
        rw [g, h2.2, List.cons_append, wsum_cons]
        abel

theorem decreaseTopX_spec {c : ConfX E} {w : E → M} (hw : c.Weight w) {P : E → Prop}
    (hcl : c.Closed P) (n : ℕ) (t : List E) (e x : E) (hx : rd t 1 = some x) (hP : ∀ a ∈ t, P a)
    (he : P e) :
    ∃ f, decreaseTopX c n t e = some f ∧
      match f with
      | .on _ _ t' => (∀ a ∈ t', P a) ∧ wsum w t' + w x = wsum w t + w e
      | .threw _ t' => (∀ a ∈ t', P a) ∧ ∃ v y, P v ∧ y ∈ t' ∧
        wsum w t' + w v + w x = wsum w t + w e + w y := by
  have hb := rd_bounds hx
  obtain ⟨f, h1, h2⟩ := moveHoleDownX_spec c w P n t 1 hb.1 hb.2 hP
  rw [decreaseTopX, h1]
  cases f with
  | threw n' t' =>
    obtain ⟨_, gP, y, hy, g⟩ := h2
    refine ⟨_, rfl, gP, e, y, he, hy, ?_⟩
    rw [add_right_comm, g x hx, add_right_comm]
  | on p n' t' =>
    obtain ⟨g1, g2, g3, g4, gP, g5⟩ := h2
    obtain ⟨y, hy⟩ := rd_exists (t := t') (i := p) g2 (by omega)
    obtain ⟨f', k1, k2⟩ := moveValueUpX_spec hw hcl n' t' p e y hy gP he
    have g := g5 x y hx hy
    refine ⟨f', k1, ?_⟩
    cases f' with
    | on _ n₂ t₂ =>
      refine ⟨k2.1, ?_⟩
      apply add_right_cancel (b := w y)
      calc wsum w t₂ + w x + w y = (wsum w t₂ + w y) + w x := by abel
        _ = (wsum w t' + w x) + w e := by rw [k2.2]; abel
        _ = wsum w t + w e + w y := by rw [g]; abel
    | threw n₂ t₂ =>
      obtain ⟨mP, v, z, hv, hz, m⟩ := k2
      refine ⟨mP, v, z, hv, hz, ?_⟩
      apply add_right_cancel (b := w y)
      calc wsum w t₂ + w v + w x + w y = (wsum w t₂ + w v + w y) + w x := by abel
        _ = (wsum w t' + w x) + w e + w z := by rw [m]; abel
        _ = wsum w t + w e + w z + w y := by rw [g]; abel

theorem popX_spec {c : ConfX E} {w : E → M} (hw : c.Weight w) {P : E → Prop}
    (hcl : c.Closed P) (n : ℕ) (t : List E) (x : E) (hx : rd t 1 = some x) (hP : ∀ a ∈ t, P a) :
    ∃ f, popX c n t = some f ∧
      match f with
      | .on a _ t' => a = x ∧ (∀ a ∈ t', P a) ∧ wsum w t' + w x = wsum w t
      | .threw _ t' => (∀ a ∈ t', P a) ∧ ∃ v y, P v ∧ y ∈ t' ∧
        wsum w t' + w v + w x = wsum w t + w y := by
  have hb := rd_bounds hx
  obtain ⟨moved, hm⟩ := rd_exists (t := t) (i := t.length) (by omega) (le_refl _)
  have hd := wsum_dropLast w hm
  have hPd : ∀ a ∈ t.dropLast, P a := fun a ha => hP a (List.dropLast_subset _ ha)
  rw [popX, hx, hm]
  simp only
  by_cases h0 : t.dropLast.isEmpty = true
  · rw [if_pos h0]
    refine ⟨_, rfl, rfl, hPd, ?_⟩
    have hl : t.length = 1 := by
      have := List.length_eq_zero_iff.mpr (List.isEmpty_iff.mp h0)
      rw [List.length_dropLast] at this
      omega
    rw [hl, hx] at hm
    cases hm
    exact hd
  · rw [if_neg h0]
    have hl : t.dropLast.length ≠ 0 := fun h => h0 (List.isEmpty_iff.mpr (List.length_eq_zero_iff.mp h))
    rw [List.length_dropLast] at hl
    have hx' : rd t.dropLast 1 = some x := by rw [rd_dropLast (by omega)]; exact hx
    obtain ⟨f, h1, h2⟩ := decreaseTopX_spec hw hcl n t.dropLast moved x hx' hPd (all_rd hP hm)
    rw [h1]
    refine ⟨_, rfl, ?_⟩
    cases f with
    | on _ n' t' => exact ⟨rfl, h2.1, by rw [h2.2, hd]⟩
    | threw n' t' =>
      obtain ⟨gP, v, y, hv, hy, g⟩ := h2
      exact ⟨gP, v, y, hv, hy, by rw [g, hd]⟩

/-! ## Comparisons with fixed values -/

theorem moveHoleDownX_pure (c : PQConf E) (t : List E) (hole : ℕ) : ∀ n, ∃ n',
    moveHoleDownX (.ofPure c) n t hole =
      (moveHoleDown c t hole).map (fun r => .on r.2 n' r.1) := by
  fun_induction moveHoleDown c t hole with
  | case1 t => intro n; exact ⟨n, by rw [moveHoleDownX]; simp⟩
  | case2 t hole h0 hlt a b hb ha child hn =>
    intro n
    refine ⟨n, ?_⟩
    rw [moveHoleDownX, dif_neg h0, dif_pos hlt, hb, ha]
    simp only [ConfX.ofPure, ConfX.answering]
    rw [show rd t (if c.lt a b = true then 2 * hole + 1 else 2 * hole) = none by
      simpa [child] using hn]
    rfl
  | case3 t hole h0 hlt a b hb ha child v hv hw =>
    intro n
    refine ⟨n, ?_⟩
    rw [moveHoleDownX, dif_neg h0, dif_pos hlt, hb, ha]
    simp only [ConfX.ofPure, ConfX.answering]
    rw [show rd t (if c.lt a b = true then 2 * hole + 1 else 2 * hole) = some v by
      simpa [child] using hv]
    simp only
    split
    · rfl
    · rename_i h; rw [hw] at h; cases h
  | case4 t hole h0 hlt a b hb ha child v hv t₁ hw ih =>
    intro n
    obtain ⟨n', h'⟩ := ih (n + 1)
    refine ⟨n', ?_⟩
    rw [← h', moveHoleDownX, dif_neg h0, dif_pos hlt, hb, ha]
    simp only [ConfX.ofPure, ConfX.answering]
    rw [show rd t (if c.lt a b = true then 2 * hole + 1 else 2 * hole) = some v by
      simpa [child] using hv]
    simp only
    split
    · rename_i h; rw [hw] at h; cases h
    · rename_i t₂ h
      rw [hw] at h
      cases h
      simp [child]
  | case5 t hole h0 hlt hn =>
    intro n
    refine ⟨n, ?_⟩
    rw [moveHoleDownX, dif_neg h0, dif_pos hlt]
    split
    · rename_i a b ha hb; exact absurd hb (hn a b ha)
    · rfl
  | case6 t hole h0 hlt he hn =>
    intro n
    exact ⟨n, by rw [moveHoleDownX, dif_neg h0, dif_neg hlt, if_pos he, hn]; rfl⟩
  | case7 t hole h0 hlt he v hv hw =>
    intro n
    refine ⟨n, ?_⟩
    rw [moveHoleDownX, dif_neg h0, dif_neg hlt, if_pos he, hv]
    simp only [hw]
    rfl
  | case8 t hole h0 hlt he v hv t₁ hw =>
    intro n
    refine ⟨n, ?_⟩
    rw [moveHoleDownX, dif_neg h0, dif_neg hlt, if_pos he, hv]
    simp only [hw]
    rfl
  | case9 t hole h0 hlt he =>
    intro n
    exact ⟨n, by rw [moveHoleDownX, dif_neg h0, dif_neg hlt, if_neg he]; rfl⟩

/-- The end of the climb in the terms of `climbX`. -/
def Climb.flow (n : ℕ) : Climb E → Flow (Bool × ℕ) E
  | .place t p => .on (false, p) n t
  | .dup t p => .on (true, p) n t

theorem climbX_pure (c : PQConf E) (t : List E) (pos : ℕ) (v : E) : ∀ n, ∃ n',
    climbX (.ofPure c) n t pos v = (climb c t pos v).map (Climb.flow n') := by
  fun_induction climb c t pos v with
  | case1 t => intro n; exact ⟨n, by rw [climbX]; simp⟩
  | case2 t h0 => intro n; exact ⟨n, by rw [climbX]; simp [Climb.flow]⟩
  | case3 t pos h0 h1 hn => intro n; exact ⟨n, by rw [climbX, dif_neg h0, dif_neg h1, hn]; rfl⟩
  | case4 t pos h0 h1 u hu hlt hw =>
    intro n
    refine ⟨n, ?_⟩
    rw [climbX, dif_neg h0, dif_neg h1, hu]
    simp only [ConfX.ofPure, ConfX.answering, hlt, hw]
    rfl
  | case5 t pos h0 h1 u hu hlt t₁ hw ih =>
    intro n
    obtain ⟨n', h'⟩ := ih (n + 1)
    refine ⟨n', ?_⟩
    rw [← h', climbX, dif_neg h0, dif_neg h1, hu]
    simp only [ConfX.ofPure, ConfX.answering, hlt, hw]
  | case6 t pos h0 h1 u hu hlt heq =>
    intro n
    refine ⟨n + 1, ?_⟩
    rw [climbX, dif_neg h0, dif_neg h1, hu]
    simp only [ConfX.ofPure, ConfX.answering, Bool.eq_false_iff.mpr hlt, heq]
    rfl
  | case7 t pos h0 h1 u hu hlt heq =>
    intro n
    refine ⟨n + 1, ?_⟩
    rw [climbX, dif_neg h0, dif_neg h1, hu]
    simp only [ConfX.ofPure, ConfX.answering, Bool.eq_false_iff.mpr hlt, Bool.eq_false_iff.mpr heq]
    rfl

theorem mergeUpX_pure (c : PQConf E) (n : ℕ) (t : List E) (o pos : ℕ) (v : E) :
    mergeUpX (.ofPure c) n t o pos v = (mergeUp c t o pos v).map (fun r => .on r.2 n r.1) := by
  unfold mergeUpX mergeUp
  cases rd t (pos / 2) with
  | none => rfl
  | some u =>
    simp only [ConfX.ofPure, ConfX.answering]
    cases wr t (pos / 2) (c.dedup u v) with
    | none => rfl
    | some t₁ =>
      simp only
      cases restore t₁ o pos with
      | none => rfl
      | some t₂ =>
        simp only
        cases rd t₂ t₂.length <;> rfl

theorem moveValueUpX_eq (c : ConfX E) (n : ℕ) (t : List E) (o : ℕ) (v : E) :
    moveValueUpX c n t o v =
      match climbX c n t o v with
      | none => none
      | some (.threw n' t') => some (.threw n' t')
      | some (.on (false, pos) n' t') =>
        match wr t' pos v with
        | none => none
        | some t'' => some (.on () n' t'')
      | some (.on (true, pos) n' t') =>
        match mergeUpX c n' t' o pos v with
        | none => none
        | some (.threw n₁ t₁) => some (.threw n₁ t₁)
        | some (.on last n₁ t₁) =>
          if o = t₁.length + 1 then some (.on () n₁ t₁)
          else moveValueUpX c n₁ t₁ o last := by
  rw [moveValueUpX]
  split
  · rename_i h; rw [h]
  · rename_i h; rw [h]
  · rename_i pos n' t' h
    rw [h]
    cases hw : wr t' pos v <;> simp only [hw]
  · rename_i h
    rw [h]
    simp only
    split
    · rename_i h2; rw [h2]
    · rename_i h2; rw [h2]
    · rename_i h2; rw [h2]

theorem moveValueUpX_pure (c : PQConf E) (t : List E) (o : ℕ) (v : E) : ∀ n, ∃ n',
    moveValueUpX (.ofPure c) n t o v = (moveValueUp c t o v).map (fun t' => .on () n' t') := by
  induction hn : t.length using Nat.strong_induction_on generalizing t v with
  | _ l ih =>
    intro n
    obtain ⟨n', h'⟩ := climbX_pure c t o v n
    rw [moveValueUpX_eq, moveValueUp_eq, h']
    cases hcl : climb c t o v with
    | none => exact ⟨n, rfl⟩
    | some r =>
      cases r with
      | place t' pos =>
        refine ⟨n', ?_⟩
        simp only [Option.map_some, Climb.flow]
        cases wr t' pos v <;> rfl
      | dup t' pos =>
        have hl := (climb_length hcl).2 _ _ rfl
        simp only [Option.map_some, Climb.flow, mergeUpX_pure]
        cases hm : mergeUp c t' o pos v with
        | none => exact ⟨n, rfl⟩
        | some r =>
          have hl2 := mergeUp_length (t' := r.1) (last := r.2) hm
          simp only [Option.map_some]
          by_cases ho : o = r.1.length + 1
          · exact ⟨n', by simp only [if_pos ho]; rfl⟩
          · obtain ⟨n₂, h₂⟩ := ih r.1.length (by omega) r.1 r.2 rfl n'
            exact ⟨n₂, by simp only [if_neg ho]; exact h₂⟩

theorem pushX_pure (c : PQConf E) (t : List E) (e : E) (n : ℕ) : ∃ n',
    pushX (.ofPure c) n t e = (push c t e).map (fun t' => .on () n' t') :=
  moveValueUpX_pure c _ _ _ n

theorem pushRangeX_pure (c : PQConf E) (l : List E) : ∀ (t : List E) (n : ℕ), ∃ n',
    pushRangeX (.ofPure c) n t l = (pushRange c t l).map (fun t' => .on () n' t') := by
  induction l with
  | nil => intro t n; exact ⟨n, rfl⟩
  | cons e l ih =>
    intro t n
    obtain ⟨n', h'⟩ := pushX_pure c t e n
    rw [pushRangeX, pushRange, h']
    cases push c t e with
    | none => exact ⟨n, rfl⟩
    | some t' => exact ih t' n'

theorem decreaseTopX_pure (c : PQConf E) (t : List E) (e : E) (n : ℕ) : ∃ n',
    decreaseTopX (.ofPure c) n t e = (decreaseTop c t e).map (fun t' => .on () n' t') := by
  obtain ⟨n', h'⟩ := moveHoleDownX_pure c t 1 n
  rw [decreaseTopX, decreaseTop, h']
  cases moveHoleDown c t 1 with
  | none => exact ⟨n, rfl⟩
  | some r => exact moveValueUpX_pure c r.1 r.2 e n'

theorem popX_pure (c : PQConf E) (t : List E) (n : ℕ) : ∃ n',
    popX (.ofPure c) n t = (pop c t).map (fun r => .on r.1 n' r.2) := by
  unfold popX pop
  cases rd t 1 with
  | none => exact ⟨n, rfl⟩
  | some x =>
    cases rd t t.length with
    | none => exact ⟨n, rfl⟩
    | some m =>
      simp only
      by_cases h0 : t.dropLast.isEmpty = true
      · exact ⟨n, by rw [if_pos h0, if_pos h0]; rfl⟩
      · obtain ⟨n', h'⟩ := decreaseTopX_pure c t.dropLast m n
        refine ⟨n', ?_⟩
        rw [if_neg h0, if_neg h0, h', decreaseTop]
        cases moveHoleDown c t.dropLast 1 with
        | none => rfl
        | some r =>
          simp only
          cases moveValueUp c r.1 r.2 m <;> rfl

/-- Where comparisons have fixed values and nothing throws, the heap is that of `Heap.lean`. -/
theorem stepX_pure (c : PQConf E) (t : List E) (op : PQOp E) (n : ℕ) : ∃ n',
    stepX (.ofPure c) n t op = (step c t op).map (fun r => .on r.1 n' r.2) := by
  cases op with
  | push e =>
    obtain ⟨n', h⟩ := pushX_pure c t e n
    refine ⟨n', ?_⟩
    rw [stepX, step, h]
    cases push c t e <;> rfl
  | pushRange l =>
    obtain ⟨n', h⟩ := pushRangeX_pure c l t n
    refine ⟨n', ?_⟩
    rw [stepX, step, h]
    cases pushRange c t l <;> rfl
  | top =>
    refine ⟨n, ?_⟩
    rw [stepX, step]
    cases top t <;> rfl
  | pop =>
    obtain ⟨n', h⟩ := popX_pure c t n
    refine ⟨n', ?_⟩
    rw [stepX, step, h]
    cases pop c t <;> rfl
  | decreaseTop e =>
    obtain ⟨n', h⟩ := decreaseTopX_pure c t e n
    refine ⟨n', ?_⟩
    rw [stepX, step, h]
    cases decreaseTop c t e <;> rfl
  | clear => exact ⟨n, rfl⟩

end Verif.Heap
