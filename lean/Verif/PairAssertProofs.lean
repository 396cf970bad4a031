import Verif.PairAssertSpec
import Verif.PairQueueProofs
import Verif.QueueAssertProofs

/-!
# Helper lemmas on debug builds of pair queues
-/

namespace Verif.TourTree

open Verif.Dbg

variable {E : Type} {c : PQConf E} {cmp : E → E → Cmp}

theorem assertNotLess_ok {a b : E} (h : cmp a b = .val (c.lt a b)) (h' : assert (!c.lt a b) = ok ()) :
    assertNotLess cmp a b = ok (.done ()) := by
  unfold assertNotLess
  rw [h]
  cases hl : c.lt a b with
  | false => rfl
  | true => rw [hl] at h'; cases h'

theorem mem_entries {s : State E} {p : ℕ} {e : E} (h : s.players[p]?.map Prod.fst = some e) : e ∈ entries s := by
  rw [Option.map_eq_some_iff] at h
  obtain ⟨x, h1, rfl⟩ := h
  exact List.mem_map_of_mem (List.mem_of_getElem? h1)

theorem nodeValidX_ok {s : State E} (hcmp : ∀ a ∈ entries s, ∀ b ∈ entries s, cmp a b = .val (c.lt a b)) {pos : ℕ}
    (h : nodeValid c s pos = ok ()) : nodeValidX cmp s pos = ok (.done ()) := by
  unfold nodeValid at h
  unfold nodeValidX
  obtain ⟨p, h1, h⟩ := bind_ok.mp h
  rw [h1, ok_bind]
  split at h
  · rename_i hpos
    rw [if_pos hpos]
    obtain ⟨_, h2, h⟩ := bind_ok.mp h
    rw [h2, ok_bind]
    obtain ⟨q, h3, h⟩ := bind_ok.mp h
    rw [h3, ok_bind, h]
    rfl
  · rename_i hpos
    rw [if_neg hpos]
    obtain ⟨_, h2, h⟩ := bind_ok.mp h
    rw [h2, ok_bind]
    obtain ⟨l, h3, h⟩ := bind_ok.mp h
    rw [h3, ok_bind]
    obtain ⟨r, h4, h⟩ := bind_ok.mp h
    rw [h4, ok_bind]
    obtain ⟨_, h5, h⟩ := bind_ok.mp h
    rw [h5, ok_bind]
    obtain ⟨_, h6, h⟩ := bind_ok.mp h
    rw [h6, ok_bind]
    obtain ⟨pe, h7, h⟩ := bind_ok.mp h
    rw [h7, ok_bind]
    obtain ⟨le, h8, h⟩ := bind_ok.mp h
    rw [h8, ok_bind]
    obtain ⟨_, h9, h⟩ := bind_ok.mp h
    obtain ⟨re, h10, h⟩ := bind_ok.mp h
    rw [h10, ok_bind]
    have e1 := mem_entries (lift_ok.mp h7)
    have e2 := mem_entries (lift_ok.mp h8)
    have e3 := mem_entries (lift_ok.mp h10)
    rw [assertNotLess_ok (hcmp _ e1 _ e2) h9, assertNotLess_ok (hcmp _ e1 _ e3) h]
    rfl

theorem nodesValidX_ok {s : State E} (hcmp : ∀ a ∈ entries s, ∀ b ∈ entries s, cmp a b = .val (c.lt a b)) :
    ∀ (n pos : ℕ), nodesValid c s pos n = ok () → nodesValidX cmp s pos n = ok (.done ()) := by
  intro n
  induction n with
  | zero => intro pos _; rfl
  | succ n ih =>
    intro pos h
    unfold nodesValid at h
    obtain ⟨_, h1, h⟩ := bind_ok.mp h
    unfold nodesValidX
    rw [nodeValidX_ok hcmp h1, ih _ h]
    rfl

theorem isValidX_ok {s : State E} (hi : Inv c s)
    (hcmp : ∀ a ∈ entries s, ∀ b ∈ entries s, cmp a b = .val (c.lt a b)) : isValidX cmp s = ok (.done ()) := by
  have h := isValid_ok hi
  unfold isValid at h
  unfold isValidX
  obtain ⟨_, h1, h⟩ := bind_ok.mp h
  obtain ⟨_, h2, h⟩ := bind_ok.mp h
  obtain ⟨_, h3, h⟩ := bind_ok.mp h
  rw [h1, h2, h3, ok_bind, ok_bind, ok_bind, nodesValidX_ok hcmp _ _ h]

theorem endValid_ok {s : State E} (hi : Inv c s)
    (hcmp : ∀ a ∈ entries s, ∀ b ∈ entries s, cmp a b = .val (c.lt a b)) : endValid cmp (.ok s) = ok (.done s) := by
  show End.check (isValidX cmp s) s (ok (.done s)) = _
  rw [isValidX_ok hi hcmp]
  rfl

theorem pushXD_ok {s s' : State E} {e : E} (hi : Inv c s)
    (hcmp : ∀ a ∈ entries s, ∀ b ∈ entries s, cmp a b = .val (c.lt a b))
    {c' : PQConf E} (hp : pushX cmp s e = .ok s') (hi' : Inv c' s')
    (hcmp' : ∀ a ∈ entries s', ∀ b ∈ entries s', cmp a b = .val (c'.lt a b)) : pushXD cmp s e = ok (.done s') := by
  unfold pushXD
  rw [isValidX_ok hi hcmp, isValidX_ok (inv_reallocate hi) (s := reallocate s) hcmp, hp, endValid_ok hi' hcmp']
  split <;> rfl

theorem topXD_ok {s : State E} {x : E} (h : top s = some x) : topXD s = ok x := by
  unfold topXD
  have : s.tree.isEmpty = false := by
    rw [List.isEmpty_eq_false_iff]
    intro h0
    simp [top, rd, h0] at h
  rw [this, h]
  rfl

end Verif.TourTree

namespace Verif.PairQueue

open Verif.Dbg
open TourTree (entries)

variable {D : Type} {cf : Conf D} {f : Faults}

theorem compare_core (hf : ∀ a b, f.compare a b = false) {s : State D} (h : Core cf s) :
    ∀ a ∈ entries s.queue, ∀ b ∈ entries s.queue, compare cf f s.mem a b = .val ((qc cf s.mem).lt a b) := by
  intro a ha b hb
  obtain ⟨ca, a1, a2⟩ := h.good a ha
  obtain ⟨cb, b1, b2⟩ := h.good b hb
  exact compare_good hf a1 b1 a2 b2

theorem retiredD_ok {s : State D} (h : Core cf s) {i : ℕ} (hi : i < s.count) :
    retiredD cf s i = ok (deadI cf s.ret i) := by
  have h2 : (!cf.support || decide (i < s.ret.length)) = true := by
    cases hs : cf.support with
    | false => rfl
    | true => simpa [h.retLen hs] using hi
  unfold retiredD
  rw [assert_of (by simpa using hi), assert_of h2, retired_eq h hi]
  rfl

/-- The top column. -/
theorem top_column {s : State D} (h : Core cf s) {p : ℕ} (hp : TourTree.top s.queue = some p) :
    ∃ c r l, s.mem[p]? = some ⟨c, r :: l, some (cf.compute c r)⟩ ∧ c < s.count ∧ ∀ x ∈ r :: l, x < c := by
  obtain ⟨⟨c, rows, data⟩, hm, hg⟩ := h.good p (top_mem hp)
  cases rows with
  | nil => exact absurd rfl hg.ne
  | cons r l =>
    have hd : data = some (cf.compute c r) := hg.data r (by simp)
    subst hd
    exact ⟨c, r, l, hm, hg.col, hg.rows⟩

theorem tree_isEmpty {s : TourTree.State ℕ} {p : ℕ} (hp : TourTree.top s = some p) : s.tree.isEmpty = false := by
  rw [List.isEmpty_eq_false_iff]
  intro h0
  simp [TourTree.top, rd, h0] at hp

theorem emptyD_false {s : State D} (h : Core cf s) {p : ℕ} (hp : TourTree.top s.queue = some p) : emptyD s = ok false := by
  obtain ⟨c, r, l, hm, -, -⟩ := top_column h hp
  unfold emptyD
  rw [tree_isEmpty hp, TourTree.topXD_ok hp, ok_bind, hm]
  rfl

theorem emptyD_true {s : State D} (h : s.queue.tree.length = 0) : emptyD s = ok true := by
  unfold emptyD
  rw [List.length_eq_zero_iff.mp h]
  rfl

theorem topPairD_ok {s : State D} (h : Core cf s) {p : ℕ} (hp : TourTree.top s.queue = some p) :
    topPairD s = ok (key s.mem p) := by
  obtain ⟨c, r, l, hm, -, -⟩ := top_column h hp
  have hk : key s.mem p = (c, r) := by simp [key, hm]
  unfold topPairD
  rw [tree_isEmpty hp, TourTree.topXD_ok hp, ok_bind, hm, hk]
  rfl

theorem topPairDataD_ok {s : State D} (h : Core cf s) {p : ℕ} (hp : TourTree.top s.queue = some p) :
    topPairDataD s = lift (topPairData s) := by
  obtain ⟨c, r, l, hm, -, -⟩ := top_column h hp
  unfold topPairDataD topPairData
  rw [tree_isEmpty hp, TourTree.topXD_ok hp, ok_bind, hm, hp, ]
  simp only [hm]
  rfl

theorem destructColumnD_ok {s s' : State D} {p : ℕ} (h : destructColumn s p = some s')
    (hr : ∀ c r l d, s.mem[p]? = some ⟨c, r :: l, d⟩ → r < c) : destructColumnD s p = ok s' := by
  unfold destructColumnD
  rcases hm : s.mem[p]? with - | ⟨c, rows, d⟩
  · simp [destructColumn, hm] at h
  · rw [lift_some, ok_bind]
    cases rows with
    | nil =>
      simp only [destructColumn, hm] at h
      cases h
      rfl
    | cons r l =>
      have := hr _ _ _ _ hm
      simp only
      rw [assert_of (by simpa using this), h]
      rfl

theorem destroyTopD_ok (hf : ∀ a b, f.compare a b = false) {s s' : State D} {p q : ℕ}
    (hq : TourTree.top s.queue = some q) (h : destroyTop cf f s p = .ok s')
    (hr : ∀ c r l d, s.mem[p]? = some ⟨c, r :: l, d⟩ → r < c) (h' : Core cf s') :
    destroyTopD cf f s p = ok (.done s') := by
  unfold destroyTop at h
  split at h
  · cases h
  · rename_i s₁ h1
    have hqueue : s₁.queue = s.queue := by
      unfold destructColumn at h1
      split at h1 <;> first | (cases h1; done) | (cases h1; rfl)
    rcases hp : TourTree.popX (compare cf f s₁.mem) s₁.queue with q' | q' | -
    · rw [hp] at h
      simp only [Res.map] at h
      cases h
      unfold destroyTopD TourTree.popXD
      rw [destructColumnD_ok h1 hr, ok_bind, hqueue, tree_isEmpty hq]
      rw [hqueue] at hp
      rw [hp, show (assert (!false) : Dbg Unit) = ok () from rfl, ok_bind,
        TourTree.endValid_ok (c := qc cf s₁.mem) h'.order (compare_core hf h')]
      rfl
    · rw [hp] at h; cases h
    · rw [hp] at h; cases h

theorem advanceD_ok {s : State D} (h : Core cf s) : ∀ (l : List ℕ) (prev : ℕ) (x : ℕ × List ℕ),
    (∀ r ∈ l, r < s.count) → advance (retired cf s.ret) prev l = some x →
    advanceD cf s prev l = ok x ∧ x.1 ∈ prev :: l ∧ (∀ r ∈ x.2, r ∈ l) ∧
      ∀ r l', x.2 = r :: l' → deadI cf s.ret r = false := by
  intro l
  induction l with
  | nil =>
    intro prev x _ hx
    simp only [advance] at hx
    cases hx
    exact ⟨rfl, by simp, by simp, by simp⟩
  | cons r l ih =>
    intro prev x hl hx
    have hr := hl r (by simp)
    simp only [advance, retired_eq h hr] at hx
    unfold advanceD
    cases hd : deadI cf s.ret r with
    | true =>
      rw [hd] at hx
      simp only at hx
      obtain ⟨k1, k2, k3, k4⟩ := ih r x (fun y hy => hl y (List.mem_cons_of_mem _ hy)) hx
      have hs : cf.support = true := by
        unfold deadI at hd
        cases hs : cf.support with
        | true => rfl
        | false => rw [hs] at hd; cases hd
      rw [if_pos hs, retiredD_ok h hr, hd]
      exact ⟨k1, List.mem_cons_of_mem _ k2, fun y hy => List.mem_cons_of_mem _ (k3 y hy), k4⟩
    | false =>
      rw [hd] at hx
      simp only at hx
      cases hx
      refine ⟨?_, by simp, fun y hy => hy, ?_⟩
      · by_cases hs : cf.support = true
        · rw [if_pos hs, retiredD_ok h hr, hd]
          rfl
        · rw [if_neg hs]
      · intro a b hab
        cases hab
        exact hd

theorem incrementD_ok (hf : ∀ a b, f.compute a b = false) {s s' : State D} (h : Core cf s) {p : ℕ}
    (hp : TourTree.top s.queue = some p) (hi : increment cf f s p = .ok s') : incrementD cf f s p = ok (.done s') := by
  obtain ⟨c, r, l, hm, hc, hr⟩ := top_column h hp
  simp only [increment, hm] at hi
  unfold incrementD
  rw [hm, lift_some, ok_bind]
  simp only
  rcases ha : advance (retired cf s.ret) r l with - | ⟨last, l'⟩
  · rw [ha] at hi; cases hi
  · obtain ⟨k1, k2, k3, k4⟩ := advanceD_ok h l r _ (fun x hx => lt_trans (hr x (List.mem_cons_of_mem _ hx)) hc) ha
    rw [k1, ok_bind]
    rw [ha] at hi
    cases l' with
    | nil =>
      simp only at hi ⊢
      cases hi
      rw [assert_of (by simpa using hr _ k2)]
      rfl
    | cons r' l' =>
      simp only [hf, Bool.false_eq_true, if_false] at hi ⊢
      cases hi
      have h1 : r' < s.count := lt_trans (hr r' (List.mem_cons_of_mem _ (k3 r' (by simp)))) hc
      rw [retiredD_ok h h1, k4 r' l' rfl]
      rfl

theorem increment_same (hf : ∀ a b, f.compute a b = false) {s s' : State D} {p : ℕ} (hi : increment cf f s p = .ok s') :
    s'.queue = s.queue ∧ s'.count = s.count ∧ s'.ret = s.ret := by
  unfold increment at hi
  split at hi
  · split at hi
    · cases hi
    · cases hi; exact ⟨rfl, rfl, rfl⟩
    · simp only [hf, Bool.false_eq_true, if_false] at hi
      cases hi; exact ⟨rfl, rfl, rfl⟩
  · cases hi

theorem popBodyD_ok (hf : ∀ a b, f.compare a b = false) (hf' : ∀ a b, f.compute a b = false) {s s' : State D}
    (h : Core cf s) {p : ℕ} (hp : TourTree.top s.queue = some p) (hb : popBody cf f s p = .ok s') (h' : Core cf s') :
    popBodyD cf f s p = ok (.done s') := by
  obtain ⟨c, r, l, hm, hc, hr⟩ := top_column h hp
  have hrc : ∀ c' r' l' d, s.mem[p]? = some ⟨c', r' :: l', d⟩ → r' < c' := by
    intro c' r' l' d h0
    rw [hm] at h0
    cases h0
    exact hr _ (by simp)
  unfold popBodyD
  rw [emptyD_false h hp, TourTree.topXD_ok hp, hm]
  simp only [ok_bind, Bool.not_false, assert_true, beq_self_eq_true, lift_some, List.isEmpty_cons]
  have hx : supportedRetiredD cf s c = ok (deadI cf s.ret c) := by
    unfold supportedRetiredD
    by_cases hs : cf.support = true
    · rw [if_pos hs, retiredD_ok h hc]
    · rw [if_neg hs]
      simp [deadI, hs]
  rw [hx, ok_bind]
  simp only [popBody, hm, retired_eq h hc] at hb
  cases hd : deadI cf s.ret c with
  | true =>
    rw [hd] at hb
    exact destroyTopD_ok hf hp hb hrc h'
  | false =>
    rw [hd] at hb
    simp only at hb
    rcases hi : increment cf f s p with s₁ | s₁ | -
    · rw [hi] at hb
      simp only at hb
      obtain ⟨q1, q2, q3⟩ := increment_same hf' hi
      rw [incrementD_ok hf' h hp hi]
      simp only [ok_bind, Bool.false_eq_true, if_false]
      rcases hm₁ : s₁.mem[p]? with - | c₁
      · rw [hm₁] at hb; cases hb
      · rw [hm₁] at hb
        simp only at hb
        rw [lift_some, ok_bind]
        by_cases he : c₁.rows = []
        · rw [if_pos he] at hb ⊢
          refine destroyTopD_ok hf (q := p) (by rw [q1]; exact hp) hb ?_ h'
          intro c' r' l' d h0
          rw [hm₁] at h0
          cases h0
          cases he
        · rw [if_neg he] at hb ⊢
          have hrr : ∀ i, i < s.count → retiredD cf s₁ i = ok (deadI cf s.ret i) := by
            intro i hi
            have := retiredD_ok h hi
            unfold retiredD at this ⊢
            rw [q2, q3]
            exact this
          obtain ⟨r', l', d', e1, e2, e3⟩ : ∃ r' l' d', c₁ = ⟨c, r' :: l', d'⟩ ∧ r' ∈ r :: l ∧ deadI cf s.ret r' = false := by
            simp only [increment, hm] at hi
            rcases ha : advance (retired cf s.ret) r l with - | ⟨last, l'⟩
            · rw [ha] at hi; cases hi
            · obtain ⟨k1, k2, k3, k4⟩ :=
                advanceD_ok h l r _ (fun x hx => lt_trans (hr x (List.mem_cons_of_mem _ hx)) hc) ha
              rw [ha] at hi
              cases l' with
              | nil =>
                simp only at hi
                cases hi
                simp only [set_self hm] at hm₁
                cases hm₁
                exact absurd rfl he
              | cons r' l' =>
                simp only [hf', Bool.false_eq_true, if_false] at hi
                cases hi
                simp only [set_self hm] at hm₁
                cases hm₁
                exact ⟨r', l', _, rfl, List.mem_cons_of_mem _ (k3 r' (by simp)), k4 r' l' rfl⟩
          subst e1
          rw [hrr c hc, hd]
          simp only [ok_bind, Bool.not_false, assert_true, rowIndexD]
          rw [hrr r' (lt_trans (hr _ e2) hc), e3]
          simp only [ok_bind, Bool.not_false, assert_true]
          rcases hdt : TourTree.decreaseTopX (compare cf f s₁.mem) s₁.queue p with q' | q' | -
          · rw [hdt] at hb
            simp only [Res.map] at hb
            cases hb
            unfold TourTree.decreaseTopXD
            rw [hdt, q1, tree_isEmpty hp, show (assert (!false) : Dbg Unit) = ok () from rfl, ok_bind,
              TourTree.endValid_ok (c := qc cf s₁.mem) h'.order (compare_core hf h')]
            rfl
          · rw [hdt] at hb; cases hb
          · rw [hdt] at hb; cases hb
    · rw [hi] at hb; cases hb
    · rw [hi] at hb; cases hb

theorem involvesRetiredD_ok {s : State D} (h : Core cf s) {p : ℕ} (hp : TourTree.top s.queue = some p) :
    involvesRetiredD cf s p = ok (!aliveP cf s.ret (key s.mem p)) := by
  obtain ⟨c, r, l, hm, hc, hr⟩ := top_column h hp
  have hk : key s.mem p = (c, r) := by simp [key, hm]
  unfold involvesRetiredD
  rw [hm, lift_some, ok_bind, retiredD_ok h hc, ok_bind, hk]
  simp only [rowIndexD, ok_bind]
  rw [retiredD_ok h (lt_trans (hr r (by simp)) hc)]
  cases h1 : deadI cf s.ret c <;> cases h2 : deadI cf s.ret r <;> simp [aliveP, h1, h2]

theorem popLoopD_ok (hc : StrictWeak cf.ltPair) (hf : ∀ a b, f.compare a b = false)
    (hf' : ∀ a b, f.compute a b = false) : ∀ (n : ℕ) (s s' : State D) (p : ℕ), Core cf s →
      TourTree.top s.queue = some p → popLoop cf f n s p = .ok s' → popLoopD cf f n s p = ok (.done s') := by
  intro n
  induction n with
  | zero => intro s s' p _ _ hl; cases hl
  | succ n ih =>
    intro s s' p h hp hl
    obtain ⟨s₁, h1, h2⟩ := popBody_spec hc hf hf' h hp
    unfold popLoop at hl
    rw [h1] at hl
    simp only at hl
    unfold popLoopD
    rw [popBodyD_ok hf hf' h hp h1 h2.core, ok_bind]
    simp only
    by_cases he : cf.support = false ∨ s₁.queue.tree.length = 0
    · rw [if_pos he] at hl ⊢
      cases hl
      rfl
    · rw [if_neg he] at hl ⊢
      push Not at he
      obtain ⟨p₁, hp₁⟩ := top_some h2.core.order.toShape he.2
      rw [hp₁] at hl
      simp only at hl
      rw [involves_eq h2.core (top_mem hp₁)] at hl
      rw [TourTree.topXD_ok hp₁, ok_bind, involvesRetiredD_ok h2.core hp₁, ok_bind]
      cases ha : aliveP cf s₁.ret (key s₁.mem p₁) with
      | true =>
        rw [ha] at hl
        cases hl
        rfl
      | false =>
        rw [ha] at hl
        exact ih s₁ s' p₁ h2.core hp₁ hl

theorem topAliveD_ok {s : State D} (h : Core cf s)
    (ha : cf.support = true → ∀ q, TourTree.top s.queue = some q → aliveP cf s.ret (key s.mem q) = true) :
    topAliveD cf s = ok () := by
  unfold topAliveD
  by_cases hs : cf.support = true
  · rw [if_pos hs]
    by_cases h0 : s.queue.tree.length = 0
    · rw [emptyD_true h0]
      rfl
    · obtain ⟨p, hp⟩ := top_some h.order.toShape h0
      obtain ⟨c, r, l, hm, hcn, hr⟩ := top_column h hp
      have hk : key s.mem p = (c, r) := by simp [key, hm]
      have := ha hs p hp
      rw [hk] at this
      simp only [aliveP, Bool.and_eq_true, Bool.not_eq_true'] at this
      rw [emptyD_false h hp, topPairD_ok h hp, hk]
      simp only [ok_bind, Bool.false_eq_true, if_false]
      rw [retiredD_ok h hcn, retiredD_ok h (lt_trans (hr r (by simp)) hcn), this.1, this.2]
      rfl
  · rw [if_neg hs]

theorem popD_ok (hc : StrictWeak cf.ltPair) (hf : ∀ a b, f.compare a b = false)
    (hf' : ∀ a b, f.compute a b = false) {s : State D} (h : Core cf s) {p : ℕ} (hp : TourTree.top s.queue = some p) :
    ∃ s', pop cf f s = .ok s' ∧ popD cf f s = ok (.done s') := by
  obtain ⟨s', h1, h2, h3⟩ := pop_spec hc hf hf' h hp
  refine ⟨s', h1, ?_⟩
  unfold pop at h1
  rw [hp] at h1
  unfold popD
  rw [emptyD_false h hp, TourTree.topXD_ok hp]
  simp only [ok_bind, Bool.not_false, assert_true]
  rw [popLoopD_ok hc hf hf' _ s s' p h hp h1]
  simp only [ok_bind]
  rw [topAliveD_ok h2.core h3]
  rfl

theorem constructD_eq {col row : ℕ} (h : row < col) (hcol : col ≤ indexMax) (log : List (Event D)) :
    constructD f col row log = if f.ctor then ok (.threw log)
      else if f.compute col row then ok (.threw (log ++ [.construct col row]))
      else ok (.done (log ++ [.construct col row, .compute col row])) := by
  unfold indexMax at hcol
  have e : row % 4294967296 = row := Nat.mod_eq_of_lt (by omega)
  unfold constructD
  rw [e, assert_of (by simpa using h)]
  rfl

theorem checkOrder_cases (hf : ∀ a b, f.compare a b = false) {col : ℕ} (hcol : col ≤ indexMax) :
    ∀ (rows : List ℕ) (prev : ℕ) (log : List (Event D)), (∀ r ∈ prev :: rows, r < col) →
    Descending cf.ltPair ((prev :: rows).map fun r => (col, r)) →
    (∃ log', checkOrder cf f col prev rows log = ok (.done log')) ∨
    (∃ log', checkOrder cf f col prev rows log = ok (.threw log')) ∧
      (f.ctor = true ∨ ∃ r ∈ prev :: rows, f.compute col r = true) := by
  intro rows
  induction rows with
  | nil => intro prev log _ _; exact .inl ⟨log, rfl⟩
  | cons r rows ih =>
    intro prev log hr hd
    have e1 : prev % 4294967296 = prev :=
      Nat.mod_eq_of_lt (by have := hr prev (by simp); unfold indexMax at hcol; omega)
    have e2 : r % 4294967296 = r :=
      Nat.mod_eq_of_lt (by have := hr r (by simp); unfold indexMax at hcol; omega)
    unfold checkOrder
    rw [constructD_eq (hr prev (by simp)) hcol]
    by_cases h1 : f.ctor = true
    · right
      rw [if_pos h1]
      exact ⟨⟨_, rfl⟩, .inl h1⟩
    · rw [if_neg h1]
      by_cases h2 : f.compute col prev = true
      · right
        rw [if_pos h2]
        exact ⟨⟨_, rfl⟩, .inr ⟨prev, by simp, h2⟩⟩
      · rw [if_neg h2, ok_bind]
        simp only
        rw [constructD_eq (hr r (by simp)) hcol, if_neg h1]
        by_cases h3 : f.compute col r = true
        · right
          rw [if_pos h3]
          exact ⟨⟨_, rfl⟩, .inr ⟨r, by simp, h3⟩⟩
        · rw [if_neg h3, ok_bind]
          simp only [hf, Bool.false_eq_true, if_false, e1, e2]
          have hlt : cf.lt col prev (cf.compute col prev) col r (cf.compute col r) = false := by
            have := hd
            simp only [Descending, List.map_cons, List.pairwise_cons, List.mem_cons, forall_eq_or_imp] at this
            simpa [Conf.ltPair] using this.1.1
          rw [hlt]
          simp only [Bool.not_false, assert_true, ok_bind]
          have hd' : Descending cf.ltPair ((r :: rows).map fun r => (col, r)) := by
            have := hd
            simp only [Descending, List.map_cons, List.pairwise_cons] at this ⊢
            exact this.2
          rcases ih r _ (fun x hx => hr x (List.mem_cons_of_mem _ hx)) hd' with k | ⟨k, k'⟩
          · exact .inl k
          · refine .inr ⟨k, ?_⟩
            rcases k' with k' | ⟨x, hx, k'⟩
            · exact .inl k'
            · exact .inr ⟨x, List.mem_cons_of_mem _ hx, k'⟩

theorem rowsFit_ok {col : ℕ} (hcol : col ≤ indexMax) {rows : List ℕ} (hr : ∀ r ∈ rows, r < col) :
    rowsFit col rows = true := by
  unfold rowsFit big indexMax at *
  rw [List.all_eq_true]
  intro r h
  have := hr r h
  simp only [Bool.and_eq_true, decide_eq_true_eq]
  refine ⟨this, ?_⟩
  split <;> rename_i hb <;> simp only [ge_iff_le, not_le] at hb <;> omega

theorem createD_cases (hf : ∀ a b, f.compare a b = false) {col : ℕ} (hcol : col ≤ indexMax) {r : ℕ} {rows : List ℕ}
    (hr : ∀ x ∈ r :: rows, x < col) (hd : Descending cf.ltPair ((r :: rows).map fun r => (col, r))) :
    createD cf f col r rows = ok (create cf f col r rows) ∨
      createD cf f col r rows = ok (.exn []) ∧ ∃ x ∈ r :: rows, f.compute col x = true := by
  have e1 : r % 4294967296 = r :=
    Nat.mod_eq_of_lt (by have := hr r (by simp); unfold indexMax at hcol; omega)
  unfold createD create
  rw [e1]
  rcases checkOrder_cases (cf := cf) hf hcol rows r ([] : List (Event D)) hr hd with ⟨log', h1⟩ | ⟨⟨log', h1⟩, h2⟩
  · left
    rw [h1, ok_bind]
    simp only
    rw [rowsFit_ok hcol hr, assert_true, ok_bind, constructD_eq (hr r (by simp)) hcol]
    split
    · rfl
    · split <;> rfl
  · rw [h1, ok_bind]
    simp only
    rcases h2 with h2 | h2
    · left
      rw [if_pos h2]
    · exact .inr ⟨trivial, h2⟩

theorem addColumnD_cases (hc : StrictWeak cf.ltPair) {L : Ledger} {s : State D}
    (h : Inv cf L s) {rows : List ℕ} (hl : Legal cf L (.add rows)) (hf : Benign (.add rows) f) :
    addColumnD cf f s rows = End.ofRes (addColumn cf f s rows) ∨
      addColumnD cf f s rows = ok (.threw s) ∧ L.count < indexMax ∧ ∃ r ∈ rows, f.compute L.count r = true := by
  obtain ⟨hrows, hdesc⟩ := hl
  have hcount := h.count
  have hadd := add_spec hc h ⟨hrows, hdesc⟩ hf
  unfold addColumn addColumnD at *
  by_cases hmax : s.count ≥ indexMax
  · left
    rw [if_pos hmax, if_pos hmax]
    rfl
  rw [if_neg hmax] at *
  rw [if_neg hmax]
  cases rows with
  | nil => exact .inl rfl
  | cons r rows =>
    simp only at hadd ⊢
    rcases createD_cases (cf := cf) (f := f) hf.1 (col := s.count) (by omega) (r := r) (rows := rows)
        (by rw [hcount]; exact fun x hx => (hrows x hx).1) (by rw [hcount]; exact hdesc) with h1 | ⟨h1, h2⟩
    · left
      rw [h1, ok_bind]
      rcases hcr : create cf f s.count r rows with ⟨c, log⟩ | log
      · simp only [hcr] at hadd ⊢
        rcases hp : TourTree.pushX (compare cf f (s.mem ++ [c])) s.queue s.mem.length with q | q | -
        · simp only [hp] at hadd ⊢
          have hs' : Core cf ⟨s.mem ++ [c], q, s.count + 1, if cf.support then s.ret ++ [false] else s.ret, s.log ++ log⟩ := by
            rcases hadd with ⟨s', k1, k2, -⟩ | ⟨log', k1, -⟩
            · cases k1
              exact k2.core
            · cases k1
          have hold : ∀ a ∈ entries s.queue, (s.mem ++ [c])[a]? = s.mem[a]? := by
            intro a ha
            obtain ⟨x, hx, _⟩ := h.core.good a ha
            rw [List.getElem?_append_left (List.getElem?_eq_some_iff.mp hx).1]
          have hord : TourTree.Inv (qc cf (s.mem ++ [c])) s.queue := by
            refine h.core.order.congr ?_
            intro a ha b hb
            simp only [qc]
            rw [key_congr (hold a ha), key_congr (hold b hb)]
          have hcmp : ∀ a ∈ entries s.queue, ∀ b ∈ entries s.queue,
              compare cf f (s.mem ++ [c]) a b = .val ((qc cf (s.mem ++ [c])).lt a b) := by
            intro a ha b hb
            obtain ⟨ca, a1, a2⟩ := h.core.good a ha
            obtain ⟨cb, b1, b2⟩ := h.core.good b hb
            rw [← hold a ha] at a1
            rw [← hold b hb] at b1
            exact compare_good hf.1 a1 b1 a2 b2
          rw [TourTree.pushXD_ok hord hcmp hp hs'.order (compare_core hf.1 hs')]
          rfl
        · exfalso
          simp only [hp] at hadd
          have hno : f.ctor = false ∧ f.compute s.count (r % 4294967296) = false := by
            unfold create at hcr
            split at hcr
            · cases hcr
            · rename_i h1
              split at hcr
              · cases hcr
              · rename_i h2
                exact ⟨by simpa using h1, by simpa using h2⟩
          have hr : r % 4294967296 = r := by
            have := (hrows r (by simp)).1
            unfold indexMax at hmax
            exact Nat.mod_eq_of_lt (by omega)
          rw [hr] at hno
          rcases hadd with ⟨s', k1, -⟩ | ⟨log', -, -, k3⟩
          · split at k1 <;> cases k1
          · rcases k3 with k3 | k3 | ⟨x, hx, k3⟩
            · omega
            · rw [hno.1] at k3; cases k3
            · simp only [List.head?_cons, Option.mem_def, Option.some.injEq] at hx
              rw [← hcount, ← hx, hno.2] at k3
              cases k3
        · exfalso
          simp only [hp] at hadd
          rcases hadd with ⟨s', k1, k2, -⟩ | ⟨log', k1, -⟩ <;> cases k1
      · rfl
    · right
      rw [h1, ok_bind]
      simp only [List.append_nil]
      exact ⟨trivial, by omega, by rw [← hcount]; exact h2⟩

theorem retireIndexD_ok (hc : StrictWeak cf.ltPair) {L : Ledger} {s : State D} (h : Inv cf L s) {i : ℕ}
    (hl : Legal cf L (.retire i)) (hf : Benign (.retire i) f) :
    retireIndexD cf f s i = End.ofRes (retireIndex cf f s i) := by
  obtain ⟨hs, hi⟩ := hl
  have hcount := h.count
  have hlen : i < s.ret.length := by
    have := h.core.retLen hs
    omega
  unfold retireIndexD retireIndex
  rw [if_neg (by simp [hs]; omega), hs, assert_of (b := decide (i < s.count)) (by simpa using (by omega : i < s.count)),
    assert_of (b := decide (i < s.ret.length)) (by simpa using hlen)]
  simp only [assert_true, ok_bind]
  have hcore : Core cf { s with ret := s.ret.set i true } :=
    ⟨h.core.order, h.core.nodup, h.core.good, h.core.dead, fun hs => by simpa using h.core.retLen hs⟩
  generalize ({ s with ret := s.ret.set i true } : State D) = s₁ at hcore ⊢
  by_cases h0 : s₁.queue.tree.length = 0
  · rw [emptyD_true h0]
    simp only [ok_bind, empty, h0, if_true, beq_self_eq_true]
    rfl
  · obtain ⟨p, hp⟩ := top_some hcore.order.toShape h0
    rw [emptyD_false hcore hp, topPairD_ok hcore hp, topPair_eq hcore hp]
    have he : empty s₁ = false := by simpa [empty] using h0
    rw [he]
    simp only [ok_bind, Bool.false_eq_true, if_false]
    split
    · obtain ⟨s', k1, k2⟩ := popD_ok hc hf.1 hf.2 hcore hp
      rw [k1, k2]
      rfl
    · rfl

theorem stepD_cases (hc : StrictWeak cf.ltPair) {L : Ledger} {s : State D} (h : Inv cf L s) {op : Op}
    (hl : Legal cf L op) (hf : Benign op f) :
    stepD cf f s op = End.ofRes (step cf f s op) ∨
      stepD cf f s op = ok (.threw s) ∧ L.count < indexMax ∧ ComputeThrows f L.count op := by
  cases op with
  | add rows => exact addColumnD_cases hc h hl hf
  | pop =>
    left
    obtain ⟨p, hp⟩ := held_ne h hl
    obtain ⟨s', k1, k2⟩ := popD_ok hc hf.1 hf.2 h.core hp
    show popD cf f s = End.ofRes (pop cf f s)
    rw [k1, k2]
    rfl
  | retire i => exact .inl (retireIndexD_ok hc h hl hf)

theorem ofRes_done {σ : Type} {r : Res σ} {s : σ} (h : End.ofRes r = ok (.done s)) : r = .ok s := by
  cases r <;> cases h
  rfl

theorem ofRes_threw {σ : Type} {r : Res σ} {s : σ} (h : End.ofRes r = ok (.threw s)) : r = .exn s := by
  cases r <;> cases h
  rfl

/-- What is seen in a debug build can be seen in a release build. -/
theorem SeenD.seen (hc : StrictWeak cf.ltPair) {L : Ledger} {s s' : State D} (h : Inv cf L s) {op : Op} {o : Outcome}
    (hl : Legal cf L op) (hf : Benign op f) (hs : SeenD cf f s op o s') :
    ∃ f', Benign op f' ∧ Seen cf f' s op o s' := by
  rcases stepD_cases hc h hl hf with k | ⟨k, k2, k3⟩
  · refine ⟨f, hf, ?_⟩
    cases hs with
    | add hd => rw [k] at hd; exact .add (ofRes_done hd)
    | retire hd => rw [k] at hd; exact .retire (ofRes_done hd)
    | threw hd => rw [k] at hd; exact .threw (ofRes_threw hd)
    | pop hx hd =>
      rw [k] at hd
      obtain ⟨p, hp⟩ := held_ne h hl
      rw [topPairD_ok h.core hp] at hx
      cases hx
      exact .pop (topPair_eq h.core hp) (ofRes_done hd)
  · cases hs with
    | add hd => rw [k] at hd; cases hd
    | retire hd => rw [k] at hd; cases hd
    | pop hx hd => rw [k] at hd; cases hd
    | threw hd =>
      rw [k] at hd
      cases hd
      cases op with
      | add rows =>
        refine ⟨{ f with ctor := true }, hf, .threw ?_⟩
        obtain ⟨r, hr, -⟩ := k3
        have hcount := h.count
        cases rows with
        | nil => cases hr
        | cons x rows =>
          unfold step
          simp only
          unfold addColumn create
          rw [if_neg (show ¬ s.count ≥ indexMax by omega)]
          simp
      | pop => cases k3
      | retire i => cases k3

theorem histD_hist (hc : StrictWeak cf.ltPair) {h : List (Op × Outcome)} {s : State D} (hh : HistD cf Benign h s) :
    Hist cf Benign h s := by
  induction hh with
  | start => exact .start
  | call hs hl hf hseen ih =>
    obtain ⟨f', k1, k2⟩ := hseen.seen hc (hist_inv hc ih) hl hf
    exact .call ih hl k1 k2

theorem destructAllD_ok {n : ℕ} : ∀ (l : List ℕ) (s s' : State D), l.Nodup →
    (∀ p ∈ l, ∃ c, s.mem[p]? = some c ∧ GoodColumn cf n c) → destructAll s l = some s' → destructAllD s l = ok s' := by
  intro l
  induction l with
  | nil =>
    intro s s' _ _ h
    simp only [destructAll] at h
    cases h
    rfl
  | cons p l ih =>
    intro s s' hn hg h
    obtain ⟨hpl, hnl⟩ := List.nodup_cons.mp hn
    simp only [destructAll] at h
    split at h
    · cases h
    · rename_i s₁ h1
      obtain ⟨⟨c, rows, d⟩, hm, gc⟩ := hg p (by simp)
      unfold destructAllD
      rw [destructColumnD_ok h1 ?_, ok_bind]
      · refine ih s₁ s' hnl ?_ h
        intro q hq
        obtain ⟨x, hx, gx⟩ := hg q (by simp [hq])
        refine ⟨x, ?_, gx⟩
        rw [← hx]
        have hqp : q ≠ p := by rintro rfl; exact hpl hq
        simp only [destructColumn, hm] at h1
        split at h1
        · cases h1
        · cases h1; rfl
        · cases h1
        · cases h1
          exact set_other q hqp
      · intro c' r' l' d' h0
        rw [hm] at h0
        cases h0
        exact gc.rows _ (by simp)

/-! ## Calls that are not allowed -/

theorem constructD_quiet (hf : Quiet f) {col row : ℕ} {log : List (Event D)} :
    constructD f col row log = failed ∨ ∃ log', constructD f col row log = ok (.done log') := by
  unfold constructD
  by_cases h : col > row % 4294967296
  · right
    rw [assert_of (by simpa using h), ok_bind, hf.1, hf.2.1]
    exact ⟨_, rfl⟩
  · left
    rw [show decide (col > row % 4294967296) = false by simpa using h]
    rfl

theorem checkOrder_quiet (hc : StrictWeak cf.ltPair) (hf : Quiet f) {col : ℕ} (hcol : col ≤ indexMax) :
    ∀ (rows : List ℕ) (prev : ℕ) (log : List (Event D)), checkOrder cf f col prev rows log = failed ∨
      (∃ log', checkOrder cf f col prev rows log = ok (.done log')) ∧
        ((∀ r ∈ prev :: rows, r < col) → Descending cf.ltPair ((prev :: rows).map fun r => (col, r))) := by
  intro rows
  induction rows with
  | nil => intro prev log; exact .inr ⟨⟨log, rfl⟩, by simp [Descending]⟩
  | cons r rows ih =>
    intro prev log
    unfold checkOrder
    rcases constructD_quiet hf (col := col) (row := prev) (log := log) with h1 | ⟨log1, h1⟩
    · left; rw [h1]; rfl
    rw [h1, ok_bind]
    simp only
    rcases constructD_quiet hf (col := col) (row := r) (log := log1) with h2 | ⟨log2, h2⟩
    · left; rw [h2]; rfl
    rw [h2, ok_bind]
    simp only [hf.2.2, Bool.false_eq_true, if_false]
    cases hlt : cf.lt col (prev % 4294967296) (cf.compute col (prev % 4294967296)) col (r % 4294967296)
      (cf.compute col (r % 4294967296)) with
    | true => left; rfl
    | false =>
      simp only [Bool.not_false, assert_true, ok_bind]
      rcases ih r (log2 ++ [.destruct col (prev % 4294967296) (cf.compute col (r % 4294967296)),
        .destruct col (prev % 4294967296) (cf.compute col (prev % 4294967296))]) with k | ⟨k1, k2⟩
      · exact .inl k
      · refine .inr ⟨k1, fun hr => ?_⟩
        have hd := k2 fun x hx => hr x (List.mem_cons_of_mem _ hx)
        have e1 : prev % 4294967296 = prev :=
          Nat.mod_eq_of_lt (by have := hr prev (by simp); unfold indexMax at hcol; omega)
        have e2 : r % 4294967296 = r :=
          Nat.mod_eq_of_lt (by have := hr r (by simp); unfold indexMax at hcol; omega)
        rw [e1, e2] at hlt
        have hlt : cf.ltPair (col, prev) (col, r) = false := hlt
        simp only [Descending, List.map_cons, List.pairwise_cons] at hd ⊢
        refine ⟨?_, hd⟩
        intro y hy
        rcases List.mem_cons.mp hy with rfl | hy
        · exact hlt
        · by_contra hne
          rw [Bool.not_eq_false] at hne
          rcases hc.negTrans _ (col, r) _ hne with h' | h'
          · rw [hlt] at h'; cases h'
          · rw [hd.1 y hy] at h'; cases h'

theorem createD_quiet (hc : StrictWeak cf.ltPair) (hf : Quiet f) {col : ℕ} (hcol : col ≤ indexMax) {r : ℕ} {rows : List ℕ}
    (h : ¬ ((∀ x ∈ r :: rows, x < col) ∧ Descending cf.ltPair ((r :: rows).map fun r => (col, r)))) :
    createD cf f col r rows = failed := by
  unfold createD
  rcases checkOrder_quiet hc hf hcol rows r ([] : List (Event D)) with h1 | ⟨⟨log, h1⟩, h2⟩
  · rw [h1]; rfl
  · rw [h1, ok_bind]
    simp only
    cases hfit : rowsFit col (r :: rows) with
    | false => rfl
    | true =>
      exfalso
      have hr : ∀ x ∈ r :: rows, x < col := by
        intro x hx
        unfold rowsFit at hfit
        have := List.all_eq_true.mp hfit x hx
        simp only [Bool.and_eq_true, decide_eq_true_eq] at this
        exact this.1
      exact h ⟨hr, h2 hr⟩

theorem emptyD_held {L : Ledger} {s : State D} (h : Inv cf L s) (hne : L.held = []) : emptyD s = ok true := by
  by_cases h0 : s.queue.tree.length = 0
  · exact emptyD_true h0
  · obtain ⟨p, hp⟩ := top_some h.core.order.toShape h0
    have := top_held h hp
    rw [hne] at this
    cases this

theorem tree_held {L : Ledger} {s : State D} (h : Inv cf L s) (hne : L.held = []) : s.queue.tree.isEmpty = true := by
  by_cases h0 : s.queue.tree.length = 0
  · rw [List.length_eq_zero_iff.mp h0]; rfl
  · obtain ⟨p, hp⟩ := top_some h.core.order.toShape h0
    have := top_held h hp
    rw [hne] at this
    cases this

theorem constructD_counts {col row : ℕ} {log log' : List (Event D)} (h : constructD f col row log = ok (.done log')) :
    constructs log' = constructs log + 1 ∧ destructs log' = destructs log := by
  unfold constructD at h
  obtain ⟨_, _, h⟩ := bind_ok.mp h
  split at h
  · cases h
  · split at h
    · cases h
    · cases h
      simp [constructs_append, destructs_append, constructs, destructs]

end Verif.PairQueue
