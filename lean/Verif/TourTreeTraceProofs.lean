import Verif.TourTreeTrace
import Verif.TourTreeProofs
import Verif.HeapTraceProofs

/-! # Lemmas on the comparisons of tournament trees -/

namespace Verif.TourTree

variable {E : Type}

open Heap (log_two_mul_le log_half)

/-! ## The traced functions do the same, for all configurations that agree -/

theorem lift_bind {α β : Type} (x : Option α) (f : α → Tr E β) :
    (Tr.lift x : Tr E α).bind f = match x with | none => (none, []) | some a => f a := by
  cases x <;> rfl

/-- A traced function of `c` tells what the function does with each configuration that agrees. -/
def Tells {α : Type} (c c' : PQConf E) (x : Tr E α) (y : Option α) : Prop := c.Agree c' x.2 → y = x.1

theorem Tells.lift {α : Type} {c c' : PQConf E} (x : Option α) : Tells c c' (Tr.lift x) x := fun _ => rfl

theorem Tells.bind {α β : Type} {c c' : PQConf E} {x : Tr E α} {y : Option α} {f : α → Tr E β} {g : α → Option β}
    (h : Tells c c' x y) (hf : ∀ a, Tells c c' (f a) (g a)) : Tells c c' (x.bind f) (y >>= g) := by
  intro ha
  rcases x with ⟨x, l⟩
  rcases x with - | a
  · rw [h ha]; rfl
  · rw [h (PQConf.Agree.left ha)]
    exact hf a (PQConf.Agree.right ha)

theorem pushLoop_tells {c c' : PQConf E} (players : List (E × ℕ)) (tree : List ℕ) (pos posParent : ℕ) :
    Tells c c' (pushLoopT c players tree pos posParent) (pushLoop c' players tree pos posParent) := by
  intro h
  fun_induction pushLoopT c players tree pos posParent with
  | case1 tree pos pp hp => rw [pushLoop]; split <;> simp_all
  | case2 tree pos pp q hp h1 => rw [pushLoop]; split <;> simp_all
  | case3 tree pos pp q hp p h1 qe pe hq hpe hlt =>
    have hl : c'.lt qe.1 pe.1 = false := by rw [h.lt]; exact hlt
    rw [pushLoop]
    split
    · simp_all
    · rename_i h2; rw [hp] at h2; cases h2; simp only [h1, hq, hpe, if_pos hl]
  | case4 tree pos pp q hp p h1 qe pe hq hpe hlt hw =>
    have hl : ¬ c'.lt qe.1 pe.1 = false := by rw [h.lt]; exact hlt
    rw [pushLoop]
    split
    · simp_all
    · rename_i h2; rw [hp] at h2; cases h2; simp only [h1, hq, hpe, if_neg hl, hw]
  | case5 tree pos q p h1 qe pe hq hpe hlt tree' hp hw =>
    have hl : ¬ c'.lt qe.1 pe.1 = false := by rw [h.lt]; exact hlt
    rw [pushLoop]
    split
    · simp_all
    · rename_i h2; rw [hp] at h2; cases h2; simp only [h1, hq, hpe, if_neg hl, hw, if_true]
  | case6 tree pos pp q hp p h1 qe pe hq hpe hlt tree' hw hne r ih =>
    have hl : ¬ c'.lt qe.1 pe.1 = false := by rw [h.lt]; exact hlt
    rw [pushLoop]
    split
    · simp_all
    · rename_i h2; rw [hp] at h2; cases h2; simp only [h1, hq, hpe, if_neg hl, hw, if_neg hne]; exact ih h.tail
  | case7 tree pos pp q hp p h1 hn =>
    rw [pushLoop]
    split
    · simp_all
    · rename_i h2; rw [hp] at h2; cases h2; simp only [h1]

theorem replayLoop_tells {c c' : PQConf E} (players : List (E × ℕ)) (tree : List ℕ) (pos player : ℕ) :
    Tells c c' (replayLoopT c players tree pos player) (replayLoop c' players tree pos player) := by
  intro h
  fun_induction replayLoopT c players tree pos player with
  | case1 tree player => rw [replayLoop, if_pos rfl]
  | case2 tree player h1 => rw [replayLoop, if_neg h1, if_pos rfl]
  | case3 tree pos player h1 h0 hr => rw [replayLoop, if_neg h1, if_neg h0, hr]
  | case4 tree pos player h1 h0 op hr pe oe hp ho hw =>
    rw [replayLoop, if_neg h1, if_neg h0, hr]
    have hl := h.lt
    simp only [dite_eq_ite] at hw
    simp only [hp, ho, hl, hw]
  | case5 tree pos player h1 h0 op hr pe oe hp ho tree' hw r ih =>
    rw [replayLoop, if_neg h1, if_neg h0, hr]
    have hl := h.lt
    simp only [dite_eq_ite] at hw
    simp only [hp, ho, hl, hw]
    exact ih h.tail
  | case6 tree pos player h1 h0 op hr hn =>
    rw [replayLoop, if_neg h1, if_neg h0, hr]
    simp only

theorem push_tells {c c' : PQConf E} (s : State E) (e : E) : Tells c c' (pushT c s e) (push c' s e) := by
  unfold pushT push
  simp only
  generalize (if s.cap - s.tree.length ≥ 2 then s else reallocate s) = s
  split
  · exact .bind (.lift _) fun _ => .lift _
  · exact .bind (.lift _) fun _ => .bind (.lift _) fun _ => .bind (.lift _) fun _ => .bind (.lift _) fun _ =>
      .bind (.lift _) fun _ => .bind (pushLoop_tells _ _ _ _) fun _ => .lift _

theorem pushRange_tells {c c' : PQConf E} (l : List E) : ∀ s, Tells c c' (pushRangeT c s l) (pushRange c' s l) := by
  induction l with
  | nil => intro s _; rfl
  | cons e l ih =>
    intro s
    have : pushRange c' s (e :: l) = (push c' s e >>= fun s => pushRange c' s l) := by
      rw [pushRange]; cases push c' s e <;> rfl
    rw [this]
    exact .bind (push_tells s e) fun s => ih s

theorem decreaseTop_tells {c c' : PQConf E} (s : State E) (e : E) :
    Tells c c' (decreaseTopT c s e) (decreaseTop c' s e) :=
  .bind (.lift _) fun _ => .bind (.lift _) fun _ => .bind (.lift _) fun _ => .bind (replayLoop_tells _ _ _ _) fun _ => .lift _

theorem pop_tells {c c' : PQConf E} (s : State E) : Tells c c' (popT c s) (pop c' s) := by
  refine .bind (.lift _) fun _ => .bind (.lift _) fun top => ?_
  split
  · exact .lift _
  · exact .bind (.lift _) fun _ => .bind (.lift _) fun _ => .bind (.lift _) fun _ => .bind (.lift _) fun _ =>
      .bind (.lift _) fun _ => .bind (.lift _) fun _ => .bind (.lift _) fun _ => .bind (.lift _) fun _ =>
      .bind (.lift _) fun _ => .bind (replayLoop_tells _ _ _ _) fun _ => .lift _

theorem step_agree {c c' : PQConf E} (s : State E) (op : PQOp E) (h : c.Agree c' (compared c s op)) :
    step c' s op = step c s op := by
  cases op with
  | push e => rw [step, step, push_tells s e h, push_tells s e (.refl c _)]
  | pushRange l => rw [step, step, pushRange_tells l s h, pushRange_tells l s (.refl c _)]
  | top => rfl
  | pop => rw [step, step, pop_tells s h, pop_tells s (.refl c _)]
  | decreaseTop e => rw [step, step, decreaseTop_tells s e h, decreaseTop_tells s e (.refl c _)]
  | clear => rfl

/-! ## The number of comparisons -/

theorem lift_bind_some {α β : Type} {x : Option α} {f : α → Tr E β} {b : β} (h : ((Tr.lift x : Tr E α).bind f).1 = some b) :
    ∃ a, x = some a ∧ (Tr.lift x : Tr E α).bind f = f a ∧ (f a).1 = some b := by
  rcases x with - | a
  · cases h
  · exact ⟨a, rfl, rfl, h⟩

theorem bind_lift_snd {α β : Type} {x : Tr E α} {f : α → Option β} : (x.bind fun a => Tr.lift (f a)).2 = x.2 := by
  rcases x with ⟨x, l⟩
  rcases x with - | a
  · rfl
  · simp [Tr.bind, Tr.lift]

theorem renameLoop_length (tree : List ℕ) (left right pos : ℕ) {t : List ℕ} (h : renameLoop tree left right pos = some t) :
    t.length = tree.length := by
  fun_induction renameLoop tree left right pos with
  | case1 => cases h
  | case2 => cases h; rfl
  | case3 => cases h
  | case4 => cases h; apply wr_length; assumption
  | case5 tree pos p hp h1 tree' hw hne ih => rw [ih h, wr_length hw]

theorem promoteLeft_length {s : State E} {left right parentPos par : ℕ} {r : List (E × ℕ) × List ℕ}
    (h : promoteLeft s left right parentPos par = some r) : r.2.length = s.tree.length := by
  unfold promoteLeft at h
  split at h
  · rcases h1 : swapEntries s.players left right with - | ps
    · rw [h1] at h; cases h
    · rcases h2 : renameLoop s.tree left right parentPos with - | t
      · rw [h1, h2] at h; cases h
      · rw [h1, h2] at h; cases h; exact renameLoop_length _ _ _ _ h2
  · cases h; rfl

theorem pushLoopT_length (c : PQConf E) (players : List (E × ℕ)) (tree : List ℕ) (pos posParent : ℕ) :
    (pushLoopT c players tree pos posParent).2.length ≤ Nat.log 2 posParent + 1 := by
  fun_induction pushLoopT c players tree pos posParent with
  | case1 => simp
  | case2 => simp
  | case3 => simp
  | case4 => simp
  | case5 => simp
  | case6 tree pos pp q hp p h1 qe pe hq hpe hlt tree' hw hne r ih =>
    have := (rd_bounds hp).1
    have := log_half (n := pp) (by omega)
    simp only [List.length_cons]
    show (pushLoopT c players tree' pp (pp / 2)).2.length + 1 ≤ _
    omega
  | case7 => simp

/-- One comparison for each node between the leaf and the root. -/
theorem replayLoopT_length (c : PQConf E) (players : List (E × ℕ)) (tree : List ℕ) (pos player : ℕ) {t : List ℕ}
    (h : (replayLoopT c players tree pos player).1 = some t) :
    (replayLoopT c players tree pos player).2.length = Nat.log 2 pos ∧ (pos = 1 ∨ pos ≤ tree.length + 1) := by
  fun_induction replayLoopT c players tree pos player with
  | case1 => simp
  | case2 => cases h
  | case3 => cases h
  | case4 => cases h
  | case5 tree pos player h1 h0 op hr pe oe hp ho tree' hw r ih =>
    obtain ⟨i1, _⟩ := ih h
    have := log_half (n := pos) (by omega)
    have hb := rd_bounds hr
    have hs : pos ≤ sibling pos + 1 := by unfold sibling; split <;> omega
    refine ⟨?_, by omega⟩
    simp only [List.length_cons]
    show (replayLoopT c players tree' (pos / 2) _).2.length + 1 = _
    omega
  | case6 => cases h

theorem pushT_length (c : PQConf E) (s : State E) (e : E) :
    (pushT c s e).2.length ≤ Nat.log 2 ((s.tree.length + 1) / 2) + 1 := by
  unfold pushT
  simp only
  have ht : (if s.cap - s.tree.length ≥ 2 then s else reallocate s).tree = s.tree := by split <;> rfl
  generalize (if s.cap - s.tree.length ≥ 2 then s else reallocate s) = s' at ht
  rw [← ht]
  have nil : ∀ {α β : Type} (x : Option α) (f : α → Tr E β) (n : ℕ), (∀ a, (f a).2.length ≤ n) →
      ((Tr.lift x : Tr E α).bind f).2.length ≤ n := by
    intro α β x f n hf
    rcases x with - | a
    · exact Nat.zero_le _
    · exact hf a
  split
  · exact nil _ _ _ fun _ => Nat.zero_le _
  · refine nil _ _ _ fun _ => nil _ _ _ fun _ => nil _ _ _ fun _ => nil _ _ _ fun _ => nil _ _ _ fun _ => ?_
    rw [bind_lift_snd]
    exact pushLoopT_length _ _ _ _ _

theorem decreaseTopT_length (c : PQConf E) (s : State E) (e : E) {s' : State E} (h : (decreaseTopT c s e).1 = some s') :
    (decreaseTopT c s e).2.length ≤ Nat.log 2 (s.tree.length + 1) := by
  unfold decreaseTopT at h ⊢
  obtain ⟨_, _, e1, h⟩ := lift_bind_some h
  rw [e1]
  obtain ⟨_, _, e1, h⟩ := lift_bind_some h
  rw [e1]
  obtain ⟨q, _, e1, h⟩ := lift_bind_some h
  rw [e1, bind_lift_snd]
  rcases hr : (replayLoopT c _ s.tree q.2 _).1 with - | t
  · unfold Tr.bind at h; rw [hr] at h; cases h
  · obtain ⟨p1, p2⟩ := replayLoopT_length c _ _ _ _ hr
    rw [p1]
    rcases p2 with p2 | p2
    · rw [p2]; simp
    · exact Nat.log_mono_right p2

theorem popT_length (c : PQConf E) (s : State E) {r : E × State E} (h : (popT c s).1 = some r) :
    (popT c s).2.length ≤ Nat.log 2 (s.tree.length - 1) := by
  unfold popT at h ⊢
  obtain ⟨_, _, e1, h⟩ := lift_bind_some h
  rw [e1]
  obtain ⟨_, _, e1, h⟩ := lift_bind_some h
  rw [e1]
  split at h
  · rename_i h1; rw [if_pos h1]; exact Nat.zero_le _
  · rename_i h1
    rw [if_neg h1]
    simp only at h ⊢
    obtain ⟨_, _, e1, h⟩ := lift_bind_some h
    rw [e1]
    obtain ⟨_, _, e1, h⟩ := lift_bind_some h
    rw [e1]
    obtain ⟨_, _, e1, h⟩ := lift_bind_some h
    rw [e1]
    obtain ⟨r, hr, e1, h⟩ := lift_bind_some h
    rw [e1]
    obtain ⟨_, hr1, e1, h⟩ := lift_bind_some h
    rw [e1]
    obtain ⟨_, _, e1, h⟩ := lift_bind_some h
    rw [e1]
    obtain ⟨_, _, e1, h⟩ := lift_bind_some h
    rw [e1]
    obtain ⟨_, _, e1, h⟩ := lift_bind_some h
    rw [e1]
    obtain ⟨q, _, e1, h⟩ := lift_bind_some h
    rw [e1, bind_lift_snd]
    rcases hT : (replayLoopT c _ r.2.dropLast.dropLast q.2 _).1 with - | t
    · unfold Tr.bind at h; rw [hT] at h; cases h
    · obtain ⟨p1, p2⟩ := replayLoopT_length c _ _ _ _ hT
      have hlen : r.2.length = s.tree.length := promoteLeft_length hr
      simp only [List.length_dropLast] at p2
      have := rd_bounds hr1
      rw [p1]
      rcases p2 with p2 | p2
      · rw [p2]; simp
      · exact Nat.log_mono_right (by omega)

theorem log_double (n : ℕ) : Nat.log 2 (2 * n) ≤ Nat.log 2 n + 1 := by
  rcases Nat.eq_zero_or_pos n with h | h
  · subst h; simp
  · rw [mul_comm, Nat.log_mul_base Nat.one_lt_two (by omega)]

theorem pushRangeT_length (c : PQConf E) (l : List E) {N : ℕ} : ∀ {s : State E}, Shape s → s.players.length + l.length ≤ N →
    (pushRangeT c s l).2.length ≤ (Nat.log 2 N + 1) * l.length := by
  induction l with
  | nil => intro s _ _; simp [pushRangeT]
  | cons e l ih =>
    intro s hs hN
    rw [List.length_cons] at hN ⊢
    obtain ⟨s₁, h1, h2, h3, _⟩ := push_spec c hs e
    rw [push_tells s e (.refl c _)] at h1
    have hlen := congrArg List.length h3
    rw [List.length_append, entries_length, entries_length, List.length_singleton] at hlen
    have hp := pushT_length c s e
    have hl := hs.len
    have hm : Nat.log 2 ((s.tree.length + 1) / 2) ≤ Nat.log 2 N := Nat.log_mono_right (by omega)
    have i := ih (s := s₁) h2 (by omega)
    have e1 : (pushRangeT c s (e :: l)).2 = (pushT c s e).2 ++ (pushRangeT c s₁ l).2 := by
      rw [pushRangeT, Tr.bind, h1]
    rw [e1, List.length_append, Nat.mul_add]
    omega

/-- The comparisons of a call. -/
theorem compared_length (c : PQConf E) {N : ℕ} {s : State E} (hs : Shape s) (op : PQOp E) {o : Option E} {s' : State E}
    (h : step c s op = some (o, s')) (hN : s.players.length + op.pushed.length ≤ N) :
    Shape s' ∧ s'.players.length ≤ s.players.length + op.pushed.length ∧
    (compared c s op).length ≤ (Nat.log 2 N + 1) * op.weight := by
  have hl := hs.len
  have hshape : Shape s' := by
    refine shape_run c [op] s [o] s' hs ?_
    have e : (impl c).step s op = some (o, s') := h
    simp only [PQImpl.run, e]
    rfl
  refine ⟨hshape, ?_⟩
  cases op with
  | push e =>
    obtain ⟨s₁, h1, h2, h3, _⟩ := push_spec c hs e
    rw [step, h1] at h
    cases h
    have hlen := congrArg List.length h3
    rw [List.length_append, entries_length, entries_length, List.length_singleton] at hlen
    have hN : s.players.length + 1 ≤ N := hN
    have hp := pushT_length c s e
    have hm : Nat.log 2 ((s.tree.length + 1) / 2) ≤ Nat.log 2 N := Nat.log_mono_right (by omega)
    show s'.players.length ≤ s.players.length + 1 ∧ (pushT c s e).2.length ≤ _ * 1
    omega
  | pushRange l =>
    obtain ⟨s₁, h1, h2, h3, _⟩ := pushRange_spec c l hs
    rw [step, h1] at h
    cases h
    have hlen := congrArg List.length h3
    rw [List.length_append, entries_length, entries_length] at hlen
    exact ⟨by rw [hlen]; exact le_refl _, pushRangeT_length c l hs hN⟩
  | top =>
    rw [step] at h
    rcases ht : top s with - | x
    · rw [ht] at h; cases h
    · rw [ht] at h; cases h; simp [compared]
  | pop =>
    rw [step] at h
    rcases ht : pop c s with - | ⟨x, s₁⟩
    · rw [ht] at h; cases h
    · rw [ht] at h
      cases h
      have hN : s.players.length + 0 ≤ N := hN
      have hne : entries s ≠ [] := by
        intro h0
        have := (nonempty_tree hs).mpr h0
        rw [List.length_eq_zero_iff] at this
        unfold pop at ht
        rw [this] at ht
        cases ht
      obtain ⟨y, s₂, _, h2, _, h3, _⟩ := pop_spec c hs hne
      rw [ht] at h2
      cases h2
      have hlen := h3.length_eq
      rw [List.length_cons, entries_length, entries_length] at hlen
      rw [pop_tells s (.refl c _)] at ht
      have hp := popT_length c s ht
      have hm : Nat.log 2 (s.tree.length - 1) ≤ Nat.log 2 (2 * N) := Nat.log_mono_right (by omega)
      have := log_double N
      show s₁.players.length ≤ s.players.length + 0 ∧ (popT c s).2.length ≤ _ * 1
      omega
  | decreaseTop e =>
    rw [step] at h
    rcases ht : decreaseTop c s e with - | s₁
    · rw [ht] at h; cases h
    · rw [ht] at h
      cases h
      have hN : s.players.length + 1 ≤ N := hN
      have hne : entries s ≠ [] := by
        intro h0
        have := (nonempty_tree hs).mpr h0
        rw [List.length_eq_zero_iff] at this
        unfold decreaseTop at ht
        rw [this] at ht
        cases ht
      obtain ⟨x, s₂, _, h2, _, i, _, h3, _⟩ := decreaseTop_core c hs hne e
      rw [ht] at h2
      cases h2
      have hlen := congrArg List.length h3
      rw [List.length_set, entries_length, entries_length] at hlen
      rw [decreaseTop_tells s e (.refl c _)] at ht
      have hp := decreaseTopT_length c s e ht
      have hm : Nat.log 2 (s.tree.length + 1) ≤ Nat.log 2 (2 * N) := Nat.log_mono_right (by omega)
      have := log_double N
      show s'.players.length ≤ s.players.length + 1 ∧ (decreaseTopT c s e).2.length ≤ _ * 1
      omega
  | clear =>
    cases h
    simp [clear, compared]

theorem runCompared_length (c : PQConf E) {N : ℕ} (ops : List (PQOp E)) : ∀ {s : State E} {outs s'}, Shape s →
    (impl c).run s ops = some (outs, s') → s.players.length + PQOp.pushes ops ≤ N →
    ((impl c).runCompared (compared c) s ops).length ≤ (Nat.log 2 N + 1) * PQOp.weights ops := by
  induction ops with
  | nil => intro s outs s' _ _ _; simp [PQImpl.runCompared]
  | cons op ops ih =>
    intro s outs s' hs h hN
    simp only [PQImpl.run] at h
    simp only [PQImpl.runCompared]
    have he : (impl c).step s op = step c s op := rfl
    simp only [he] at h ⊢
    rcases hst : step c s op with - | ⟨o, s₁⟩
    · rw [hst] at h; cases h
    · rw [hst] at h
      simp only at h
      rcases hr : (impl c).run s₁ ops with - | ⟨outs', s₂⟩
      · rw [hr] at h; cases h
      · simp only [PQOp.pushes, List.map_cons, List.sum_cons] at hN
        obtain ⟨p1, p2, p3⟩ := compared_length c (N := N) hs op hst (by omega)
        have i := ih p1 hr (by simp only [PQOp.pushes]; omega)
        have hw : PQOp.weights (op :: ops) = op.weight + PQOp.weights ops := by simp [PQOp.weights]
        rw [hw, List.length_append, Nat.mul_add]
        simp only
        omega

end Verif.TourTree
