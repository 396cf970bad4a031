import Verif.PairQueueProofs

/-!
# Properties of `mathic::PairQueue`: C16 to C22, C60, C61

Histories are those of `PairQueueSpec.lean`, with any benign faults (`Benign`): constructing pair
data for a new column may throw. Comparisons that throw are in the refutation of C21.
-/

namespace Verif.PairQueue

open TourTree (entries)

variable {D : Type}

/-! ## C16 -/

/-- C16 (also C17): no allowed call is undefined. -/
theorem pairQueue_defined {cf : Conf D} (hc : StrictWeak cf.ltPair) {h : List (Op × Outcome)}
    {s : State D} (hh : Hist cf Benign h s) {op : Op} {f : Faults} (hl : Legal cf (ledger h) op)
    (hf : Benign op f) : ∃ o s', Seen cf f s op o s' := by
  obtain ⟨o, s', h1, _⟩ := step_exists hc (hist_inv hc hh) hl hf
  exact ⟨o, s', h1⟩

/-- C16 (also C17): a call throws only if user code does or there are too many columns. -/
theorem pairQueue_no_throw {cf : Conf D} (hc : StrictWeak cf.ltPair) {h : List (Op × Outcome)}
    {s : State D} (hh : Hist cf Benign h s) {op : Op} (hl : Legal cf (ledger h) op)
    (hn : (ledger h).count < indexMax) : ∃ s', step cf Faults.none s op = .ok s' := by
  have hb : Benign op Faults.none := by
    refine ⟨fun _ _ => rfl, ?_⟩
    cases op <;> simp [Faults.none]
  obtain ⟨o, s', h1, h2⟩ := step_exists hc (hist_inv hc hh) hl hb
  cases h1 with
  | add h1 => exact ⟨s', h1⟩
  | pop _ h1 => exact ⟨s', h1⟩
  | retire h1 => exact ⟨s', h1⟩
  | threw h1 =>
    obtain ⟨_, rows, _, h3⟩ := h2.threw rfl
    rcases h3 with h3 | h3 | ⟨r, _, h3⟩
    · omega
    · cases h3
    · cases h3

/-- C16 (also C17): `empty()` tells whether anything is held, and `topPair()` is a best pair. -/
theorem pairQueue_top {cf : Conf D} (hc : StrictWeak cf.ltPair) {h : List (Op × Outcome)}
    {s : State D} (hh : Hist cf Benign h s) :
    (empty s = true ↔ (ledger h).held = []) ∧
      ((ledger h).held ≠ [] → ∃ x, topPair s = some x ∧ IsMax cf.ltPair x (ledger h).held) := by
  have hi := hist_inv hc hh
  have hmax : (ledger h).held ≠ [] → ∃ x, topPair s = some x ∧ IsMax cf.ltPair x (ledger h).held := by
    intro hne
    obtain ⟨x, s', h1, h2, _⟩ := popOp_spec (f := Faults.none) hc hi hne
      ⟨fun _ _ => rfl, fun _ _ => rfl⟩
    exact ⟨x, h1, h2⟩
  refine ⟨⟨?_, ?_⟩, hmax⟩
  · intro he
    have := hi.held
    rw [(empty_iff hi.core).mp he] at this
    exact List.Perm.eq_nil this
  · intro h0
    by_contra he
    obtain ⟨p, hp⟩ := top_some hi.core.order.toShape (by simpa [empty] using he)
    have := top_held hi hp
    rw [h0] at this
    cases this

theorem ledger_retired_mono {cf : Conf D} {P : Op → Faults → Prop} {h : List (Op × Outcome)}
    {s : State D} (hh : Hist cf P h s) (hno : ∀ c ∈ h, ∀ i, c.1 ≠ .retire i) :
    (ledger h).retired = [] := by
  induction hh with
  | start => rfl
  | @call h s op o f s' hs hl hf hseen ih =>
    have ih := ih (fun c hc => hno c (by simp [hc]))
    have := hno (op, o) (by simp)
    show ((ledger h).after op o).retired = []
    cases op <;> cases o <;> first | exact ih | exact absurd rfl (this _)

theorem filter_alive_cons (i : ℕ) (R : List ℕ) (l : List (ℕ × ℕ)) :
    (l.filter (fun x => decide (Alive R x))).filter (fun x => decide (Alive (i :: R) x)) =
      l.filter (fun x => decide (Alive (i :: R) x)) := by
  rw [List.filter_filter]
  apply List.filter_congr
  intro x _
  rw [Bool.eq_iff_iff, Bool.and_eq_true, decide_eq_true_iff, decide_eq_true_iff]
  constructor
  · exact fun h => h.1
  · intro h
    refine ⟨h, ?_, ?_⟩
    · intro hm; exact h.1 (List.mem_cons_of_mem _ hm)
    · intro hm; exact h.2 (List.mem_cons_of_mem _ hm)

/-- C17: pairs that involve no index retired in the end: those added are those handed out plus
those held. -/
theorem pairQueue_conserves_alive {cf : Conf D} (hc : StrictWeak cf.ltPair)
    {h : List (Op × Outcome)} {s : State D} (hh : Hist cf Benign h s) :
    ((popped h ++ (ledger h).held).filter (fun x => decide (Alive (ledger h).retired x))).Perm
      ((added h).filter (fun x => decide (Alive (ledger h).retired x))) := by
  induction hh with
  | start => exact .refl _
  | @call h s op o f s' hs hl hf hseen ih =>
    have hinfo := step_info hc (hist_inv hc hs) hl hf hseen
    cases hseen with
    | @add rows _ _ =>
      show ((popped h ++ ((ledger h).held ++ rows.map _)).filter _).Perm
        ((rows.map _ ++ added h).filter _)
      have h1 := (ih.append_right ((rows.map (fun r => ((ledger h).count, r))).filter
        (fun x => decide (Alive (ledger h).retired x)))).trans List.perm_append_comm
      rw [← List.filter_append, ← List.filter_append, List.append_assoc] at h1
      exact h1
    | @pop x _ hx _ =>
      have hmem := (hinfo.popped x rfl).2.1
      refine List.Perm.trans ?_ ih
      refine List.Perm.filter _ ?_
      show (x :: popped h ++ (ledger h).held.erase x).Perm _
      refine List.Perm.trans ?_ ((List.perm_cons_erase hmem).symm.append_left _)
      exact List.perm_middle.symm
    | @retire i _ _ =>
      show ((popped h ++ (ledger h).held.filter (fun x => decide (Alive (i :: (ledger h).retired) x))).filter
        (fun x => decide (Alive (i :: (ledger h).retired) x))).Perm ((added h).filter _)
      have h1 := ih.filter (fun x => decide (Alive (i :: (ledger h).retired) x))
      rw [filter_alive_cons, filter_alive_cons] at h1
      rw [List.filter_append] at h1 ⊢
      rw [List.filter_filter]
      simp only [Bool.and_self]
      exact h1
    | threw _ =>
      have e1 : ledger ((op, Outcome.threw) :: h) = ledger h := by cases op <;> rfl
      have e2 : added ((op, Outcome.threw) :: h) = added h := by cases op <;> rfl
      have e3 : popped ((op, Outcome.threw) :: h) = popped h := by cases op <;> rfl
      rw [e1, e2, e3]
      exact ih

/-- C16: without retirement, the pairs handed out and the pairs held are the pairs added. -/
theorem pairQueue_conserves {cf : Conf D} (hc : StrictWeak cf.ltPair) {h : List (Op × Outcome)}
    {s : State D} (hh : Hist cf Benign h s) (hno : ∀ c ∈ h, ∀ i, c.1 ≠ .retire i) :
    (popped h ++ (ledger h).held).Perm (added h) := by
  have h1 := pairQueue_conserves_alive hc hh
  have h2 : ∀ l : List (ℕ × ℕ), l.filter (fun x => decide (Alive [] x)) = l := by
    intro l
    rw [List.filter_eq_self]
    intro x _
    rw [decide_eq_true_iff]
    exact ⟨by simp, by simp⟩
  rw [ledger_retired_mono hh hno, h2, h2] at h1
  exact h1

theorem hist_tail {cf : Conf D} {P : Op → Faults → Prop} {h₁ h₀ : List (Op × Outcome)} {s : State D}
    (hh : Hist cf P (h₁ ++ h₀) s) : ∃ s₀, Hist cf P h₀ s₀ := by
  induction h₁ generalizing s with
  | nil => exact ⟨s, hh⟩
  | cons c h₁ ih =>
    cases hh with
    | call hs _ _ _ => exact ih hs

/-- C16 (also C17): while no column is added, pairs are handed out best first, and what is left
is no better. (`popped` has the latest first.) -/
theorem pairQueue_descending {cf : Conf D} (hc : StrictWeak cf.ltPair) {h₁ h₀ : List (Op × Outcome)}
    {s : State D} (hh : Hist cf Benign (h₁ ++ h₀) s) (hno : ∀ c ∈ h₁, ∀ rows, c.1 ≠ .add rows) :
    Descending cf.ltPair (popped h₁).reverse ∧
      (∀ x ∈ popped h₁, ∀ y ∈ (ledger (h₁ ++ h₀)).held, cf.ltPair x y = false) ∧
      ∀ x ∈ popped h₁, x ∈ (ledger h₀).held := by
  have key : ∀ (h₁ : List (Op × Outcome)) (s : State D), Hist cf Benign (h₁ ++ h₀) s →
      (∀ c ∈ h₁, ∀ rows, c.1 ≠ .add rows) →
      Descending cf.ltPair (popped h₁).reverse ∧
      (∀ x ∈ popped h₁, ∀ y ∈ (ledger (h₁ ++ h₀)).held, cf.ltPair x y = false) ∧
      (∀ x ∈ popped h₁, x ∈ (ledger h₀).held) ∧
      ∀ y ∈ (ledger (h₁ ++ h₀)).held, y ∈ (ledger h₀).held := by
    intro h₁
    induction h₁ with
    | nil => intro s _ _; exact ⟨.nil, by simp [popped], by simp [popped], fun y hy => hy⟩
    | cons c h₁ ih =>
      intro s hh hno
      cases hh with
      | @call _ s₁ op o f _ hs hl hf hseen =>
        have hinfo := step_info hc (hist_inv hc hs) hl hf hseen
        obtain ⟨i1, i2, i3, i4⟩ := ih s₁ hs (fun c hc => hno c (by simp [hc]))
        cases hseen with
        | @add rows _ _ => exact absurd rfl (hno (.add rows, .done) (by simp) rows)
        | @pop x _ hx _ =>
          have hm := (hinfo.popped x rfl).2
          have hle : ∀ y ∈ (ledger (h₁ ++ h₀)).held.erase x, y ∈ (ledger (h₁ ++ h₀)).held :=
            fun y hy => List.mem_of_mem_erase hy
          refine ⟨?_, ?_, ?_, fun y hy => i4 y (hle y hy)⟩
          · show Descending cf.ltPair (x :: popped h₁).reverse
            rw [List.reverse_cons]
            refine List.pairwise_append.mpr ⟨i1, by simp, ?_⟩
            intro a ha b hb
            rw [List.mem_singleton.mp hb]
            exact i2 a (List.mem_reverse.mp ha) x hm.1
          · intro a ha y hy
            have hy : y ∈ (ledger (h₁ ++ h₀)).held.erase x := hy
            rcases List.mem_cons.mp ha with rfl | ha
            · exact hm.2 y (hle y hy)
            · exact i2 a ha y (hle y hy)
          · intro a ha
            rcases List.mem_cons.mp ha with rfl | ha
            · exact i4 _ hm.1
            · exact i3 a ha
        | @retire i _ _ =>
          have hle : ∀ y ∈ (ledger ((.retire i, .done) :: (h₁ ++ h₀))).held,
              y ∈ (ledger (h₁ ++ h₀)).held := fun y hy => (List.mem_filter.mp hy).1
          exact ⟨i1, fun a ha y hy => i2 a ha y (hle y hy), i3, fun y hy => i4 y (hle y hy)⟩
        | threw _ =>
          have e1 : ledger ((op, Outcome.threw) :: h₁ ++ h₀) = ledger (h₁ ++ h₀) := by cases op <;> rfl
          have e3 : popped ((op, Outcome.threw) :: h₁) = popped h₁ := by cases op <;> rfl
          rw [e1, e3]
          exact ⟨i1, i2, i3, i4⟩
  obtain ⟨k1, k2, k3, _⟩ := key h₁ s hh hno
  exact ⟨k1, k2, k3⟩

/-! ## C17 -/

theorem held_alive {cf : Conf D} (hc : StrictWeak cf.ltPair) {h : List (Op × Outcome)}
    {s : State D} (hh : Hist cf Benign h s) :
    ∀ x ∈ (ledger h).held, Alive (ledger h).retired x := by
  intro x hx
  have hi := hist_inv hc hh
  exact compute_lt_of_alive hi (List.mem_filter.mp (hi.held.subset hx)).2

/-- C17: the top pair involves no retired index. -/
theorem pairQueue_top_alive {cf : Conf D} (hc : StrictWeak cf.ltPair) {h : List (Op × Outcome)}
    {s : State D} (hh : Hist cf Benign h s) {x : ℕ × ℕ} (hx : topPair s = some x) :
    Alive (ledger h).retired x := by
  by_cases hne : (ledger h).held = []
  · have he := ((pairQueue_top hc hh).1).mpr hne
    have h0 : TourTree.top s.queue = none := by
      cases ht : TourTree.top s.queue with
      | none => rfl
      | some p =>
        have := top_mem ht
        rw [(TourTree.nonempty_tree (hist_inv hc hh).core.order.toShape).mp
          (by simpa [empty] using he)] at this
        cases this
    simp [topPair, h0] at hx
  · obtain ⟨y, h1, h2⟩ := (pairQueue_top hc hh).2 hne
    rw [hx] at h1
    cases h1
    exact held_alive hc hh x h2.1

/-- C17: after `retireIndex(i)` no pair that involves `i` is handed out. -/
theorem pairQueue_retired_gone {cf : Conf D} (hc : StrictWeak cf.ltPair)
    {h₁ h₀ : List (Op × Outcome)} {i : ℕ} {s : State D}
    (hh : Hist cf Benign (h₁ ++ (.retire i, .done) :: h₀) s) :
    i ∈ (ledger (h₁ ++ (.retire i, .done) :: h₀)).retired ∧
      ∀ x ∈ popped h₁, x.1 ≠ i ∧ x.2 ≠ i := by
  induction h₁ generalizing s with
  | nil => exact ⟨List.mem_cons_self, by simp [popped]⟩
  | cons c h₁ ih =>
    cases hh with
    | @call _ s₁ op o f _ hs hl hf hseen =>
      obtain ⟨i1, i2⟩ := ih hs
      have hinfo := step_info hc (hist_inv hc hs) hl hf hseen
      cases hseen with
      | add _ => exact ⟨i1, i2⟩
      | @pop x _ hx _ =>
        refine ⟨i1, ?_⟩
        intro a ha
        rcases List.mem_cons.mp ha with rfl | ha
        · have := held_alive hc hs _ (hinfo.popped _ rfl).2.1
          refine ⟨?_, ?_⟩
          · rintro rfl; exact this.1 i1
          · rintro rfl; exact this.2 i1
        · exact i2 a ha
      | retire _ => exact ⟨List.mem_cons_of_mem _ i1, i2⟩
      | threw _ =>
        have e1 : ledger ((op, Outcome.threw) :: h₁ ++ (.retire i, .done) :: h₀) =
          ledger (h₁ ++ (.retire i, .done) :: h₀) := by cases op <;> rfl
        have e3 : popped ((op, Outcome.threw) :: h₁) = popped h₁ := by cases op <;> rfl
        rw [e1, e3]
        exact ⟨i1, i2⟩

/-! ## C18 -/

/-- C18: `topPairData()` is the data of `topPair()`. -/
theorem pairQueue_data {cf : Conf D} (hc : StrictWeak cf.ltPair) {h : List (Op × Outcome)}
    {s : State D} (hh : Hist cf Benign h s) {x : ℕ × ℕ} (hx : topPair s = some x) :
    topPairData s = some (cf.compute x.1 x.2) := by
  have hi := hist_inv hc hh
  cases hp : TourTree.top s.queue with
  | none => simp [topPair, hp] at hx
  | some p =>
    rw [topPair_eq hi.core hp] at hx
    cases hx
    exact topPairData_eq hi.core hp

/-! ## C19 -/

theorem balance {cf : Conf D} (hc : StrictWeak cf.ltPair) {h : List (Op × Outcome)} {s : State D}
    (hh : Hist cf NoCompute h s) :
    constructs s.log = destructs s.log + (entries s.queue).length := by
  induction hh with
  | start => rfl
  | call hs hl hf hseen ih =>
    have hi := hist_inv hc (hs.mono noCompute_benign)
    obtain ⟨new, h1, _, h2, _⟩ := (step_info hc hi hl (noCompute_benign _ _ hf) hseen).log.grow
    have := h2 hf.2
    rw [h1, constructs_append, destructs_append]
    omega

/-- C19, except for histories in which `computePairData` throws: after the destructor, pair data
has been destructed as often as constructed and no column has pair data. (That no data is used while
not constructed is `pairQueue_defined`, and that the destructor does not is part of this.) -/
theorem pairQueue_balance_partial {cf : Conf D} (hc : StrictWeak cf.ltPair)
    {h : List (Op × Outcome)} {s : State D} (hh : Hist cf NoCompute h s) :
    ∃ s', destroy s = some s' ∧ constructs s'.log = destructs s'.log ∧
      ∀ c ∈ s'.mem, c.data = none := by
  have hi := hist_inv hc (hh.mono noCompute_benign)
  obtain ⟨s', h1, h2, h3, h4, h5⟩ := destructAll_spec (entries s.queue) s hi.core.nodup hi.core.good
  refine ⟨s', h1, ?_, ?_⟩
  · rw [h2, h3, balance hc hh]
  · intro c hcm
    obtain ⟨p, hp⟩ := List.mem_iff_getElem?.mp hcm
    by_cases hpe : p ∈ entries s.queue
    · exact h4 p hpe c hp
    · rw [h5 p hpe] at hp
      exact hi.core.dead p c hp hpe

/-! ## C20 -/

/-- C20: a row that is less than its column is stored unchanged. -/
theorem store_exact : ∀ col row, col < 4294967295 → row < col → store col row = row := by
  intro col row h1 h2
  exact store_eq h2 (by unfold indexMax; omega)

theorem allPairs_added {cf : Conf D} (hc : StrictWeak cf.ltPair) {h : List (Op × Outcome)}
    {s : State D} (hh : Hist cf Benign h s) :
    (popped h ++ allPairs s).Subperm (added h) := by
  induction hh with
  | start => exact List.Subperm.refl _
  | @call h s op o f s' hs hl hf hseen ih =>
    obtain ⟨m, hm⟩ := (step_info hc (hist_inv hc hs) hl hf hseen).pairs
    cases hseen with
    | @add rows _ _ =>
      show (popped h ++ allPairs s').Subperm (rows.map _ ++ added h)
      have h1 : (allPairs s').Subperm (allPairs s ++ rows.map (fun r => ((ledger h).count, r))) :=
        ((List.sublist_append_right _ _).subperm).trans hm.symm.subperm
      have h2 := (List.Subperm.append (List.Subperm.refl (popped h)) h1)
      rw [← List.append_assoc] at h2
      exact (h2.trans (List.Subperm.append ih (List.Subperm.refl _))).trans
        List.perm_append_comm.subperm
    | @pop x _ hx _ =>
      show (x :: popped h ++ allPairs s').Subperm (added h)
      refine List.Subperm.trans ?_ ih
      have h1 : (x :: allPairs s').Subperm (allPairs s) := by
        refine List.Subperm.trans ?_ (by simpa using hm.symm.subperm)
        exact (List.subperm_cons x).mpr ((List.sublist_append_right _ _).subperm)
      have h2 := (List.Subperm.append (List.Subperm.refl (popped h)) h1)
      exact (List.perm_middle.symm.subperm).trans h2
    | retire _ =>
      show (popped h ++ allPairs s').Subperm (added h)
      refine List.Subperm.trans (List.Subperm.append (List.Subperm.refl _) ?_) ih
      have h1 := ((List.sublist_append_right m (allPairs s')).subperm)
      refine h1.trans ?_
      simpa using hm.symm.subperm
    | threw _ =>
      have e2 : added ((op, Outcome.threw) :: h) = added h := by cases op <;> rfl
      have e3 : popped ((op, Outcome.threw) :: h) = popped h := by cases op <;> rfl
      rw [e2, e3]
      refine List.Subperm.trans (List.Subperm.append (List.Subperm.refl _) ?_) ih
      have h1 := ((List.sublist_append_right m (allPairs s')).subperm)
      refine h1.trans ?_
      cases op <;> simpa using hm.symm.subperm

/-- C20: the pair on top is one that was given, row and column. -/
theorem pairQueue_rows_survive {cf : Conf D} (hc : StrictWeak cf.ltPair) {h : List (Op × Outcome)}
    {s : State D} (hh : Hist cf Benign h s) {x : ℕ × ℕ} (hx : topPair s = some x) : x ∈ added h := by
  have hi := hist_inv hc hh
  cases hp : TourTree.top s.queue with
  | none => simp [topPair, hp] at hx
  | some p =>
    rw [topPair_eq hi.core hp] at hx
    cases hx
    exact (allPairs_added hc hh).subset (List.mem_append_right _ (key_mem hi.core (top_mem hp)))

/-! ## C21 -/

/-- C21, except for comparisons that throw: if `addColumnDescending` throws then nothing has
changed (but the record of pair data constructed). It throws only for the reasons given. -/
theorem pairQueue_add_failsafe_partial {cf : Conf D} (hc : StrictWeak cf.ltPair)
    {h : List (Op × Outcome)} {s s' : State D} (hh : Hist cf Benign h s) {rows : List ℕ} {f : Faults}
    (hl : Legal cf (ledger h) (.add rows)) (hf : Benign (.add rows) f)
    (hthrow : step cf f s (.add rows) = .exn s') :
    (∃ log', s' = { s with log := log' }) ∧
      ((ledger h).count ≥ indexMax ∨ f.ctor = true ∨
        ∃ r ∈ rows.head?, f.compute (ledger h).count r = true) := by
  obtain ⟨h1, rows', h2, h3⟩ := (step_info hc (hist_inv hc hh) hl hf (.threw hthrow)).threw rfl
  cases h2
  exact ⟨h1, h3⟩

/-! ## C22 -/

/-- C22: `pairCount()` counts the pairs held and pairs that involve a retired index, and all of
these were added and have not been handed out. It is 0 iff the queue is empty. -/
theorem pairQueue_count {cf : Conf D} (hc : StrictWeak cf.ltPair) {h : List (Op × Outcome)}
    {s : State D} (hh : Hist cf Benign h s) :
    ∃ n stale, pairCount s = some n ∧ n = (ledger h).held.length + stale.length ∧
      (∀ x ∈ stale, ¬ Alive (ledger h).retired x) ∧
      (popped h ++ (ledger h).held ++ stale).Subperm (added h) ∧
      (n = 0 ↔ empty s = true) ∧
      ((∀ c ∈ h, ∀ i, c.1 ≠ .retire i) → n = (ledger h).held.length) := by
  have hi := hist_inv hc hh
  have hsplit : (allPairs s).Perm
      ((ledger h).held ++ (allPairs s).filter (fun x => !aliveP cf s.ret x)) :=
    (List.filter_append_perm (aliveP cf s.ret) (allPairs s)).symm.trans
      (hi.held.symm.append_right _)
  have hstale : ∀ x ∈ (allPairs s).filter (fun x => !aliveP cf s.ret x),
      ¬ Alive (ledger h).retired x := by
    intro x hx
    obtain ⟨h1, h2⟩ := List.mem_filter.mp hx
    have hb := pair_lt hi.core h1
    rw [hi.count] at hb
    rw [hi.alive_iff hb.1 hb.2] at h2
    simpa using h2
  refine ⟨pairTotal s, (allPairs s).filter (fun x => !aliveP cf s.ret x), ?_, ?_, hstale, ?_, ?_, ?_⟩
  · unfold pairCount
    rw [if_pos]
    rw [List.all_eq_true]
    intro p hp
    obtain ⟨c, hm, _⟩ := hi.core.good p hp
    simp [hm]
  · rw [pairTotal_eq, hsplit.length_eq, List.length_append]
  · rw [List.append_assoc]
    exact (List.Subperm.append (List.Subperm.refl _) hsplit.symm.subperm).trans (allPairs_added hc hh)
  · rw [pairTotal_eq, List.length_eq_zero_iff, empty_iff hi.core]
  · intro hno
    rw [pairTotal_eq, hsplit.length_eq, List.length_append]
    have : (allPairs s).filter (fun x => !aliveP cf s.ret x) = [] := by
      apply List.eq_nil_iff_forall_not_mem.mpr
      intro x hx
      apply hstale x hx
      rw [ledger_retired_mono hh hno]
      exact ⟨by simp, by simp⟩
    rw [this]
    rfl

/-! ## C60 -/

/-- C60: no pair data is computed for a pair that involves a retired index, not even by the call
that retires it. -/
theorem pairQueue_computes_alive {cf : Conf D} (hc : StrictWeak cf.ltPair)
    {h : List (Op × Outcome)} {s s' : State D} (hh : Hist cf Benign h s) {op : Op} {o : Outcome}
    {f : Faults} (hl : Legal cf (ledger h) op) (hf : Benign op f) (hseen : Seen cf f s op o s') :
    ∃ new, s'.log = s.log ++ new ∧
      ∀ c r, .compute c r ∈ new → Alive (ledger ((op, o) :: h)).retired (c, r) := by
  obtain ⟨new, h1, h2, _⟩ := (step_info hc (hist_inv hc hh) hl hf hseen).log.grow
  exact ⟨new, h1, h2⟩

/-! ## C61 -/

/-- C61, for histories without retirement: pair data is destructed with the indices that it was
computed for. -/
theorem pairQueue_destructs_own_partial {cf : Conf D} (hc : StrictWeak cf.ltPair)
    {h : List (Op × Outcome)} {s : State D} (hh : Hist cf Benign h s)
    (hno : ∀ c ∈ h, ∀ i, c.1 ≠ .retire i) :
    ∀ c r d, .destruct c r d ∈ s.log → d = cf.compute c r := by
  induction hh with
  | start => intro c r d hm; cases hm
  | @call h s op o f s' hs hl hf hseen ih =>
    have ih := ih (fun c hc => hno c (by simp [hc]))
    obtain ⟨new, h1, _, _, h2⟩ := (step_info hc (hist_inv hc hs) hl hf hseen).log.grow
    intro c r d hm
    rw [h1] at hm
    rcases List.mem_append.mp hm with hm | hm
    · exact ih c r d hm
    · exact h2 (ledger_retired_mono (.call hs hl hf hseen) hno) c r d hm

/-! ## Examples and refutations -/

/-- Pair data is a number, larger is better. -/
def exConf : Conf ℕ where
  lt _ _ d _ _ d' := decide (d < d')
  compute c r := c + 2 * r
  support := true

theorem exConf_weak : StrictWeak exConf.ltPair := by
  refine ⟨?_, ?_, ?_⟩
  · intro a; simp [Conf.ltPair, exConf]
  · intro a b c; simp only [Conf.ltPair, exConf, decide_eq_true_eq]; omega
  · intro a b c; simp only [Conf.ltPair, exConf, decide_eq_true_eq]; omega

theorem none_benign (op : Op) : Benign op Faults.none :=
  ⟨fun _ _ => rfl, by cases op <;> simp [Faults.none]⟩

/-- The state that a call leaves, in examples. -/
def stateOf (s₀ : State D) : Res (State D) → State D
  | .ok s => s
  | .exn s => s
  | .ub => s₀

/-- Whether a call ends normally, in examples. -/
def endsOk : Res (State D) → Bool
  | .ok _ => true
  | _ => false

/-- Whether a call throws, in examples. -/
def throws : Res (State D) → Bool
  | .exn _ => true
  | _ => false

theorem ok_of {s₀ : State D} {r : Res (State D)} (h : endsOk r = true) : r = .ok (stateOf s₀ r) := by
  cases r <;> first | rfl | cases h

theorem exn_of {s₀ : State D} {r : Res (State D)} (h : throws r = true) :
    r = .exn (stateOf s₀ r) := by
  cases r <;> first | rfl | cases h

/-- The state after some calls, in examples. -/
def after (cf : Conf D) : List (Faults × Op) → State D
  | [] => init
  | (f, op) :: l => stateOf init (step cf f (after cf l) op)

/-- Columns 0, 1, 2 with pairs (1,0), (2,1), (2,0). -/
def exAdds : List (Faults × Op) :=
  [(Faults.none, .add [1, 0]), (Faults.none, .add [0]), (Faults.none, .add [])]

theorem exAdds_hist (P : Op → Faults → Prop) (hP : ∀ op, P op Faults.none) :
    Hist exConf P [(.add [1, 0], .done), (.add [0], .done), (.add [], .done)] (after exConf exAdds) := by
  have h0 : Hist exConf P [] init := .start
  have h1 := Hist.call (op := .add []) h0 (by simp [Legal, Descending]) (hP _)
    (.add (ok_of (s₀ := init) (by decide +kernel)))
  have h2 := Hist.call (op := .add [0]) h1
    (by simp [Legal, ledger, Ledger.after, Descending]) (hP _)
    (.add (ok_of (s₀ := init) (by decide +kernel)))
  exact Hist.call (op := .add [1, 0]) h2
    (by simp [Legal, ledger, Ledger.after, Descending, Conf.ltPair, exConf]) (hP _)
    (.add (ok_of (s₀ := init) (by decide +kernel)))

/-- The hypotheses of C16 to C18, C20, C22 and C60 are met by a history with pops and a
retirement. -/
example : Hist exConf Benign
    [(.retire 1, .done), (.pop, .popped (2, 1)), (.add [1, 0], .done), (.add [0], .done),
      (.add [], .done)]
    (after exConf ((Faults.none, .retire 1) :: (Faults.none, .pop) :: exAdds)) := by
  have h3 := exAdds_hist Benign none_benign
  have h4 := Hist.call (op := .pop) h3 (by simp [Legal, ledger, Ledger.after]) (none_benign _)
    (.pop (x := (2, 1)) (by decide +kernel) (ok_of (s₀ := init) (by decide +kernel)))
  exact Hist.call (op := .retire 1) h4 (by simp [Legal, ledger, Ledger.after, exConf]) (none_benign _)
    (.retire (ok_of (s₀ := init) (by decide +kernel)))

example : topPair (after exConf exAdds) = some (2, 1) ∧
    topPairData (after exConf exAdds) = some 4 ∧ pairCount (after exConf exAdds) = some 3 := by
  decide +kernel

-- After popping (2,1), retiring 1 leaves (2,0) alone; (1,0) goes as soon as it would be on top.
example : topPair (after exConf ((Faults.none, .retire 1) :: (Faults.none, .pop) :: exAdds)) =
      some (2, 0) ∧
    pairCount (after exConf ((Faults.none, .retire 1) :: (Faults.none, .pop) :: exAdds)) = some 2 := by
  decide +kernel

-- The 16-bit storage is used up to column 65534; from column 65537 on it would not be enough.
example : big 65534 = false ∧ big 65535 = true ∧ 65536 % 65536 ≠ 65536 := by decide

/-- A new column's `computePairData` throws. -/
def computeFault : Faults := ⟨false, fun _ _ => true, fun _ _ => false⟩

/-- C19 is violated: if `computePairData` throws for a new column, the pair data that was
constructed for it is never destructed. -/
theorem pairQueue_leak : ∃ (h : List (Op × Outcome)) (s s' : State ℕ),
    Hist exConf Benign h s ∧ destroy s = some s' ∧ constructs s'.log = destructs s'.log + 1 := by
  have h3 := exAdds_hist Benign none_benign
  have h4 := Hist.call (op := .add [2]) (f := computeFault) h3
    (by simp [Legal, ledger, Ledger.after, Descending]) ⟨fun _ _ => rfl, trivial⟩
    (.threw (exn_of (s₀ := init) (by decide +kernel)))
  obtain ⟨s', hs'⟩ := Option.isSome_iff_exists.mp
    (show (destroy (after exConf ((computeFault, .add [2]) :: exAdds))).isSome = true by decide +kernel)
  refine ⟨_, _, s', h4, hs', ?_⟩
  have : ((destroy (after exConf ((computeFault, .add [2]) :: exAdds))).map
      (fun s' => (constructs s'.log, destructs s'.log))) = some (3, 2) := by decide +kernel
  rw [hs'] at this
  simp only [Option.map_some, Option.some.injEq, Prod.mk.injEq] at this
  omega

/-- Comparisons with column 3 throw. -/
def compareFault : Faults := ⟨false, fun _ _ => false, fun a b => a == 3 || b == 3⟩

/-- Whether a call is undefined, in examples. -/
def isUb : Res (State D) → Bool
  | .ub => true
  | _ => false

theorem ub_of {r : Res (State D)} (h : isUb r = true) : r = .ub := by
  cases r <;> first | rfl | cases h

/-- C21 is violated: if a comparison throws while the new column is put into the queue, the queue
keeps a pointer to the column whose memory has been given back. `columnCount()` is restored, but now
`pairCount()` is undefined, and so is the second of two calls of `pop()`, which would have been
fine before. -/
theorem pairQueue_add_not_failsafe : ∃ (h : List (Op × Outcome)) (s s' : State ℕ),
    Hist exConf Benign h s ∧ Legal exConf (ledger h) (.add [2]) ∧
    step exConf compareFault s (.add [2]) = .exn s' ∧ s'.count = s.count ∧
    (entries s'.queue).length = (entries s.queue).length + 1 ∧
    pairCount s = some 3 ∧ pairCount s' = none ∧
    ∃ s₁ t₁ t₂, step exConf Faults.none s .pop = .ok t₁ ∧
      step exConf Faults.none t₁ .pop = .ok t₂ ∧
      step exConf Faults.none s' .pop = .ok s₁ ∧ step exConf Faults.none s₁ .pop = .ub :=
  ⟨_, after exConf exAdds, _, exAdds_hist Benign none_benign,
    by simp [Legal, ledger, Ledger.after, Descending], exn_of (s₀ := init) (by decide +kernel),
    by decide +kernel, by decide +kernel, by decide +kernel, by decide +kernel,
    _, _, _, ok_of (s₀ := init) (by decide +kernel), ok_of (s₀ := init) (by decide +kernel),
    ok_of (s₀ := init) (by decide +kernel), ub_of (by decide +kernel)⟩

/-- Outside of C18 and C21: if `computePairData` throws in `pop()`, the column has moved on but
still has the data of the pair before. -/
theorem pairQueue_pop_throw_stale : ∃ (h : List (Op × Outcome)) (s s' : State ℕ) (x : ℕ × ℕ) (d : ℕ),
    Hist exConf Benign h s ∧ Legal exConf (ledger h) .pop ∧
    step exConf computeFault s .pop = .exn s' ∧
    topPair s' = some x ∧ topPairData s' = some d ∧ d ≠ exConf.compute x.1 x.2 :=
  ⟨_, after exConf exAdds, _, (2, 0), 4, exAdds_hist Benign none_benign,
    by simp [Legal, ledger, Ledger.after], exn_of (s₀ := init) (by decide +kernel),
    by decide +kernel, by decide +kernel, by decide⟩

/-- Whether the log has a destruction with these arguments, in examples. -/
def hasDestruct (c r d : ℕ) : List (Event ℕ) → Bool
  | [] => false
  | .destruct c' r' d' :: l => (c == c' && r == r' && d == d') || hasDestruct c r d l
  | _ :: l => hasDestruct c r d l

theorem mem_of_hasDestruct {c r d : ℕ} : ∀ {l : List (Event ℕ)}, hasDestruct c r d l = true →
    .destruct c r d ∈ l
  | .destruct c' r' d' :: l, h => by
    simp only [hasDestruct, Bool.or_eq_true, Bool.and_eq_true, beq_iff_eq] at h
    rcases h with ⟨⟨rfl, rfl⟩, rfl⟩ | h
    · exact List.mem_cons_self
    · exact List.mem_cons_of_mem _ (mem_of_hasDestruct h)
  | .construct _ _ :: l, h => List.mem_cons_of_mem _ (mem_of_hasDestruct (l := l) h)
  | .compute _ _ :: l, h => List.mem_cons_of_mem _ (mem_of_hasDestruct (l := l) h)

/-- C61 is violated: after `retireIndex(0)`, popping (2,1) passes over the retired row 0 and
destructs the data of (2,1) as if it were that of (2,0). -/
theorem pairQueue_destructs_other : ∃ (h : List (Op × Outcome)) (s : State ℕ) (c r d : ℕ),
    Hist exConf Benign h s ∧ .destruct c r d ∈ s.log ∧ d ≠ exConf.compute c r := by
  have h3 := exAdds_hist Benign none_benign
  have h4 := Hist.call (op := .retire 0) h3 (by simp [Legal, ledger, Ledger.after, exConf])
    (none_benign _) (.retire (ok_of (s₀ := init) (by decide +kernel)))
  have h5 := Hist.call (op := .pop) h4
    (by simp [Legal, ledger, Ledger.after, Alive]) (none_benign _)
    (.pop (x := (2, 1)) (by decide +kernel) (ok_of (s₀ := init) (by decide +kernel)))
  exact ⟨_, after exConf ((Faults.none, .pop) :: (Faults.none, .retire 0) :: exAdds), 2, 0, 4, h5,
    mem_of_hasDestruct (by decide +kernel), by decide⟩

end Verif.PairQueue
