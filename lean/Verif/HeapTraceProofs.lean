import Verif.HeapTrace
import Verif.CompareSpec
import Mathlib.Data.Nat.Log

/-! # Lemmas on the comparisons of heaps -/

namespace Verif

variable {E : Type*} {c c' : PQConf E}

theorem PQConf.Agree.refl (c : PQConf E) (l : List (E × E)) : c.Agree c l :=
  ⟨rfl, rfl, fun _ _ => ⟨rfl, rfl⟩⟩

theorem PQConf.Agree.left {l₁ l₂ : List (E × E)} (h : c.Agree c' (l₁ ++ l₂)) : c.Agree c' l₁ :=
  ⟨h.1, h.2.1, fun p hp => h.2.2 p (List.mem_append_left _ hp)⟩

theorem PQConf.Agree.right {l₁ l₂ : List (E × E)} (h : c.Agree c' (l₁ ++ l₂)) : c.Agree c' l₂ :=
  ⟨h.1, h.2.1, fun p hp => h.2.2 p (List.mem_append_right _ hp)⟩

theorem PQConf.Agree.tail {p : E × E} {l : List (E × E)} (h : c.Agree c' (p :: l)) : c.Agree c' l :=
  ⟨h.1, h.2.1, fun q hq => h.2.2 q (List.mem_cons_of_mem _ hq)⟩

theorem PQConf.Agree.lt {a b : E} {l : List (E × E)} (h : c.Agree c' ((a, b) :: l)) : c'.lt a b = c.lt a b :=
  (h.2.2 _ List.mem_cons_self).1

theorem PQConf.Agree.eq {a b : E} {l : List (E × E)} (h : c.Agree c' ((a, b) :: l)) : c'.eq a b = c.eq a b :=
  (h.2.2 _ List.mem_cons_self).2

end Verif

namespace Verif.Heap

variable {E : Type*}

/-! ## The traced functions do the same, for all configurations that agree -/

theorem moveHoleDown_agree {c c' : PQConf E} (t : List E) (hole : ℕ)
    (h : c.Agree c' (moveHoleDownT c t hole).2) : moveHoleDown c' t hole = (moveHoleDownT c t hole).1 := by
  fun_induction moveHoleDownT c t hole with
  | case1 => rw [moveHoleDown]; simp
  | case2 t hole h0 hlt a b ha hb child hv =>
    rw [moveHoleDown]; simp only [h0, hlt, ha, hb, dite_true, dite_false, h.lt]
    rw [show rd t (if c.lt a b = true then 2 * hole + 1 else 2 * hole) = none from hv]
  | case3 t hole h0 hlt a b ha hb child v hv hw =>
    rw [moveHoleDown]; simp only [h0, hlt, ha, hb, dite_true, dite_false, h.lt]
    rw [show rd t (if c.lt a b = true then 2 * hole + 1 else 2 * hole) = some v from hv]
    simp only
    split
    · rfl
    · rename_i h; rw [hw] at h; cases h
  | case4 t hole h0 hlt a b ha hb child v hv t' hw r ih =>
    rw [moveHoleDown]; simp only [h0, hlt, ha, hb, dite_true, dite_false, h.lt]
    rw [show rd t (if c.lt a b = true then 2 * hole + 1 else 2 * hole) = some v from hv]
    simp only
    split
    · rename_i h; rw [hw] at h; cases h
    · rename_i h1; rw [hw] at h1; cases h1; exact ih h.tail
  | case5 t hole h0 hlt hn =>
    rw [moveHoleDown]; simp only [h0, hlt, dite_true, dite_false]
  | case6 t hole h0 hlt hp h1 => rw [moveHoleDown, dif_neg h0, dif_neg hlt, if_pos hp, h1]
  | case7 t hole h0 hlt hp v hv hw => rw [moveHoleDown, dif_neg h0, dif_neg hlt, if_pos hp, hv]; simp only [hw]
  | case8 t hole h0 hlt hp v hv t' hw => rw [moveHoleDown, dif_neg h0, dif_neg hlt, if_pos hp, hv]; simp only [hw]
  | case9 t hole h0 hlt hp => rw [moveHoleDown, dif_neg h0, dif_neg hlt, if_neg hp]

theorem climb_agree {c c' : PQConf E} (t : List E) (pos : ℕ) (value : E)
    (h : c.Agree c' (climbT c t pos value).2) : climb c' t pos value = (climbT c t pos value).1 := by
  fun_induction climbT c t pos value with
  | case1 => rw [climb]; simp
  | case2 t h0 => rw [climb]; simp
  | case3 t pos h0 h1 hr => rw [climb]; simp [h0, h1, hr]
  | case4 t pos h0 h1 u hu hlt hw => rw [climb]; simp [h0, h1, hu, h.lt, hlt, hw]
  | case5 t pos h0 h1 u hu hlt t' hw r ih => rw [climb]; simp [h0, h1, hu, h.lt, hlt, hw, ih h.tail, r]
  | case6 t pos h0 h1 u hu hlt hd => rw [climb]; simp [h0, h1, hu, h.lt, h.eq, h.1, hlt, hd]
  | case7 t pos h0 h1 u hu hlt hd => rw [climb]; simp [h0, h1, hu, h.lt, h.eq, h.1, hlt, hd]

theorem mergeUp_agree {c c' : PQConf E} (h : c'.dedup = c.dedup) (t : List E) (o pos : ℕ) (value : E) :
    mergeUp c' t o pos value = mergeUp c t o pos value := by
  unfold mergeUp; rw [h]

theorem moveValueUpT_eq (c : PQConf E) (t : List E) (o : ℕ) (v : E) :
    moveValueUpT c t o v =
      match climbT c t o v with
      | (none, l) => (none, l)
      | (some (.place t' pos), l) => (wr t' pos v, l)
      | (some (.dup t' pos), l) =>
        match mergeUp c t' o pos v with
        | none => (none, l)
        | some (t₁, last) =>
          if o = t₁.length + 1 then (some t₁, l)
          else ((moveValueUpT c t₁ o last).1, l ++ (moveValueUpT c t₁ o last).2) := by
  rw [moveValueUpT]
  split
  · rename_i h; rw [h]
  · rename_i h; rw [h]
  · rename_i h
    rw [h]
    simp only
    split
    · rename_i h2; rw [h2]
    · rename_i h2; rw [h2]

theorem moveValueUp_agree {c c' : PQConf E} (t : List E) (o : ℕ) (value : E)
    (h : c.Agree c' (moveValueUpT c t o value).2) :
    moveValueUp c' t o value = (moveValueUpT c t o value).1 := by
  induction hn : t.length using Nat.strong_induction_on generalizing t value with
  | _ n ih =>
    rw [moveValueUp_eq]
    rw [moveValueUpT_eq] at h ⊢
    rcases hT : climbT c t o value with ⟨r, l⟩
    have hc := climb_agree (c := c) (c' := c') t o value
    have hcc : climb c t o value = r := by rw [← climbT_fst, hT]
    rw [hT] at hc h
    rcases r with - | (⟨t', pos⟩ | ⟨t', pos⟩)
    · rw [hc h]
    · rw [hc h]
    · simp only at h ⊢
      have hd : c'.dedup = c.dedup := by
        rcases hm : mergeUp c t' o pos value with - | ⟨t₁, last⟩
        · rw [hm] at h; exact h.2.1
        · rw [hm] at h
          simp only at h
          split at h
          · exact h.2.1
          · exact h.2.1
      rcases hm : mergeUp c t' o pos value with - | ⟨t₁, last⟩
      · rw [hm] at h
        rw [hc h]
        simp only [mergeUp_agree hd, hm]
      · rw [hm] at h
        simp only at h ⊢
        split at h
        · rename_i ho
          rw [hc h]
          simp only [mergeUp_agree hd, hm, if_pos ho]
        · rename_i ho
          rw [hc h.left]
          simp only [mergeUp_agree hd, hm, if_neg ho]
          have h1 := mergeUp_length hm
          have h2 := (climb_length hcc).2 _ _ rfl
          exact ih t₁.length (by omega) t₁ last h.right rfl

theorem push_agree {c c' : PQConf E} (t : List E) (e : E) (h : c.Agree c' (pushT c t e).2) :
    push c' t e = (pushT c t e).1 := moveValueUp_agree _ _ _ h

theorem pushRange_agree {c c' : PQConf E} (l : List E) : ∀ t, c.Agree c' (pushRangeT c t l).2 →
    pushRange c' t l = (pushRangeT c t l).1 := by
  induction l with
  | nil => intro t _; rfl
  | cons e l ih =>
    intro t h
    have hp := push_agree (c := c) (c' := c') t e
    rw [pushRange]
    rw [pushRangeT] at h ⊢
    rcases hT : pushT c t e with ⟨r, k⟩
    rw [hT] at hp h
    rcases r with - | t'
    · rw [hp h]
    · rw [hp h.left]; exact ih t' h.right

theorem decreaseTop_agree {c c' : PQConf E} (t : List E) (e : E) (h : c.Agree c' (decreaseTopT c t e).2) :
    decreaseTop c' t e = (decreaseTopT c t e).1 := by
  have hp := moveHoleDown_agree (c := c) (c' := c') t 1
  rw [decreaseTop]
  rw [decreaseTopT] at h ⊢
  rcases hT : moveHoleDownT c t 1 with ⟨r, k⟩
  rw [hT] at hp h
  rcases r with - | ⟨t', hole⟩
  · rw [hp h]
  · rw [hp h.left]; exact moveValueUp_agree t' hole e h.right

theorem pop_agree {c c' : PQConf E} (t : List E) (h : c.Agree c' (popT c t).2) :
    pop c' t = (popT c t).1 := by
  rw [pop]
  rw [popT] at h ⊢
  rcases h1 : rd t 1 with - | top
  · rfl
  · rcases h2 : rd t t.length with - | moved
    · rfl
    · rw [h1, h2] at h
      simp only at h ⊢
      split
      · rfl
      · rename_i he
        rw [if_neg he] at h
        have hp := moveHoleDown_agree (c := c) (c' := c') t.dropLast 1
        rcases hT : moveHoleDownT c t.dropLast 1 with ⟨r, k⟩
        rw [hT] at hp h
        rcases r with - | ⟨t', hole⟩
        · rw [hp h]
        · rw [hp h.left]
          simp only
          rw [moveValueUp_agree t' hole moved h.right]
          cases (moveValueUpT c t' hole moved).1 <;> rfl

theorem step_agree {c c' : PQConf E} (t : List E) (op : PQOp E) (h : c.Agree c' (compared c t op)) :
    step c' t op = step c t op := by
  cases op with
  | push e => rw [step, step, push_agree t e h, push_agree t e (.refl c _)]
  | pushRange l => rw [step, step, pushRange_agree l t h, pushRange_agree l t (.refl c _)]
  | top => rfl
  | pop => rw [step, step, pop_agree t h, pop_agree t (.refl c _)]
  | decreaseTop e => rw [step, step, decreaseTop_agree t e h, decreaseTop_agree t e (.refl c _)]
  | clear => rfl

/-! ## The number of comparisons -/

theorem log_two_mul_le {n m k : ℕ} (h : 2 * n ≤ m) (hn : n ≠ 0) (hk : k ≤ Nat.log 2 n) : k + 1 ≤ Nat.log 2 m := by
  have h1 : Nat.log 2 (2 * n) = Nat.log 2 n + 1 := by rw [mul_comm]; exact Nat.log_mul_base Nat.one_lt_two hn
  have h2 := Nat.log_mono_right (b := 2) h
  omega

theorem log_half {n : ℕ} (hn : 2 ≤ n) : Nat.log 2 (n / 2) + 1 = Nat.log 2 n := by
  rw [Nat.log_div_base]
  have : 0 < Nat.log 2 n := Nat.log_pos Nat.one_lt_two hn
  omega

theorem climbT_length (c : PQConf E) (t : List E) (pos : ℕ) (value : E) :
    (climbT c t pos value).2.length ≤ Nat.log 2 pos := by
  fun_induction climbT c t pos value with
  | case1 => simp
  | case2 => simp
  | case3 => simp
  | case4 t pos h0 h1 => have := log_half (n := pos) (by omega); simp; omega
  | case5 t pos h0 h1 u hu hlt t' hw r ih =>
    have := log_half (n := pos) (by omega)
    simp only [List.length_cons, r]
    omega
  | case6 t pos h0 h1 => have := log_half (n := pos) (by omega); simp; omega
  | case7 t pos h0 h1 => have := log_half (n := pos) (by omega); simp; omega

/-- Each comparison on the way down leads one level further. -/
theorem moveHoleDownT_length (c : PQConf E) (t : List E) (hole : ℕ) {t' : List E} {hole' : ℕ}
    (h : (moveHoleDownT c t hole).1 = some (t', hole')) (hh : hole ≤ t.length) :
    (moveHoleDownT c t hole).2.length + Nat.log 2 hole ≤ Nat.log 2 hole' ∧ hole' ≤ t.length ∧ t'.length = t.length := by
  fun_induction moveHoleDownT c t hole with
  | case1 => cases h
  | case2 => cases h
  | case3 => cases h
  | case4 t hole h0 hlt a b ha hb child v hv t₁ hw r ih =>
    have hl := wr_length hw
    have hb1 := rd_bounds hv
    obtain ⟨i1, i2, i3⟩ := ih h (by omega)
    have hch : 2 * hole ≤ child := by show 2 * hole ≤ (if c.lt a b then 2 * hole + 1 else 2 * hole); split <;> omega
    have := log_two_mul_le hch h0 (le_refl _)
    refine ⟨?_, by omega, by omega⟩
    simp only [List.length_cons]
    show (moveHoleDownT c t₁ child).2.length + 1 + _ ≤ _
    omega
  | case5 => cases h
  | case6 => cases h
  | case7 => cases h
  | case8 t hole h0 hlt hp v hv t₁ hw =>
    have hl := wr_length hw
    have hb1 := rd_bounds hv
    simp only [Option.some.injEq, Prod.mk.injEq] at h
    obtain ⟨e1, e2⟩ := h
    subst e1 e2
    have := log_two_mul_le (le_refl (2 * hole)) h0 (le_refl _)
    refine ⟨?_, by omega, by omega⟩
    simp only [List.length_nil]
    omega
  | case9 t hole h0 hlt hp =>
    simp only [Option.some.injEq, Prod.mk.injEq] at h
    obtain ⟨e1, e2⟩ := h
    subst e1 e2
    exact ⟨by simp, hh, rfl⟩

/-- One climb per entry that is merged, and one more. -/
theorem moveValueUpT_length (c : PQConf E) (t : List E) (o : ℕ) (value : E) {t' : List E}
    (h : (moveValueUpT c t o value).1 = some t') :
    t'.length ≤ t.length ∧
    (moveValueUpT c t o value).2.length + Nat.log 2 o * t'.length ≤ Nat.log 2 o * (t.length + 1) := by
  induction hn : t.length using Nat.strong_induction_on generalizing t value with
  | _ n ih =>
    subst hn
    rw [moveValueUpT_eq] at h ⊢
    have hk := climbT_length c t o value
    rcases hT : climbT c t o value with ⟨r, l⟩
    have hcc : climb c t o value = r := by rw [← climbT_fst, hT]
    rw [hT] at hk h
    simp only at hk
    rcases r with - | (⟨t₁, pos⟩ | ⟨t₁, pos⟩)
    · cases h
    · have h1 := wr_length h
      have h2 := (climb_length hcc).1 _ _ rfl
      refine ⟨by omega, ?_⟩
      rw [h1, h2, Nat.mul_add]
      show l.length + _ ≤ _
      omega
    · have h2 := (climb_length hcc).2 _ _ rfl
      simp only at h ⊢
      rcases hm : mergeUp c t₁ o pos value with - | ⟨t₂, last⟩
      · rw [hm] at h; cases h
      · have h1 := mergeUp_length hm
        rw [hm] at h
        simp only at h ⊢
        split at h
        · rename_i ho
          cases h
          rw [if_pos ho]
          refine ⟨by omega, ?_⟩
          have : t.length = t'.length + 1 := by omega
          rw [this, Nat.mul_add, Nat.mul_add]
          show l.length + _ ≤ _
          omega
        · rename_i ho
          rw [if_neg ho]
          obtain ⟨i1, i2⟩ := ih t₂.length (by omega) t₂ last h rfl
          refine ⟨by omega, ?_⟩
          have : t.length = t₂.length + 1 := by omega
          rw [this]
          simp only [List.length_append, Nat.mul_add] at i2 ⊢
          omega

theorem pushT_length (c : PQConf E) (t : List E) (e : E) {t' : List E} (h : (pushT c t e).1 = some t') :
    (pushT c t e).2.length ≤ Nat.log 2 (t.length + 1) ∧ t'.length ≤ t.length + 1 := by
  have hle := (moveValueUpT_length c (t ++ [e]) (t.length + 1) e h).1
  rw [List.length_append, List.length_singleton] at hle
  refine ⟨?_, hle⟩
  unfold pushT at h ⊢
  rw [moveValueUpT_eq] at h ⊢
  have hk := climbT_length c (t ++ [e]) (t.length + 1) e
  rcases hT : climbT c (t ++ [e]) (t.length + 1) e with ⟨r, l⟩
  have hcc : climb c (t ++ [e]) (t.length + 1) e = r := by rw [← climbT_fst, hT]
  rw [hT] at hk h
  simp only at hk
  rcases r with - | (⟨t₁, pos⟩ | ⟨t₁, pos⟩)
  · exact hk
  · exact hk
  · have h2 := (climb_length hcc).2 _ _ rfl
    simp only at h ⊢
    rcases hm : mergeUp c t₁ (t.length + 1) pos e with - | ⟨t₂, last⟩
    · exact hk
    · have h1 := mergeUp_length hm
      rw [List.length_append, List.length_singleton] at h2
      simp only
      rw [if_pos (by omega)]
      exact hk

theorem pushRangeT_length (c : PQConf E) (l : List E) {N : ℕ} : ∀ t {t' : List E}, (pushRangeT c t l).1 = some t' →
    t.length + l.length ≤ N →
    (pushRangeT c t l).2.length ≤ Nat.log 2 N * l.length ∧ t'.length ≤ t.length + l.length := by
  induction l with
  | nil => intro t t' h _; cases h; simp [pushRangeT]
  | cons e l ih =>
    intro t t' h hN
    rw [pushRangeT] at h ⊢
    rcases hT : pushT c t e with ⟨r, k⟩
    rw [hT] at h
    rcases r with - | t₁
    · cases h
    · obtain ⟨p1, p2⟩ := pushT_length c t e (t' := t₁) (by rw [hT])
      rw [hT] at p1
      rw [List.length_cons] at hN ⊢
      obtain ⟨i1, i2⟩ := ih t₁ h (by omega)
      have hm : Nat.log 2 (t.length + 1) ≤ Nat.log 2 N := Nat.log_mono_right (by omega)
      simp only [List.length_append, Nat.mul_add] at p1 ⊢
      omega

theorem decreaseTopT_length (c : PQConf E) (t : List E) (e : E) {t' : List E} (h : (decreaseTopT c t e).1 = some t') :
    t'.length ≤ t.length ∧
    (decreaseTopT c t e).2.length + Nat.log 2 t.length * t'.length ≤ Nat.log 2 t.length * (t.length + 2) := by
  rw [decreaseTopT] at h ⊢
  rcases hT : moveHoleDownT c t 1 with ⟨r, k⟩
  rw [hT] at h
  rcases r with - | ⟨t₁, hole⟩
  · cases h
  · simp only at h ⊢
    have hle : 1 ≤ t.length := by
      by_contra h0
      have : t = [] := List.length_eq_zero_iff.mp (by omega)
      subst this
      rw [moveHoleDownT] at hT
      simp only [List.length_nil] at hT
      cases hT
      rw [moveValueUpT_eq, climbT] at h
      cases h
    obtain ⟨p1, p2, p3⟩ := moveHoleDownT_length c t 1 (t' := t₁) (hole' := hole) (by rw [hT]) hle
    rw [hT] at p1
    obtain ⟨q1, q2⟩ := moveValueUpT_length c t₁ hole e h
    have hm : Nat.log 2 hole ≤ Nat.log 2 t.length := Nat.log_mono_right p2
    refine ⟨by omega, ?_⟩
    obtain ⟨d, hd⟩ : ∃ d, t₁.length = t'.length + d := ⟨t₁.length - t'.length, by omega⟩
    have hmul : Nat.log 2 hole * d ≤ Nat.log 2 t.length * d := Nat.mul_le_mul_right _ hm
    rw [hd] at q2
    rw [show t.length + 2 = t'.length + d + 2 by omega]
    simp only [List.length_append, Nat.mul_add, Nat.log_one_right] at p1 q2 ⊢
    omega

theorem popT_length (c : PQConf E) (t : List E) {x : E} {t' : List E} (h : (popT c t).1 = some (x, t')) :
    t'.length + 1 ≤ t.length ∧
    (popT c t).2.length + Nat.log 2 (t.length - 1) * t'.length ≤ Nat.log 2 (t.length - 1) * (t.length + 1) := by
  rw [popT] at h ⊢
  rcases h1 : rd t 1 with - | top
  · rw [h1] at h; cases h
  · rcases h2 : rd t t.length with - | moved
    · rw [h1, h2] at h; cases h
    · rw [h1, h2] at h
      simp only at h ⊢
      have hb := rd_bounds h1
      have hl : t.dropLast.length = t.length - 1 := List.length_dropLast
      split at h
      · rename_i he
        rw [if_pos he]
        cases h
        refine ⟨by omega, ?_⟩
        simp only [List.length_nil, hl, Nat.zero_add]
        exact Nat.mul_le_mul_left _ (by omega)
      · rename_i he
        rw [if_neg he]
        have hpos : 1 ≤ t.dropLast.length := by
          by_contra h0
          exact he (by rw [List.length_eq_zero_iff.mp (show t.dropLast.length = 0 by omega)]; rfl)
        have hdec := decreaseTopT_length c t.dropLast moved (t' := t')
        rw [decreaseTopT] at hdec
        rcases hT : moveHoleDownT c t.dropLast 1 with ⟨r, k⟩
        rw [hT] at h hdec
        rcases r with - | ⟨t₁, hole⟩
        · cases h
        · simp only at h hdec ⊢
          rcases hv : (moveValueUpT c t₁ hole moved).1 with - | t₂
          · rw [hv] at h; cases h
          · rw [hv] at h hdec
            cases h
            obtain ⟨q1, q2⟩ := hdec rfl
            rw [hl] at q1 q2
            refine ⟨by omega, ?_⟩
            rwa [show t.length - 1 + 2 = t.length + 1 by omega] at q2

/-- The comparisons of a call, paid for by two levels per elementary call and the entries that vanish. -/
theorem compared_length (c : PQConf E) {N : ℕ} (t : List E) (op : PQOp E) {o : Option E} {t' : List E}
    (h : step c t op = some (o, t')) (hN : t.length + op.pushed.length ≤ N) :
    t'.length ≤ t.length + op.pushed.length ∧
    (compared c t op).length + Nat.log 2 N * t'.length ≤ Nat.log 2 N * t.length + 2 * Nat.log 2 N * op.weight := by
  cases op with
  | push e =>
    have hp := push_agree t e (.refl c _)
    rw [step, hp] at h
    rcases hT : (pushT c t e).1 with - | t₁
    · rw [hT] at h; cases h
    · rw [hT] at h; cases h
      obtain ⟨p1, p2⟩ := pushT_length c t e hT
      have hN : t.length + 1 ≤ N := hN
      have hm : Nat.log 2 (t.length + 1) ≤ Nat.log 2 N := Nat.log_mono_right hN
      have := Nat.mul_le_mul_left (Nat.log 2 N) p2
      rw [Nat.mul_add] at this
      refine ⟨p2, ?_⟩
      show (pushT c t e).2.length + _ ≤ _ + _ * 1
      omega
  | pushRange l =>
    have hp := pushRange_agree l t (.refl c _)
    rw [step, hp] at h
    rcases hT : (pushRangeT c t l).1 with - | t₁
    · rw [hT] at h; cases h
    · rw [hT] at h; cases h
      obtain ⟨p1, p2⟩ := pushRangeT_length c l t hT hN
      have := Nat.mul_le_mul_left (Nat.log 2 N) p2
      rw [Nat.mul_add] at this
      refine ⟨p2, ?_⟩
      show (pushRangeT c t l).2.length + _ ≤ _ + _ * l.length
      have h3 : 2 * Nat.log 2 N * l.length = Nat.log 2 N * l.length + Nat.log 2 N * l.length := by
        rw [Nat.mul_assoc, Nat.two_mul]
      omega
  | top =>
    rw [step] at h
    rcases hT : top t with - | x
    · rw [hT] at h; cases h
    · rw [hT] at h; cases h
      simp [compared]
  | pop =>
    have hp := pop_agree t (.refl c _)
    rw [step, hp] at h
    rcases hT : (popT c t).1 with - | ⟨x, t₁⟩
    · rw [hT] at h; cases h
    · rw [hT] at h; cases h
      obtain ⟨p1, p2⟩ := popT_length c t hT
      have hN : t.length ≤ N := by have : t.length + 0 ≤ N := hN; omega
      have hm : Nat.log 2 (t.length - 1) ≤ Nat.log 2 N := Nat.log_mono_right (by omega)
      show t₁.length ≤ t.length + 0 ∧ (popT c t).2.length + Nat.log 2 N * t₁.length ≤ _ + _ * 1
      refine ⟨by omega, ?_⟩
      obtain ⟨d, hd⟩ : ∃ d, t.length = t₁.length + 1 + d := ⟨t.length - t₁.length - 1, by omega⟩
      have hmul : Nat.log 2 (t.length - 1) * d ≤ Nat.log 2 N * d := Nat.mul_le_mul_right _ hm
      have e1 : Nat.log 2 (t.length - 1) * (t.length + 1) =
          Nat.log 2 (t.length - 1) * t₁.length + Nat.log 2 (t.length - 1) * d + 2 * Nat.log 2 (t.length - 1) := by
        conv_lhs => rw [show t.length + 1 = t₁.length + d + 2 by omega]
        rw [Nat.mul_add, Nat.mul_add]; omega
      have e2 : Nat.log 2 N * t.length = Nat.log 2 N * t₁.length + Nat.log 2 N + Nat.log 2 N * d := by
        conv_lhs => rw [hd]
        rw [Nat.mul_add, Nat.mul_add]; omega
      omega
  | decreaseTop e =>
    have hp := decreaseTop_agree t e (.refl c _)
    rw [step, hp] at h
    rcases hT : (decreaseTopT c t e).1 with - | t₁
    · rw [hT] at h; cases h
    · rw [hT] at h; cases h
      obtain ⟨p1, p2⟩ := decreaseTopT_length c t e hT
      have hN : t.length + 1 ≤ N := hN
      have hm : Nat.log 2 t.length ≤ Nat.log 2 N := Nat.log_mono_right (by omega)
      refine ⟨by omega, ?_⟩
      show (decreaseTopT c t e).2.length + _ ≤ _ + _ * 1
      obtain ⟨d, hd⟩ : ∃ d, t.length = t'.length + d := ⟨t.length - t'.length, by omega⟩
      have hmul : Nat.log 2 t.length * d ≤ Nat.log 2 N * d := Nat.mul_le_mul_right _ hm
      have e1 : Nat.log 2 t.length * (t.length + 2) =
          Nat.log 2 t.length * t'.length + Nat.log 2 t.length * d + 2 * Nat.log 2 t.length := by
        conv_lhs => rw [show t.length + 2 = t'.length + d + 2 by omega]
        rw [Nat.mul_add, Nat.mul_add]; omega
      have e2 : Nat.log 2 N * t.length = Nat.log 2 N * t'.length + Nat.log 2 N * d := by
        conv_lhs => rw [hd]
        rw [Nat.mul_add]
      omega
  | clear =>
    cases h
    simp [compared, clear, PQOp.weight]

theorem runCompared_length (c : PQConf E) {N : ℕ} (ops : List (PQOp E)) : ∀ (t : List E) {outs t'},
    (impl c).run t ops = some (outs, t') → t.length + PQOp.pushes ops ≤ N →
    ((impl c).runCompared (compared c) t ops).length ≤ Nat.log 2 N * t.length + 2 * Nat.log 2 N * PQOp.weights ops := by
  induction ops with
  | nil => intro t outs t' _ _; simp [PQImpl.runCompared]
  | cons op ops ih =>
    intro t outs t' h hN
    simp only [PQImpl.run] at h
    simp only [PQImpl.runCompared]
    have hs : (impl c).step t op = step c t op := rfl
    simp only [hs] at h ⊢
    rcases hst : step c t op with - | ⟨o, t₁⟩
    · rw [hst] at h; cases h
    · rw [hst] at h
      simp only at h
      rcases hr : (impl c).run t₁ ops with - | ⟨outs', t₂⟩
      · rw [hr] at h; cases h
      · simp only [PQOp.pushes, List.map_cons, List.sum_cons] at hN
        obtain ⟨p1, p2⟩ := compared_length c (N := N) t op hst (by omega)
        have i := ih t₁ hr (by simp only [PQOp.pushes]; omega)
        have hw : PQOp.weights (op :: ops) = op.weight + PQOp.weights ops := by simp [PQOp.weights]
        rw [hw, List.length_append, Nat.mul_add]
        simp only
        omega

end Verif.Heap
