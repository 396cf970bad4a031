import Verif.HeapLog
import Verif.HeapProofs

/-!
# Helper lemmas on the calls of `deduplicate`
-/

namespace Verif.Heap

variable {E : Type*} {c : PQConf E}

/-! ## The heap is the same -/

theorem moveValueUpL_fst (c : PQConf E) (t : List E) (o : ℕ) (v : E) :
    (moveValueUpL c t o v).map Prod.fst = moveValueUp c t o v := by
  induction hn : t.length using Nat.strong_induction_on generalizing t v with
  | _ n ih =>
    rw [moveValueUpL, moveValueUp_eq]
    split
    · rename_i h; rw [h]; rfl
    · rename_i h
      rw [h]
      simp only [Option.map_map, Function.comp_def, Option.map_id']
    · rename_i t' pos h
      rw [h]
      simp only
      have hm0 : ∀ v, rd t' (pos / 2) = none → mergeUp c t' o pos v = none := by
        intro v h0; simp [mergeUp, h0]
      split
      · rename_i h0; rw [hm0 v h0]; rfl
      · split
        · rename_i hm; rw [hm]; rfl
        · rename_i t₁ last hm
          rw [hm]
          simp only
          split
          · rfl
          · have h1 := mergeUp_length hm
            have h2 := (climb_length h).2 _ _ rfl
            rw [← ih t₁.length (by omega) t₁ last rfl, Option.map_map]
            rfl

theorem pushL_fst (c : PQConf E) (t : List E) (e : E) : (pushL c t e).map Prod.fst = push c t e :=
  moveValueUpL_fst c _ _ _

theorem pushRangeL_fst (c : PQConf E) (l : List E) : ∀ t, (pushRangeL c t l).map Prod.fst = pushRange c t l := by
  induction l with
  | nil => intro t; rfl
  | cons e l ih =>
    intro t
    rw [pushRangeL, pushRange, ← pushL_fst]
    cases pushL c t e with
    | none => rfl
    | some r =>
      show Option.map _ (Option.map _ _) = pushRange c r.1 l
      rw [← ih, Option.map_map]
      rfl

theorem stepL_fst (c : PQConf E) (t : List E) (op : PQOp E) :
    (stepL c t op).map (fun r => (r.1, r.2.1)) = step c t op := by
  cases op with
  | push e =>
    rw [stepL, step, ← pushL_fst, Option.map_map, Option.map_map]
    rfl
  | pushRange l =>
    rw [stepL, step, ← pushRangeL_fst, Option.map_map, Option.map_map]
    rfl
  | top =>
    rw [stepL, step, Option.map_map]
    rfl
  | pop =>
    rw [stepL, step, popL, pop]
    cases rd t 1 with
    | none => rfl
    | some x =>
      cases rd t t.length with
      | none => rfl
      | some moved =>
        dsimp only
        by_cases he : t.dropLast.isEmpty = true
        · simp only [he, if_true]; rfl
        · simp only [he]
          cases moveHoleDown c t.dropLast 1 with
          | none => rfl
          | some r =>
            dsimp only
            rw [← moveValueUpL_fst]
            cases moveValueUpL c r.1 r.2 moved <;> rfl
  | decreaseTop e =>
    rw [stepL, step, decreaseTopL, decreaseTop]
    cases moveHoleDown c t 1 with
    | none => rfl
    | some r =>
      dsimp only
      rw [← moveValueUpL_fst, Option.map_map, Option.map_map]
      rfl
  | clear => rfl

/-! ## What the calls do -/

/-- The entries `m` become `m'` by the calls of `deduplicate`: each takes its two arguments away and
adds what it returns. -/
inductive Merges (c : PQConf E) : Multiset E → List (E × E) → Multiset E → Prop where
  | nil {m} : Merges c m [] m
  | cons {r m' u v log} (hd : c.supportDedup = true) (heq : c.eq u v = true)
      (h : Merges c (c.dedup u v ::ₘ r) log m') :
      Merges c (u ::ₘ v ::ₘ r) ((u, v) :: log) m'

theorem Merges.append {m m' m'' : Multiset E} {log log' : List (E × E)} (h : Merges c m log m')
    (h' : Merges c m' log' m'') : Merges c m (log ++ log') m'' := by
  induction h with
  | nil => exact h'
  | cons hd heq _ ih => exact .cons hd heq (ih h')

/-- Further entries do not matter. -/
theorem Merges.add {m m' : Multiset E} {log : List (E × E)} (h : Merges c m log m') (x : E) :
    Merges c (x ::ₘ m) log (x ::ₘ m') := by
  induction h with
  | nil => exact .nil
  | @cons r m' u v log hd heq _ ih =>
    have e : x ::ₘ u ::ₘ v ::ₘ r = u ::ₘ v ::ₘ x ::ₘ r := by
      rw [Multiset.cons_swap x u, Multiset.cons_swap x v]
    rw [e]
    refine .cons hd heq ?_
    rw [Multiset.cons_swap]
    exact ih

theorem perm_of_rd {t : List E} {i : ℕ} {x : E} (h : rd t i = some x) :
    (t : Multiset E) = x ::ₘ (t.eraseIdx (i - 1) : List E) := by
  have hb := rd_bounds h
  rw [rd_some hb.1 hb.2] at h
  cases h
  exact Multiset.coe_eq_coe.mpr (List.getElem_cons_eraseIdx_perm _).symm

theorem two_of_rd {t : List E} {i j : ℕ} {x y : E} (hij : i ≠ j) (hx : rd t i = some x)
    (hy : rd t j = some y) : ∃ r : Multiset E, (t : Multiset E) = x ::ₘ y ::ₘ r := by
  have h1 := perm_of_rd hx
  have : y ∈ t.eraseIdx (i - 1) := by
    have hb := rd_bounds hx
    have hb' := rd_bounds hy
    rw [rd_some hb'.1 hb'.2] at hy
    cases hy
    rw [List.mem_eraseIdx_iff_getElem]
    exact ⟨j - 1, by omega, by omega, rfl⟩
  obtain ⟨r, hr⟩ := Multiset.exists_cons_of_mem (Multiset.mem_coe.mpr this)
  exact ⟨r, by rw [h1, hr]⟩

theorem moveValueUpL_spec (hc : c.Lawful) (t : List E) (o : ℕ) (v x : E)
    (h : IsHeapEx c t o) (hx : rd t o = some x) (hleaf : t.length < 2 * o) :
    ∃ t' log, moveValueUpL c t o v = some (t', log) ∧ IsHeap c t' ∧
      ∀ R : Multiset E, (t : Multiset E) = x ::ₘ R → Merges c (v ::ₘ R) log t' := by
  induction hn : t.length using Nat.strong_induction_on generalizing t v x with
  | _ n ih =>
    have hb := rd_bounds hx
    obtain ⟨r, hr, hplace⟩ := climb_spec hc (fun e => ({e} : Multiset E)) t o v h hb.1 hb.2 (Or.inl hleaf)
    rw [moveValueUpL]
    split
    · rename_i hcl; rw [hr] at hcl; cases hcl
    · rename_i t' pos hcl
      rw [hr] at hcl
      cases hcl
      obtain ⟨g1, g2, g3, g4, g5, g6, g7⟩ := hplace t' pos rfl
      have hwr := wr_some (t := t') v g3 (by omega)
      obtain ⟨y, hy⟩ := rd_exists (t := t') (i := pos) g3 (by omega)
      refine ⟨_, [], by rw [hwr]; rfl, g1.place hc (by rw [g2]; exact g5) g6 hwr, ?_⟩
      intro R hR
      have e1 := g7 x y hx hy
      have e2 := wsum_wr (fun e => ({e} : Multiset E)) hwr hy
      simp only [wsum_singleton] at e1 e2
      have e3 : ((t'.set (pos - 1) v : List E) : Multiset E) = v ::ₘ R := by
        rw [hR] at e1
        apply add_right_cancel (b := {y} + {x})
        rw [← add_assoc, e2, add_right_comm, e1]
        rw [← Multiset.singleton_add x R, ← Multiset.singleton_add v R]
        abel
      rw [e3]
      exact .nil
    · rename_i t' pos hcl
      obtain ⟨t₁, last, tmp, f1, f2, f3, f4, f5, u, k1, k2, k3, k4, k5, k6⟩ :=
        mergeUp_raw hc (fun e => ({e} : Multiset E)) h hx hleaf hcl
      simp only [wsum_singleton] at k6
      rw [k1]
      simp only
      obtain ⟨r, hr'⟩ := two_of_rd (Ne.symm k3) hx k2
      have hR : ∀ R : Multiset E, (t : Multiset E) = x ::ₘ R → R = u ::ₘ r := by
        intro R hR
        rw [hR] at hr'
        exact (Multiset.cons_inj_right x).mp hr'
      have k7 : last ::ₘ (t₁ : Multiset E) = tmp ::ₘ c.dedup u v ::ₘ r := by
        rw [hr'] at k6
        apply add_right_cancel (b := ({x} + {u} : Multiset E))
        rw [← Multiset.singleton_add last, ← Multiset.singleton_add tmp, ← Multiset.singleton_add _ r]
        rw [← Multiset.singleton_add x, ← Multiset.singleton_add u] at k6
        have : ({last} + ↑t₁ + ({x} + {u}) : Multiset E) = ↑t₁ + {last} + {x} + {u} := by abel
        rw [this, k6]
        abel
      split
      · rename_i hm; rw [f1] at hm; cases hm
      · rename_i t₁' last' hm
        rw [f1] at hm
        cases hm
        split
        · rename_i ho
          have := f5 (by omega)
          subst this
          refine ⟨_, _, rfl, f2.full (by omega), ?_⟩
          intro R hR'
          rw [hR R hR', Multiset.cons_swap, ]
          refine .cons k4 k5 ?_
          rw [← (Multiset.cons_inj_right last).mp k7]
          exact .nil
        · rename_i ho
          obtain ⟨t₃, log, j1, j2, j3⟩ := ih t₁.length (by omega) t₁ last tmp f2 (f4 (by omega))
            (by omega) rfl
          refine ⟨t₃, _, by rw [j1]; rfl, j2, ?_⟩
          intro R hR'
          rw [hR R hR', Multiset.cons_swap]
          refine .cons k4 k5 ?_
          have hp := perm_of_rd (f4 (by omega))
          rw [hp, Multiset.cons_swap] at k7
          rw [← (Multiset.cons_inj_right tmp).mp k7]
          exact j3 _ hp

theorem pushL_spec (hc : c.Lawful) {t : List E} (h : IsHeap c t) (e : E) :
    ∃ t' log, pushL c t e = some (t', log) ∧ IsHeap c t' ∧ Merges c (e ::ₘ t) log t' := by
  have hx : rd (t ++ [e]) (t.length + 1) = some e := rd_append_last
  obtain ⟨t', log, h1, h2, h3⟩ := moveValueUpL_spec hc (t ++ [e]) (t.length + 1) e e (by
    intro i a b hi hio ha hb
    have hbd := rd_bounds hb
    simp only [List.length_append, List.length_singleton] at hbd
    rw [rd_append_left (by omega) (by omega)] at ha hb
    exact h i a b hi ha hb) hx (by simp only [List.length_append, List.length_singleton]; omega)
  refine ⟨t', log, h1, h2, h3 t ?_⟩
  rw [← Multiset.coe_add, add_comm]
  rfl

theorem pushRangeL_spec (hc : c.Lawful) (l : List E) : ∀ {t : List E}, IsHeap c t →
    ∃ t' log, pushRangeL c t l = some (t', log) ∧ IsHeap c t' ∧ Merges c (t ++ l : List E) log t' := by
  induction l with
  | nil => intro t h; exact ⟨t, [], rfl, h, by rw [List.append_nil]; exact .nil⟩
  | cons e l ih =>
    intro t h
    obtain ⟨t₁, log, h1, h2, h3⟩ := pushL_spec hc h e
    obtain ⟨t₂, log', g1, g2, g3⟩ := ih h2
    refine ⟨t₂, log ++ log', by rw [pushRangeL, h1]; simp only [g1]; rfl, g2, ?_⟩
    refine Merges.append ?_ g3
    have hadd : ∀ (l : List E) {m m' : Multiset E}, Merges c m log m' → Merges c (m + l) log (m' + l) := by
      intro l
      induction l with
      | nil => intro m m' h; simpa using h
      | cons x l ih =>
        intro m m' h
        have := (ih h).add x
        rw [← Multiset.cons_coe, Multiset.add_cons, Multiset.add_cons]
        exact this
    have := hadd l h3
    rw [← Multiset.coe_add, ← Multiset.coe_add, ← Multiset.cons_coe, Multiset.add_cons, ← Multiset.cons_add]
    exact this

theorem decreaseTopL_spec (hc : c.Lawful) {t : List E} (h : IsHeap c t) (e x : E) (hx : rd t 1 = some x) :
    ∃ t' log, decreaseTopL c t e = some (t', log) ∧ IsHeap c t' ∧
      ∀ R : Multiset E, (t : Multiset E) = x ::ₘ R → Merges c (e ::ₘ R) log t' := by
  have hb := rd_bounds hx
  obtain ⟨t₁, p, f1, f2, f3, f4, f5, f6, f7⟩ :=
    moveHoleDown_spec hc (fun e => ({e} : Multiset E)) t 1 h (le_refl _) hb.2
  obtain ⟨y, hy⟩ := rd_exists (t := t₁) (i := p) f4 (by omega)
  obtain ⟨t₂, log, g1, g2, g3⟩ := moveValueUpL_spec hc t₁ p e y (f2.ex _) hy (by omega)
  refine ⟨t₂, log, by rw [decreaseTopL, f1]; exact g1, g2, ?_⟩
  intro R hR
  apply g3
  have e1 := f7 x y hx hy
  simp only [wsum_singleton] at e1
  rw [hR] at e1
  apply add_right_cancel (b := ({x} : Multiset E))
  rw [e1, ← Multiset.singleton_add x, ← Multiset.singleton_add y]
  abel

theorem popL_spec (hc : c.Lawful) {t : List E} (h : IsHeap c t) (x : E) (hx : rd t 1 = some x) :
    ∃ t' log, popL c t = some (x, t', log) ∧ IsHeap c t' ∧
      ∀ R : Multiset E, (t : Multiset E) = x ::ₘ R → Merges c R log t' := by
  have hb := rd_bounds hx
  obtain ⟨moved, hm⟩ := rd_exists (t := t) (i := t.length) (by omega) (le_refl _)
  have hd := wsum_dropLast (fun e => ({e} : Multiset E)) hm
  simp only [wsum_singleton] at hd
  rw [popL, hx, hm]
  simp only
  by_cases he : t.dropLast.isEmpty = true
  · rw [if_pos he]
    refine ⟨_, [], rfl, h.dropLast, ?_⟩
    intro R hR
    have hl : t.dropLast.length = 0 := by rw [List.isEmpty_iff] at he; rw [he]; rfl
    rw [List.length_dropLast] at hl
    rw [show t.length = 1 by omega, hx] at hm
    cases hm
    rw [hR, add_comm, Multiset.singleton_add] at hd
    rw [(Multiset.cons_inj_right x).mp hd]
    exact .nil
  · rw [if_neg he]
    have hl : t.dropLast.length ≠ 0 := by
      intro h0; exact he (List.isEmpty_iff.mpr (List.length_eq_zero_iff.mp h0))
    have hl' : t.dropLast.length = t.length - 1 := List.length_dropLast
    have hx1 : rd t.dropLast 1 = some x := by rw [rd_dropLast (by omega)]; exact hx
    obtain ⟨t₁, p, f1, f2, f3, f4, f5, f6, f7⟩ :=
      moveHoleDown_spec hc (fun e => ({e} : Multiset E)) t.dropLast 1 h.dropLast (le_refl _) (by omega)
    obtain ⟨y, hy⟩ := rd_exists (t := t₁) (i := p) f4 (by omega)
    obtain ⟨t₂, log, g1, g2, g3⟩ := moveValueUpL_spec hc t₁ p moved y (f2.ex _) hy (by omega)
    refine ⟨t₂, log, by simp only [f1, g1]; rfl, g2, ?_⟩
    intro R hR
    have e1 := f7 x y hx1 hy
    simp only [wsum_singleton] at e1
    have hp := perm_of_rd hy
    have e2 : moved ::ₘ ((t₁.eraseIdx (p - 1) : List E) : Multiset E) = R := by
      rw [hR, add_comm] at hd
      apply (Multiset.cons_inj_right x).mp
      rw [← hd]
      rw [hp] at e1
      apply add_right_cancel (b := ({y} : Multiset E))
      rw [← Multiset.singleton_add y] at e1
      rw [← Multiset.singleton_add x, ← Multiset.singleton_add moved]
      have : ({x} + ({moved} + ↑(t₁.eraseIdx (p - 1))) + {y} : Multiset E) =
        {moved} + ({y} + ↑(t₁.eraseIdx (p - 1)) + {x}) := by abel
      rw [this, e1]
      abel
    rw [← e2]
    exact g3 _ hp

/-! ## Weights

The same in terms of a weight, which may be in any commutative monoid. -/

section weights
variable {M : Type*} [AddCommMonoid M]

theorem Merges.weight {w : E → M} (hw : c.Weight w) {m m' : Multiset E} {log : List (E × E)}
    (h : Merges c m log m') : (m'.map w).sum = (m.map w).sum := by
  induction h with
  | nil => rfl
  | cons hd heq _ ih =>
    rw [ih]
    simp only [Multiset.map_cons, Multiset.sum_cons]
    rw [hw hd _ _ heq, add_assoc]

theorem Merges.card {m m' : Multiset E} {log : List (E × E)} (h : Merges c m log m') :
    m'.card + log.length = m.card := by
  induction h with
  | nil => rfl
  | cons hd heq _ ih => simp only [Multiset.card_cons, List.length_cons] at ih ⊢; omega

theorem wsum_coe (w : E → M) (l : List E) : wsum w l = ((l : Multiset E).map w).sum := rfl

theorem wsum_of_rd (w : E → M) {t : List E} {x : E} (hx : rd t 1 = some x) :
    ∃ R : Multiset E, (t : Multiset E) = x ::ₘ R ∧ wsum w t = w x + (R.map w).sum := by
  refine ⟨_, perm_of_rd hx, ?_⟩
  rw [wsum_coe, perm_of_rd hx, Multiset.map_cons, Multiset.sum_cons]

theorem push_gen (hc : c.Lawful) {w : E → M} (hw : c.Weight w) {t : List E} (h : IsHeap c t) (e : E) :
    ∃ t', push c t e = some t' ∧ IsHeap c t' ∧ wsum w t' = wsum w t + w e := by
  obtain ⟨t', log, h1, h2, h3⟩ := pushL_spec hc h e
  refine ⟨t', by rw [← pushL_fst, h1]; rfl, h2, ?_⟩
  rw [wsum_coe, h3.weight hw, Multiset.map_cons, Multiset.sum_cons, add_comm]
  rfl

theorem pushRange_gen (hc : c.Lawful) {w : E → M} (hw : c.Weight w) {t : List E} (h : IsHeap c t)
    (l : List E) :
    ∃ t', pushRange c t l = some t' ∧ IsHeap c t' ∧ wsum w t' = wsum w t + wsum w l := by
  obtain ⟨t', log, h1, h2, h3⟩ := pushRangeL_spec hc l h
  refine ⟨t', by rw [← pushRangeL_fst, h1]; rfl, h2, ?_⟩
  rw [wsum_coe, h3.weight hw, ← wsum_append]
  rfl

theorem decreaseTop_gen (hc : c.Lawful) {w : E → M} (hw : c.Weight w) {t : List E} (h : IsHeap c t)
    (e x : E) (hx : rd t 1 = some x) :
    ∃ t', decreaseTop c t e = some t' ∧ IsHeap c t' ∧ wsum w t' + w x = wsum w t + w e := by
  obtain ⟨t', log, h1, h2, h3⟩ := decreaseTopL_spec hc h e x hx
  have hf := stepL_fst c t (.decreaseTop e)
  rw [stepL, h1, step] at hf
  obtain ⟨R, k1, k2⟩ := wsum_of_rd w hx
  refine ⟨t', ?_, h2, ?_⟩
  · cases hd : decreaseTop c t e with
    | none => rw [hd] at hf; cases hf
    | some t₁ => rw [hd] at hf; cases hf; rfl
  · rw [wsum_coe w t', (h3 R k1).weight hw, k2, Multiset.map_cons, Multiset.sum_cons]
    ac_rfl

theorem pop_gen (hc : c.Lawful) {w : E → M} (hw : c.Weight w) {t : List E} (h : IsHeap c t)
    (x : E) (hx : rd t 1 = some x) :
    ∃ t', pop c t = some (x, t') ∧ IsHeap c t' ∧ wsum w t' + w x = wsum w t ∧ t'.length < t.length := by
  obtain ⟨t', log, h1, h2, h3⟩ := popL_spec hc h x hx
  have hf := stepL_fst c t .pop
  rw [stepL, h1, step] at hf
  obtain ⟨R, k1, k2⟩ := wsum_of_rd w hx
  refine ⟨t', ?_, h2, ?_, ?_⟩
  · cases hd : pop c t with
    | none => rw [hd] at hf; cases hf
    | some t₁ => rw [hd] at hf; cases hf; rfl
  · rw [wsum_coe w t', (h3 R k1).weight hw, k2, add_comm]
  · have := (h3 R k1).card
    have h4 := congrArg Multiset.card k1
    simp only [Multiset.coe_card, Multiset.card_cons] at this h4
    omega

end weights

end Verif.Heap
