import Verif.StlSetSpec
import Verif.PropStlSet

/-!
# Lemmas on the order of equivalent entries in `StlSet`
-/

namespace Verif.StlSet

variable {E : Type*}

theorem insert_filter {c : PQConf E} (hc : StrictWeak c.lt) (a e : E) : ∀ l : List E, Descending c.lt l →
    (insert c e l).filter (equivalent c.lt a) = l.filter (equivalent c.lt a) ++ [e].filter (equivalent c.lt a) := by
  intro l
  induction l with
  | nil => intro _; rfl
  | cons x l ih =>
    intro h
    have h' := List.pairwise_cons.mp h
    unfold insert
    by_cases hx : cmp c e x = true
    · rw [if_pos hx]
      cases he : equivalent c.lt a e with
      | false =>
        rw [List.filter_cons_of_neg (by simp [he]), List.filter_cons_of_neg (l := []) (by simp [he])]
        simp
      | true =>
        have hnone : (x :: l).filter (equivalent c.lt a) = [] := by
          rw [List.filter_eq_nil_iff]
          intro y hy hay
          have hxe : c.lt x e = true := hx
          have hye : c.lt y e = true := by
            rcases List.mem_cons.mp hy with rfl | hy
            · exact hxe
            · rcases hc.negTrans x y e hxe with h1 | h1
              · rw [h'.1 y hy] at h1; cases h1
              · exact h1
          simp only [equivalent, Bool.and_eq_true, Bool.not_eq_true'] at he hay
          rcases hc.negTrans y a e hye with h1 | h1
          · rw [hay.2] at h1; cases h1
          · rw [he.1] at h1; cases h1
        rw [hnone, List.filter_cons_of_pos he, hnone, List.filter_cons_of_pos he]
        rfl
    · rw [if_neg hx]
      have := ih h'.2
      rw [List.filter_cons, List.filter_cons, this]
      split <;> simp

theorem pushRange_filter {c : PQConf E} (hc : StrictWeak c.lt) (a : E) : ∀ (l s : List E), Descending c.lt s →
    Descending c.lt (pushRange c s l) ∧
    (pushRange c s l).filter (equivalent c.lt a) = s.filter (equivalent c.lt a) ++ l.filter (equivalent c.lt a) := by
  intro l
  induction l with
  | nil => intro s h; exact ⟨h, by simp [pushRange]⟩
  | cons e l ih =>
    intro s h
    have h1 : Descending c.lt (push c s e) := insert_descending c hc e s h
    refine ⟨(ih _ h1).1, ?_⟩
    rw [pushRange, (ih _ h1).2, push, insert_filter hc a e s h, List.append_assoc, ← List.filter_append]
    rfl

theorem run_filter {c : PQConf E} (hc : StrictWeak c.lt) (a : E) : ∀ (ops : List (PQOp E)) (s t : List E)
    (outs : List (Option E)), Descending c.lt s → (impl c).run s ops = some (outs, t) →
    s.filter (equivalent c.lt a) ++ (ops.flatMap PQOp.pushed).filter (equivalent c.lt a) =
      (popped ops outs).filter (equivalent c.lt a) ++ t.filter (equivalent c.lt a) := by
  intro ops
  induction ops with
  | nil =>
    intro s t outs _ h
    cases h
    simp [popped]
  | cons op ops ih =>
    intro s t outs hs h
    simp only [PQImpl.run] at h
    split at h
    · cases h
    · rename_i o s1 h1
      split at h
      · cases h
      · rename_i os s2 h2
        obtain ⟨rfl, rfl⟩ : o :: os = outs ∧ s2 = t := by
          have := Option.some.inj h
          exact ⟨congrArg Prod.fst this, congrArg Prod.snd this⟩
        change step c s op = some (o, s1) at h1
        rw [List.flatMap_cons, List.filter_append, ← List.append_assoc]
        cases op with
        | push e =>
          cases h1
          have := ih (insert c e s) s2 os (insert_descending c hc e s hs) h2
          rw [insert_filter hc a e s hs] at this
          exact this
        | pushRange l =>
          cases h1
          have := ih (pushRange c s l) s2 os (pushRange_filter hc a l s hs).1 h2
          rw [(pushRange_filter hc a l s hs).2] at this
          exact this
        | top =>
          cases s with
          | nil => cases h1
          | cons x l =>
            cases h1
            have := ih (x :: l) s2 os hs h2
            show ((x :: l).filter _ ++ [].filter _) ++ _ = (popped ops os).filter _ ++ _
            rw [List.filter_nil, List.append_nil]
            exact this
        | pop =>
          cases s with
          | nil => cases h1
          | cons x l =>
            cases h1
            have := ih l _ _ (List.pairwise_cons.mp hs).2 h2
            show ((x :: l).filter _ ++ [].filter _) ++ _ = (x :: popped ops os).filter _ ++ _
            rw [List.filter_nil, List.append_nil, List.filter_cons, List.filter_cons]
            split
            · rw [List.cons_append, List.cons_append, this]
            · exact this
        | decreaseTop e => cases h1
        | clear => cases h1

end Verif.StlSet
