import Verif.StlSet

/-!
# Lemmas on `StlSet`
-/

namespace Verif.StlSet

variable {E : Type*}

theorem insert_perm (c : PQConf E) (e : E) (l : List E) : (insert c e l).Perm (e :: l) := by
  induction l with
  | nil => exact List.Perm.refl _
  | cons x l ih =>
    unfold insert
    split
    · exact List.Perm.refl _
    · exact (ih.cons x).trans (List.Perm.swap e x l)

theorem insert_descending (c : PQConf E) (hc : StrictWeak c.lt) (e : E) (l : List E)
    (h : Descending c.lt l) : Descending c.lt (insert c e l) := by
  induction l with
  | nil => exact List.pairwise_singleton _ _
  | cons x l ih =>
    have h' := List.pairwise_cons.mp h
    unfold insert
    split
    · rename_i hx
      refine List.pairwise_cons.mpr ⟨?_, h⟩
      intro y hy
      have hx : c.lt e x = false := hc.asymm hx
      rcases List.mem_cons.mp hy with rfl | hy
      · exact hx
      · exact hc.ge_trans hx (h'.1 y hy)
    · rename_i hx
      refine List.pairwise_cons.mpr ⟨?_, ih h'.2⟩
      intro y hy
      rcases List.mem_cons.mp ((insert_perm c e l).subset hy) with rfl | hy
      · simpa [cmp] using hx
      · exact h'.1 y hy

end Verif.StlSet
