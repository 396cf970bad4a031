import Verif.MinimizeSpec
import Verif.DivListProofs
import Verif.KDAgree

/-!
# Lemmas on insertion with minimization
-/

namespace Verif.Minimize

variable {T : Type}

/-! ## What the specification of single calls says about histories -/

theorem Dvd.refl (c : DivMask.Conf T) (a : T) : Dvd c a a := fun _ _ => le_refl _

theorem Dvd.trans {c : DivMask.Conf T} {a b d : T} (h₁ : Dvd c a b) (h₂ : Dvd c b d) : Dvd c a d :=
  fun v hv => le_trans (h₁ v hv) (h₂ v hv)

theorem Antichain.perm {c : DivMask.Conf T} {l l' : List T} (hp : l'.Perm l) (h : Antichain c l) : Antichain c l' :=
  (hp.pairwise_iff (fun h => ⟨h.2, h.1⟩)).mpr h

theorem MinimalFor.perm {c : DivMask.Conf T} {l l' es : List T} (hp : l'.Perm l) (h : MinimalFor c l es) :
    MinimalFor c l' es where
  antichain := h.antichain.perm hp
  multiples m := by
    rw [← h.multiples m]
    exact ⟨fun ⟨e, he, hd⟩ => ⟨e, hp.subset he, hd⟩, fun ⟨e, he, hd⟩ => ⟨e, hp.symm.subset he, hd⟩⟩
  subset e he := h.subset e (hp.subset he)

theorem MinimalFor.more {c : DivMask.Conf T} {l es : List T} {e d : T} (h : MinimalFor c l es) (hd : d ∈ l)
    (hde : Dvd c d e) : MinimalFor c l (es ++ [e]) where
  antichain := h.antichain
  multiples m := by
    rw [h.multiples m]
    constructor
    · rintro ⟨x, hx, hm⟩; exact ⟨x, List.mem_append_left _ hx, hm⟩
    · rintro ⟨x, hx, hm⟩
      rcases List.mem_append.mp hx with hx | hx
      · exact ⟨x, hx, hm⟩
      · cases List.mem_singleton.mp hx
        exact (h.multiples m).mp ⟨d, hd, hde.trans hm⟩
  subset x hx := List.mem_append_left _ (h.subset x hx)

theorem MinimalFor.new {c : DivMask.Conf T} {l out keep l' es : List T} {e : T} (h : MinimalFor c l es)
    (hn : ∀ d ∈ l, ¬ Dvd c d e) (hs : (out ++ keep).Perm l) (ho : ∀ x ∈ out, Dvd c e x) (hk : ∀ x ∈ keep, ¬ Dvd c e x)
    (hp : l'.Perm (e :: keep)) : MinimalFor c l' (es ++ [e]) := by
  refine MinimalFor.perm hp ⟨?_, ?_, ?_⟩
  · refine List.pairwise_cons.mpr ⟨?_, ?_⟩
    · intro x hx
      exact ⟨hk x hx, hn x (hs.subset (List.mem_append_right _ hx))⟩
    · exact (List.pairwise_append.mp (h.antichain.perm hs)).2.1
  · intro m
    constructor
    · rintro ⟨x, hx, hm⟩
      rcases List.mem_cons.mp hx with rfl | hx
      · exact ⟨x, by simp, hm⟩
      · exact ⟨x, List.mem_append_left _ (h.subset x (hs.subset (List.mem_append_right _ hx))), hm⟩
    · rintro ⟨x, hx, hm⟩
      rcases List.mem_append.mp hx with hx | hx
      · obtain ⟨y, hy, hym⟩ := (h.multiples m).mpr ⟨x, hx, hm⟩
        rcases List.mem_append.mp (hs.symm.subset hy) with hy | hy
        · exact ⟨e, by simp, (ho y hy).trans hym⟩
        · exact ⟨y, List.mem_cons_of_mem _ hy, hym⟩
      · cases List.mem_singleton.mp hx
        exact ⟨e, by simp, hm⟩
  · intro x hx
    rcases List.mem_cons.mp hx with rfl | hx
    · simp
    · exact List.mem_append_left _ (h.subset x (hs.subset (List.mem_append_right _ hx)))

theorem Trace.minimal {c : DivMask.Conf T} {l l' : List T} {ops : List (Op T)} {rs : List (Ret T)}
    (h : Trace c l ops rs l') : ∀ es, MinimalFor c l es → MinimalFor c l' (es ++ inserted ops) := by
  induction h with
  | nil => intro es h; simpa [inserted] using h
  | @cons l l₁ l₂ op ops r rs hs _ ih =>
    intro es h
    have key : ∀ e, MinimalFor c l₁ (es ++ [e]) → MinimalFor c l₂ (es ++ inserted (.insert e :: ops)) := by
      intro e he
      have := ih _ he
      rwa [List.append_assoc] at this
    cases hs with
    | insertHeld hd hde hp => exact key _ ((h.more hd hde).perm hp)
    | insertNew hn hs ho hk hp => exact key _ (h.new hn hs ho hk hp)
    | findDivisor _ _ hp => exact ih _ (h.perm hp)
    | findNone _ hp => exact ih _ (h.perm hp)
    | size hp => exact ih _ (h.perm hp)

/-- Two histories of the same calls hold the same entries. -/
theorem Trace.contents_agree {c : DivMask.Conf T} {l₁ l₁' : List T} {ops : List (Op T)} {rs₁ : List (Ret T)}
    (h₁ : Trace c l₁ ops rs₁ l₁') : ∀ {l₂ l₂' : List T} {rs₂ : List (Ret T)}, l₁.Perm l₂ → Trace c l₂ ops rs₂ l₂' →
    l₁'.Perm l₂' := by
  induction h₁ with
  | nil => intro l₂ l₂' rs₂ hp h₂; cases h₂; exact hp
  | @cons l m₁ l' op ops r rs hs _ ih =>
    intro l₂ l₂' rs₂ hp h₂
    cases h₂ with
    | @cons _ m₂ _ _ _ r₂ rs₂ hs₂ ht₂ =>
      refine ih ?_ ht₂
      cases hs with
      | insertHeld hd hde hq =>
        cases hs₂ with
        | insertHeld _ _ hq₂ => exact hq.trans (hp.trans hq₂.symm)
        | insertNew hn => exact absurd hde (hn _ (hp.subset hd))
      | @insertNew out keep _ e hn hsp ho hk hq =>
        cases hs₂ with
        | insertHeld hd hde _ => exact absurd hde (hn _ (hp.symm.subset hd))
        | @insertNew out₂ keep₂ _ _ _ hsp₂ ho₂ hk₂ hq₂ =>
          classical
          have hf : ∀ {o k : List T}, (∀ x ∈ o, Dvd c e x) → (∀ x ∈ k, ¬ Dvd c e x) →
              (o ++ k).filter (fun x => decide (¬ Dvd c e x)) = k := by
            intro o k h1 h2
            rw [List.filter_append, List.filter_eq_nil_iff.mpr (by simpa using h1),
              List.filter_eq_self.mpr (by simpa using h2), List.nil_append]
          have h3 : keep.Perm keep₂ := by
            have := (hsp.trans (hp.trans hsp₂.symm)).filter (fun x => decide (¬ Dvd c e x))
            rwa [hf ho hk, hf ho₂ hk₂] at this
          exact hq.trans ((h3.cons e).trans hq₂.symm)
      | findDivisor _ _ hq => cases hs₂ with
        | findDivisor _ _ hq₂ => exact hq.trans (hp.trans hq₂.symm)
        | findNone _ hq₂ => exact hq.trans (hp.trans hq₂.symm)
      | findNone _ hq => cases hs₂ with
        | findDivisor _ _ hq₂ => exact hq.trans (hp.trans hq₂.symm)
        | findNone _ hq₂ => exact hq.trans (hp.trans hq₂.symm)
      | size hq => cases hs₂ with
        | size hq₂ => exact hq.trans (hp.trans hq₂.symm)

theorem filter_split {c : DivMask.Conf T} (hf : Faithful c) (e : T) (l : List T) :
    (l.filter (fun x => c.divides e x) ++ l.filter (fun x => !c.divides e x)).Perm l ∧
    (∀ x ∈ l.filter (fun x => c.divides e x), Dvd c e x) ∧ (∀ x ∈ l.filter (fun x => !c.divides e x), ¬ Dvd c e x) := by
  refine ⟨List.filter_append_perm _ l, ?_, ?_⟩
  · intro x hx
    exact (hf _ _).mp (List.mem_filter.mp hx).2
  · intro x hx hd
    have := (List.mem_filter.mp hx).2
    rw [(hf _ _).mpr hd] at this
    cases this

/-! ## `DivListModel` -/

theorem list_findDivisor_ok {c : ListConf T} (hl : c.Lawful) {s : DivList.State T} (h : DivList.Inv c.finder s) (m : T) :
    ∃ r s', c.findDivisor s m = some (r, s') ∧ DivList.Inv c.finder s' ∧ s'.contents.Perm s.contents ∧
      (∀ e, r = some e → e ∈ s.contents ∧ Dvd c.finder.dm e m) ∧ (r = none → ∀ e ∈ s.contents, ¬ Dvd c.finder.dm e m) := by
  unfold ListConf.findDivisor
  rw [DivList.findDivisorIterator_spec hl.finder h]
  have hlen : s.contents.length = s.list.length := List.length_map _
  simp only
  rcases Nat.lt_or_ge (s.contents.findIdx (fun e => c.finder.dm.divides e m)) s.contents.length with hlt | hge
  · have hne : (s.contents.findIdx (fun e => c.finder.dm.divides e m) != s.list.length) = true := by
      rw [bne_iff_ne]; omega
    have hdiv := List.findIdx_getElem (w := hlt)
    have hmem : s.contents[s.contents.findIdx (fun e => c.finder.dm.divides e m)] ∈ s.contents := List.getElem_mem hlt
    generalize hi : s.contents.findIdx (fun e => c.finder.dm.divides e m) = i at *
    cases hm : c.moveDivisorToFront with
    | true =>
      obtain ⟨s', g1, g2, g3⟩ := (DivList.moveToFront_spec (by
        cases hs : c.finder.sortOnInsert with
        | false => rfl
        | true => rw [hl.front hs] at hm; cases hm) h i).2 _ (List.getElem?_eq_getElem hlt)
      simp only [hne, Bool.and_self, if_true, g1, Option.map_some]
      have hl0 : s'.contents[0]? = some s.contents[i] := by rw [g2]; rfl
      have hpos : s'.list.length ≠ 0 := by
        have : 0 < s'.contents.length := by rw [g2]; simp
        rw [DivList.State.contents, List.length_map] at this
        omega
      rw [if_neg (Ne.symm hpos)]
      rw [DivList.State.contents, List.getElem?_map, Option.map_eq_some_iff] at hl0
      obtain ⟨x, hx, hxt⟩ := hl0
      rw [hx]
      refine ⟨_, _, rfl, g3, ?_, ?_, nofun⟩
      · rw [g2]; exact List.getElem_cons_eraseIdx_perm hlt
      · intro e he
        cases he
        rw [hxt]
        exact ⟨hmem, (hl.faithful _ _).mp hdiv⟩
    | false =>
      simp only [Bool.false_and, Bool.false_eq_true, if_false]
      rw [if_neg (by omega)]
      have hl0 : s.contents[i]? = some s.contents[i] := List.getElem?_eq_getElem hlt
      obtain ⟨x, hx, hxt⟩ : ∃ x, s.list[i]? = some x ∧ x.t = s.contents[i] := by
        generalize s.contents[i] = y at hl0
        rw [DivList.State.contents, List.getElem?_map, Option.map_eq_some_iff] at hl0
        exact hl0
      rw [hx]
      refine ⟨_, _, rfl, h, .refl _, ?_, nofun⟩
      intro e he
      cases he
      rw [hxt]
      exact ⟨hmem, (hl.faithful _ _).mp hdiv⟩
  · have heq : s.contents.findIdx (fun e => c.finder.dm.divides e m) = s.list.length :=
      le_antisymm (hlen ▸ List.findIdx_le_length) (hlen ▸ hge)
    rw [heq]
    simp only [bne_self_eq_false, Bool.and_false, Bool.false_eq_true, if_false, if_true]
    refine ⟨_, _, rfl, h, .refl _, nofun, ?_⟩
    intro _ e he hd
    have := List.findIdx_lt_length_of_exists (p := fun e => c.finder.dm.divides e m) ⟨e, he, (hl.faithful _ _).mpr hd⟩
    omega

theorem list_step_ok {c : ListConf T} (hl : c.Lawful) {s : DivList.State T} (h : DivList.Inv c.finder s) (op : Op T) :
    ∃ r s', c.step s op = some (r, s') ∧ DivList.Inv c.finder s' ∧ Step c.finder.dm s.contents op r s'.contents := by
  cases op with
  | size =>
    refine ⟨_, s, rfl, h, ?_⟩
    rw [← List.length_map (f := DivMask.Ext.t)]
    exact .size (.refl _)
  | findDivisor m =>
    obtain ⟨r, s', g1, g2, g3, g4, g5⟩ := list_findDivisor_ok hl h m
    refine ⟨.entry r, s', by rw [ListConf.step, g1]; rfl, g2, ?_⟩
    cases r with
    | none => exact .findNone (g5 rfl) g3
    | some e => exact .findDivisor (g4 e rfl).1 (g4 e rfl).2 g3
  | insert e =>
    obtain ⟨r, s₁, g1, g2, g3, g4, g5⟩ := list_findDivisor_ok hl h e
    rw [ListConf.step, ListConf.insert, hl.minimizes, g1]
    simp only [Bool.not_true, Bool.false_eq_true, if_false]
    cases r with
    | some d => exact ⟨_, s₁, rfl, g2, .insertHeld (g4 d rfl).1 (g4 d rfl).2 g3⟩
    | none =>
      have hn := g5 rfl
      obtain ⟨s₂, e1, e2, e3⟩ := DivList.removeMultiples_spec hl.finder g2 e
      obtain ⟨s₃, f1, _, f3, f4⟩ := DivList.insert_spec hl.finder e3 e
      have hperm : s₃.contents.Perm (e :: s₂.contents) := by
        generalize s₂.contents = a at f4
        generalize s₃.contents = b at f4
        cases f4 with
        | insert _ => exact List.perm_append_singleton _ _
        | insertSorted _ _ _ => exact List.perm_middle
      obtain ⟨k1, k2, k3⟩ := filter_split hl.faithful e s₁.contents
      rw [← e2] at k1 k3
      have hnew : ∀ l', l'.Perm s₃.contents →
          Step c.finder.dm s.contents (.insert e) (.removed (s₁.contents.filter (fun x => c.finder.dm.divides e x))) l' :=
        fun l' hp => .insertNew hn (k1.trans g3) k2 k3 (hp.trans hperm)
      simp only [e1, f1]
      split
      · rename_i hm
        have hpos : s₃.contents.length ≠ 0 := by rw [hperm.length_eq]; simp
        have hlen : s₃.contents.length = s₃.list.length := List.length_map _
        rw [if_neg (by omega)]
        have hlt : s₃.list.length - 1 < s₃.contents.length := by omega
        obtain ⟨s₄, m1, m2, m3⟩ := (DivList.moveToFront_spec (by
          cases hs : c.finder.sortOnInsert with
          | false => rfl
          | true => rw [hl.front hs] at hm; cases hm) f3 (s₃.list.length - 1)).2 _ (List.getElem?_eq_getElem hlt)
        rw [m1]
        refine ⟨_, s₄, rfl, m3, hnew _ ?_⟩
        rw [m2]
        exact List.getElem_cons_eraseIdx_perm hlt
      · exact ⟨_, s₃, rfl, f3, hnew _ (.refl _)⟩

theorem list_run_ok {c : ListConf T} (hl : c.Lawful) : ∀ (ops : List (Op T)) {s : DivList.State T},
    DivList.Inv c.finder s → ∃ rs s', c.run s ops = some (rs, s') ∧ Trace c.finder.dm s.contents ops rs s'.contents := by
  intro ops
  induction ops with
  | nil => intro s _; exact ⟨_, _, rfl, .nil⟩
  | cons op ops ih =>
    intro s h
    obtain ⟨r, s₁, g1, g2, g3⟩ := list_step_ok hl h op
    obtain ⟨rs, s₂, f1, f2⟩ := ih g2
    exact ⟨_, _, by rw [ListConf.run, g1]; simp only [f1], .cons g3 f2⟩

theorem list_run_inv {c : ListConf T} (hl : c.Lawful) : ∀ (ops : List (Op T)) {s s' : DivList.State T} {rs : List (Ret T)},
    DivList.Inv c.finder s → c.run s ops = some (rs, s') → DivList.Inv c.finder s' := by
  intro ops
  induction ops with
  | nil =>
    intro s s' rs h hr
    simp only [ListConf.run, Option.some.injEq, Prod.mk.injEq] at hr
    exact hr.2 ▸ h
  | cons op ops ih =>
    intro s s' rs h hr
    obtain ⟨r, s₁, g1, g2, _⟩ := list_step_ok hl h op
    rw [ListConf.run, g1] at hr
    simp only at hr
    split at hr
    · cases hr
    · rename_i rs₁ s₂ h2
      simp only [Option.some.injEq, Prod.mk.injEq] at hr
      exact hr.2 ▸ ih g2 h2

theorem findDivisor_front {c : ListConf T} (hm : c.moveDivisorToFront = true) {s s' : DivList.State T} {m e : T}
    (h : c.findDivisor s m = some (some e, s')) : s'.contents.head? = some e := by
  unfold ListConf.findDivisor at h
  rcases hi : DivList.findDivisorIterator c.finder s m with - | it
  · rw [hi] at h; cases h
  · rw [hi] at h
    simp only [hm, Bool.true_and] at h
    by_cases hit : it = s.list.length
    · simp [hit] at h
    · rw [if_pos (by simpa using hit), DivList.moveToFront_list] at h
      rcases hv : s.list[it]? with - | v
      · rw [hv] at h; cases h
      · rw [hv] at h
        simp only [Option.map_some, List.length_cons, List.getElem?_cons_zero] at h
        rw [if_neg (by omega)] at h
        simp only [Option.some.injEq, Prod.mk.injEq] at h
        rw [← h.2, ← h.1]
        rfl

theorem insert_front {c : ListConf T} (hl : c.Lawful) (hm : c.moveDivisorToFront = true) {s s' : DivList.State T} {e : T}
    {out : List T} (hi : DivList.Inv c.finder s) (h : c.insert s e = some (out, s')) (ho : out ≠ []) :
    s'.contents.head? = some e := by
  have hso : c.finder.sortOnInsert = false := by
    cases hs : c.finder.sortOnInsert with
    | false => rfl
    | true => rw [hl.front hs] at hm; cases hm
  obtain ⟨r, s₁, g1, g2, _, _, _⟩ := list_findDivisor_ok hl hi e
  rw [ListConf.insert, hl.minimizes, g1] at h
  simp only [Bool.not_true, Bool.false_eq_true, if_false] at h
  cases r with
  | some d =>
    simp only [Option.some.injEq, Prod.mk.injEq] at h
    exact absurd h.1.symm ho
  | none =>
    obtain ⟨s₂, e1, e2, e3⟩ := DivList.removeMultiples_spec hl.finder g2 e
    obtain ⟨s₃, f1, _, f3, f4⟩ := DivList.insert_spec hl.finder e3 e
    have hlast : s₃.contents = s₂.contents ++ [e] := by
      generalize s₂.contents = a at f4
      generalize s₃.contents = b at f4
      cases f4 with
      | insert _ => rfl
      | insertSorted hs _ _ => rw [hso] at hs; cases hs
    simp only [e1, f1, hm, Bool.true_and] at h
    have hlen : s₃.contents.length = s₃.list.length := List.length_map _
    have hlen2 : s₃.contents.length = s₂.contents.length + 1 := by rw [hlast]; simp
    split at h
    · rw [if_neg (by omega)] at h
      have hget : s₃.contents[s₃.list.length - 1]? = some e := by
        rw [← hlen, hlast]; simp
      obtain ⟨s₄, m1, m2, _⟩ := (DivList.moveToFront_spec hso f3 (s₃.list.length - 1)).2 _ hget
      rw [m1] at h
      simp only [Option.map_some, Option.some.injEq, Prod.mk.injEq] at h
      rw [← h.2, m2]
      rfl
    · rename_i hb
      simp only [Option.some.injEq, Prod.mk.injEq] at h
      exfalso
      apply ho
      rw [← h.1, List.filter_eq_nil_iff]
      intro x hx hd
      apply hb
      rw [List.any_eq_true]
      exact ⟨x, hx, hd⟩

/-! ## `KDTreeModel` -/

theorem kd_step {c : KDTree.Conf T} (hl : c.Lawful) {s : KDTree.State T} (h : KDTree.Inv c s) (hs : KDTree.SizeOk s)
    (op : KDTree.Op T) (h1 : op.NoThrow) (h2 : op.NotElement) :
    ∃ r s', KDTree.step c s op = .ok (r, s') ∧ KDTree.Step c s.contents op r s'.contents ∧ KDTree.Inv c s' ∧ KDTree.SizeOk s' := by
  obtain ⟨r, s', g1, g2, g3, g4⟩ := KDTree.step_spec hl h op (by cases op <;> trivial)
  exact ⟨r, s', g1, g2 (.inr hs), g4 h1, g3 h2 hs⟩

theorem tree_step_ok {c : TreeConf T} (hl : c.Lawful) {s : KDTree.State T} (h : KDTree.Inv c.finder s)
    (hs : KDTree.SizeOk s) (op : Op T) :
    ∃ r s', c.step s op = some (r, s') ∧ KDTree.Inv c.finder s' ∧ KDTree.SizeOk s' ∧
      Step c.finder.dm s.contents op r s'.contents := by
  have hfind : ∀ m, ∃ r s', KDTree.findDivisor c.finder s m = .ok (.entry r, s') ∧ KDTree.Inv c.finder s' ∧ KDTree.SizeOk s' ∧
      s'.contents.Perm s.contents ∧
      (∀ e, r = some e → e ∈ s.contents ∧ Dvd c.finder.dm e m) ∧ (r = none → ∀ e ∈ s.contents, ¬ Dvd c.finder.dm e m) := by
    intro m
    obtain ⟨r, s', g1, g2, g3, g4⟩ := kd_step hl.finder h hs (.findDivisor m) trivial trivial
    generalize hc : s'.contents = l' at g2
    cases g2 with
    | @findDivisor _ _ e he hd hp =>
      exact ⟨_, s', g1, g3, g4, by rw [hc]; exact hp, fun x hx => by cases hx; exact ⟨he, (hl.faithful _ _).mp hd⟩, nofun⟩
    | findNone hn hp =>
      refine ⟨_, s', g1, g3, g4, by rw [hc]; exact hp, nofun, ?_⟩
      intro _ e he hd
      rw [← hl.faithful, hn e he] at hd
      cases hd
  cases op with
  | size =>
    refine ⟨_, s, rfl, h, hs, ?_⟩
    rw [show s.size = s.contents.length from hs]
    exact .size (.refl _)
  | findDivisor m =>
    obtain ⟨r, s', g1, g2, g2', g3, g4, g5⟩ := hfind m
    refine ⟨.entry r, s', by rw [TreeConf.step, g1], g2, g2', ?_⟩
    cases r with
    | none => exact .findNone (g5 rfl) g3
    | some e => exact .findDivisor (g4 e rfl).1 (g4 e rfl).2 g3
  | insert e =>
    obtain ⟨r, s₁, g1, g2, g2', g3, g4, g5⟩ := hfind e
    rw [TreeConf.step, TreeConf.insert, hl.minimizes]
    simp only [Bool.not_true, Bool.false_eq_true, if_false]
    rw [g1]
    cases r with
    | some d => exact ⟨_, s₁, rfl, g2, g2', .insertHeld (g4 d rfl).1 (g4 d rfl).2 g3⟩
    | none =>
      have hn := g5 rfl
      obtain ⟨r₂, s₂, e1, e2, e3, e4⟩ := kd_step hl.finder g2 g2' (.removeMultiples e) trivial trivial
      generalize hc2 : s₂.contents = l₂ at e2
      cases e2 with
      | removeMultiplesOff ha _ => rw [hl.removals] at ha; cases ha
      | @removeMultiples _ _ out b ha ho hb hp2 =>
        simp only
        rw [show KDTree.removeMultiples c.finder s₁ e = KDTree.step c.finder s₁ (.removeMultiples e) from rfl, e1]
        obtain ⟨r₃, s₃, f1, f2, f3, f4⟩ := kd_step hl.finder e3 e4 (.insert e) trivial trivial
        rw [hc2] at f2
        have hno : KDTree.copies c.finder e l₂ = 0 := by
          unfold KDTree.copies
          rw [List.countP_eq_zero]
          intro x hx
          have hx2 := hp2.subset hx
          have : ¬ KDTree.Same c.finder e x := by
            intro hsame
            refine hn x (g3.subset (List.mem_filter.mp hx2).1) ?_
            intro v hv
            exact le_of_eq (hsame v hv).symm
          simpa using this
        generalize hc3 : s₃.contents = l₃ at f2
        cases f2 with
        | insertThrows hle _ =>
          rw [hno] at hle
          have := hl.finder.leafSize
          omega
        | insert _ hp3 =>
          simp only
          rw [show KDTree.insert c.finder s₂ e = KDTree.step c.finder s₂ (.insert e) from rfl, f1]
          refine ⟨_, s₃, rfl, f3, f4, ?_⟩
          rw [hc3]
          obtain ⟨k1, k2, k3⟩ := filter_split hl.faithful e s₁.contents
          refine .insertNew (keep := l₂) hn (((ho.append hp2).trans k1).trans g3) ?_ ?_ hp3
          · intro x hx; exact k2 x (ho.subset hx)
          · intro x hx; exact k3 x (hp2.subset hx)

theorem tree_run_ok {c : TreeConf T} (hl : c.Lawful) : ∀ (ops : List (Op T)) {s : KDTree.State T},
    KDTree.Inv c.finder s → KDTree.SizeOk s →
    ∃ rs s', c.run s ops = some (rs, s') ∧ Trace c.finder.dm s.contents ops rs s'.contents := by
  intro ops
  induction ops with
  | nil => intro s _ _; exact ⟨_, _, rfl, .nil⟩
  | cons op ops ih =>
    intro s h hs
    obtain ⟨r, s₁, g1, g2, g2', g3⟩ := tree_step_ok hl h hs op
    obtain ⟨rs, s₂, f1, f2⟩ := ih g2 g2'
    exact ⟨_, _, by rw [TreeConf.run, g1]; simp only [f1], .cons g3 f2⟩

end Verif.Minimize
