import Verif.KDMemPackedInsert
import Verif.KDMemBinaryReset

/-!
# Lemmas on packed KD trees in memory: `clear` and `reset`
-/

namespace Verif.KDMem.Packed

open Verif.DivMask (Ext Bits Mask combineAnd canDivide maxMask)
open Verif.KDTree (Conf Flow Arr Split Kind Node Path lower inChild sortEntries split)
open Binary (sizes)

variable {T : Type} {c : Conf T}

/-! ## The nodes below a node -/

/-- The trees that the children lead to. -/
def gtsOf : AT T → List (AT T)
  | .entries _ _ => []
  | .split _ _ _ _ le gt => gt :: gtsOf le

theorem rest_perm : ∀ (t : AT T), (rest t).Perm ((gtsOf t).flatMap addrs) := by
  intro t
  induction t with
  | entries x a => exact .refl _
  | split x m v e le gt ih1 ih2 =>
    rw [rest, gtsOf, List.flatMap_cons]
    exact List.perm_append_comm.trans (ih1.append_left _)

theorem gtsOf_size (t : AT T) : sizes (gtsOf t) < t.size := by
  induction t with
  | entries x a => simp [gtsOf, sizes, AT.size]
  | split x m v e le gt ih1 ih2 =>
    have : sizes (gtsOf (.split x m v e le gt)) = gt.size + sizes (gtsOf le) := by simp [gtsOf, sizes]
    rw [this, AT.size]; omega

theorem at_gts {mk : Mask → Option Mask} {h : Heap (PNode T)} : ∀ {t : AT T}, Gts c mk h t → ∀ g ∈ gtsOf t, At c mk h [] g := by
  intro t
  induction t with
  | entries x a => intro _ g hg; cases hg
  | split x m v e le gt ih1 ih2 =>
    intro h1 g hg
    rcases List.mem_cons.mp hg with rfl | hg
    · exact ⟨h1.2.1, h1.2.2.1⟩
    · exact ih1 h1.2.2.2 g hg

theorem gts_change {mk mk' : Mask → Option Mask} {h h' : Heap (PNode T)} : ∀ {t : AT T}, Gts c mk h t →
    (∀ g ∈ gtsOf t, At c mk' h' [] g) → Gts c mk' h' t := by
  intro t
  induction t with
  | entries x a => intro h1 _; exact h1
  | split x m v e le gt ih1 ih2 =>
    intro h1 h2
    have := h2 gt (by simp [gtsOf])
    exact ⟨h1.1, this.1, this.2, ih1 h1.2.2.2 (fun g hg => h2 g (by simp [gtsOf, hg]))⟩

theorem scanAll_kids (mk : Mask → Option Mask) (t : AT T) : ∀ tmp : List Addr,
    scanAll (kidsOf mk t) tmp = some (((gtsOf t).reverse.map AT.addr) ++ tmp) := by
  induction t with
  | entries x a => intro tmp; rfl
  | split x m v e le gt ih1 ih2 =>
    intro tmp
    rw [kidsOf, scanAll]
    simp only [Option.bind_eq_bind, Option.bind_some]
    rw [ih1]
    simp [gtsOf]

theorem nodesOf_kids (mk : Mask → Option Mask) (t : AT T) : nodesOf (kidsOf mk t) = some ((gtsOf t).map AT.addr) := by
  induction t with
  | entries x a => rfl
  | split x m v e le gt ih1 ih2 =>
    rw [kidsOf, nodesOf]
    simp only [Option.bind_eq_bind, Option.bind_some]
    rw [ih1]
    simp [gtsOf]

theorem nodup_gts {mk : Mask → Option Mask} {h : Heap (PNode T)} {t : AT T} (hg : Gts c mk h t) {S : List Addr}
    (hn : (addrs t ++ S).Nodup) : t.addr ∉ (gtsOf t).flatMap addrs ∧ t.addr ∉ S ∧ ((gtsOf t).flatMap addrs ++ S).Nodup := by
  rw [addrs_eq hg, List.cons_append, List.nodup_cons, List.mem_append, not_or] at hn
  have hp := rest_perm t
  exact ⟨fun hy => hn.1.1 (hp.mem_iff.mpr hy), hn.1.2, (hp.append_right S).nodup_iff.mp hn.2⟩

theorem mem_gts {mk : Mask → Option Mask} {h : Heap (PNode T)} {t : AT T} (hg : Gts c mk h t) (y : Addr) :
    y ∈ addrs t ↔ y = t.addr ∨ y ∈ (gtsOf t).flatMap addrs := by
  rw [addrs_eq hg, List.mem_cons, (rest_perm t).mem_iff]

/-! ## `clear` -/

theorem clearLoop_ok {mk : Mask → Option Mask} : ∀ (k : ℕ) (ts : List (AT T)) (h : Heap (PNode T)), sizes ts = k →
    (∀ t ∈ ts, At c mk h [] t) → (ts.flatMap addrs).Nodup →
    ∃ h', clearLoop h (ts.map AT.addr) = some h' ∧
      (∀ y ∈ ts.flatMap addrs, ∀ n, get h' y = some n → ∀ s ∈ slots n, s = none) ∧
      (∀ y, y ∉ ts.flatMap addrs → get h' y = get h y) := by
  intro k
  induction k using Nat.strong_induction_on with
  | _ k ih =>
    intro ts h hk hh hn
    cases ts with
    | nil => exact ⟨h, by rw [List.map_nil, clearLoop], nofun, fun _ _ => rfl⟩
    | cons t ts =>
      rw [List.flatMap_cons] at hn
      obtain ⟨⟨extra, g1⟩, g2⟩ := hh t (by simp)
      obtain ⟨n1, n2, n3⟩ := nodup_gts g2 hn
      have hf := base_fits g2
      have hpop : (ofArr c (base t)).popWhile 0 = some (ofArr c { base t with es := [] }) := by
        rw [popWhile_ofArr (base t).es.length hf (by omega)]; rfl
      obtain ⟨h1, p1, p2, p3⟩ := put_spec g1 { cell c mk [] t extra with arr := ofArr c { base t with es := [] } }
      have hp : ((gtsOf t).reverse.flatMap addrs).Perm ((gtsOf t).flatMap addrs) := (List.reverse_perm _).flatMap_right _
      have hmem : ∀ y, y ∈ ((gtsOf t).reverse ++ ts).flatMap addrs ↔ y ∈ (gtsOf t).flatMap addrs ∨ y ∈ ts.flatMap addrs := by
        intro y
        rw [List.flatMap_append, List.mem_append, hp.mem_iff]
      obtain ⟨h2, r1, r2, r3⟩ := ih (sizes ((gtsOf t).reverse ++ ts)) (by
          rw [← hk]
          have := gtsOf_size t
          simp [sizes] at this ⊢
          omega) ((gtsOf t).reverse ++ ts) h1 rfl (by
          intro g hg
          have hg' : At c mk h [] g ∧ t.addr ∉ addrs g := by
            rw [List.mem_append, List.mem_reverse] at hg
            rcases hg with hg | hg
            · exact ⟨at_gts g2 g hg, fun hy => n1 (List.mem_flatMap.mpr ⟨g, hg, hy⟩)⟩
            · exact ⟨hh g (by simp [hg]), fun hy => n2 (List.mem_flatMap.mpr ⟨g, hg, hy⟩)⟩
          refine at_keep hg'.1 (fun y hy n hgy => ?_)
          rw [p3 y (by rintro rfl; exact hg'.2 hy)]; exact hgy) (by
          rw [List.flatMap_append]
          exact (hp.append_right _).nodup_iff.mpr n3)
      refine ⟨h2, ?_, ?_, ?_⟩
      · rw [List.map_cons, clearLoop]
        simp only [g1, Option.bind_eq_bind, Option.bind_some]
        have harr : (cell c mk [] t extra).arr = ofArr c (base t) := rfl
        rw [harr, hpop]
        simp only [Option.bind_some]
        rw [putArr, g1]
        simp only [Option.bind_eq_bind, Option.bind_some, p1, kids_cell, List.nil_append, scanAll_kids]
        rw [← List.map_append]
        exact r1
      · intro y hy n hgy
        by_cases hyt : y ∈ ((gtsOf t).reverse ++ ts).flatMap addrs
        · exact r2 y hyt n hgy
        · rw [r3 y hyt] at hgy
          rw [hmem, not_or] at hyt
          rw [List.flatMap_cons, List.mem_append, mem_gts g2] at hy
          have hyx : y = t.addr := by
            rcases hy with (hy | hy) | hy
            · exact hy
            · exact absurd hy hyt.1
            · exact absurd hy hyt.2
          rw [hyx, p2] at hgy
          cases hgy
          exact raw_nil_none _
      · intro y hy
        rw [List.flatMap_cons, List.mem_append, mem_gts g2, not_or, not_or] at hy
        rw [r3 y (by rw [hmem, not_or]; exact ⟨hy.1.2, hy.2⟩), p3 y hy.1.1]

theorem clear_ok {mk : Mask → Option Mask} {h : Heap (PNode T)} {t : Option (AT T)} (hm : MemRoot (Holds c mk) addrs h t) :
    ∃ h', clear c ⟨h, t.map AT.addr, []⟩ = some ⟨h', none, []⟩ ∧ ∀ y, get h' y = none := by
  have key : ∃ h1, clearLoop h (t.map AT.addr).toList = some h1 ∧ ∀ y n, get h1 y = some n → ∀ s ∈ slots n, s = none := by
    cases t with
    | none =>
      refine ⟨h, by rw [Option.map_none, Option.toList_none, clearLoop], ?_⟩
      intro y n hy
      have : get h y = none := hm y
      rw [this] at hy; cases hy
    | some t =>
      obtain ⟨h1, g1, g2, g3⟩ := clearLoop_ok (c := c) (mk := mk) _ [t] h rfl (by rintro _ hg; rw [List.mem_singleton] at hg; subst hg; exact hm.holds) (by simpa using hm.nodup)
      refine ⟨h1, g1, ?_⟩
      intro y n hy
      by_cases hya : y ∈ [t].flatMap addrs
      · exact g2 y hya n hy
      · rw [g3 y hya] at hy
        exact absurd (by simpa using hm.cover y n hy) hya
  obtain ⟨h1, k1, k2⟩ := key
  obtain ⟨h2, f1, f2⟩ := freeAll_ok k2
  refine ⟨h2, ?_, f2⟩
  rw [clear]
  simp only [List.append_nil, k1, Option.bind_eq_bind, Option.bind_some, f1]

/-! ## The loop of `reset` -/

/-- The masks before they are computed. -/
abbrev unset : Mask → Option Mask := fun _ => none

/-- A child with nothing set. -/
abbrev blank : Child := ⟨none, none, none, none⟩

/-- The children of a node with variable and exponent. -/
def nkids : Node T → List (ℕ × ℤ × Node T)
  | .entries _ => []
  | .split _ v e le gt => (v, e, gt) :: nkids le

/-- The entries of a node. -/
def nbase : Node T → Arr T
  | .entries a => a
  | .split _ _ _ le _ => nbase le

/-- The range of a child and the tree that is made of it. -/
def Rel (c : Conf T) (bits : Bits) (k : ℕ) (ch : List T × ℕ × ℤ) (kd : ℕ × ℤ × Node T) : Prop :=
  ch.2.1 = kd.1 ∧ ch.2.2 = kd.2.1 ∧ ch.1.length < k ∧ KDTree.build c bits ch.1 (some ch.2.1) = some (some kd.2.2)

theorem splitOff_ok {bits : Bits} : ∀ (k : ℕ) (l : List T), l.length = k → ∀ (hint : Option ℕ) (acc : List (List T × ℕ × ℤ)) (n : Node T),
    KDTree.build c bits l hint = some (some n) → ∃ l' chs, splitOff c l hint acc = some (some (l', acc ++ chs)) ∧
      Arr.ofRange c (l'.map (Ext.make c.dm bits)) = some (nbase n) ∧ List.Forall₂ (Rel c bits k) chs (nkids n) := by
  intro k
  induction k using Nat.strong_induction_on with
  | _ k ih =>
    intro l hk hint acc n hb
    rw [KDTree.build] at hb
    rw [splitOff]
    by_cases hlen : l.length ≤ c.leafSize
    · rw [if_pos hlen] at hb ⊢
      rw [Option.map_eq_some_iff] at hb
      obtain ⟨a, ha, hn⟩ := hb
      cases hn
      exact ⟨l, [], by simp, ha, .nil⟩
    · rw [if_neg hlen] at hb ⊢
      cases hsp : split c id l none hint with
      | none => rw [hsp] at hb; cases hb
      | some q =>
        cases q with
        | none => rw [hsp] at hb; cases hb
        | some sp =>
          rw [hsp] at hb
          simp only at hb ⊢
          split at hb
          · rename_i hlt
            split at hb
            · rename_i nle ngt hb1 hb2
              cases hb
              obtain ⟨l', chs, q1, q2, q3⟩ := ih sp.le.length (by omega) sp.le rfl (some sp.var) (acc ++ [(sp.gt, sp.var, sp.exp)]) nle hb1
              refine ⟨l', (sp.gt, sp.var, sp.exp) :: chs, ?_, q2, .cons ⟨rfl, rfl, by show sp.gt.length < k; omega, hb2⟩ ?_⟩
              · rw [q1]; simp
              · exact q3.imp (fun ch kd hr => ⟨hr.1, hr.2.1, by have := hr.2.2.1; omega, hr.2.2.2⟩)
            · cases hb
            · cases hb
            · cases hb
          · cases hb

/-- What the loop leaves of a task. -/
structure Made (c : Conf T) (h : Heap (PNode T)) (child : Option (ℕ × ℤ × (Addr × ℕ))) (n : Node T) (h' : Heap (PNode T))
    (t : AT T) : Prop where
  erase : t.erase = n
  holds : At c unset h' [] t
  nodup : (addrs t).Nodup
  fresh : ∀ y ∈ addrs t, get h y = none
  keep : Keep h h' (child.map (·.2.2.1)).toList
  cover : Cover h h' (addrs t)
  slot : ∀ v e p n k, child = some (v, e, p) → get h p.1 = some n → n.children[p.2]? = some k →
    get h' p.1 = some { n with children := n.children.set p.2 ⟨k.mask, some v, some e, some t.addr⟩ }

/-- What the loop does with one task. -/
def TaskOk (c : Conf T) (bits : Bits) (k : ℕ) : Prop := ∀ (l : List T), l.length = k → ∀ (h : Heap (PNode T)) (root : Option Addr)
    (child : Option (ℕ × ℤ × (Addr × ℕ))) (todo : List (Task T)) (n : Node T),
    (∀ v e p, child = some (v, e, p) → ∃ n k, get h p.1 = some n ∧ n.children[p.2]? = some k) →
    KDTree.build c bits l (child.map (·.1)) = some (some n) →
    ∃ h' t, resetLoop c bits h root (⟨l, child⟩ :: todo) = resetLoop c bits h' (root <|> some t.addr) todo ∧ Made c h child n h' t

theorem resetKids_ok {bits : Bits} {k : ℕ} (ih : ∀ j < k, TaskOk c bits j) : ∀ (n : Node T) (chs : List (List T × ℕ × ℤ)) (ks : List Child)
    (h : Heap (PNode T)) (x root : Addr) (r : RArr T) (extra : List Child) (cnt : ℕ) (todo : List (Task T)),
    List.Forall₂ (Rel c bits k) chs (nkids n) → Fits c (nbase n) →
    get h x = some ⟨r, ks ++ List.replicate chs.length blank ++ extra, cnt⟩ →
    ∃ h' t, resetLoop c bits h (some root) ((tasks x ks.length chs).reverse ++ todo) = resetLoop c bits h' (some root) todo ∧
      t.erase = n ∧ t.addr = x ∧ get h' x = some ⟨r, ks ++ kidsOf unset t ++ extra, cnt⟩ ∧ Gts c unset h' t ∧ (rest t).Nodup ∧
      (∀ y ∈ rest t, get h y = none) ∧ Keep h h' [x] ∧ Cover h h' (rest t) := by
  intro n
  induction n with
  | entries a =>
    intro chs ks h x root r extra cnt todo hch hf hg
    rw [nkids] at hch
    cases hch
    exact ⟨h, .entries x a, rfl, rfl, rfl, by simpa [kidsOf] using hg, hf, .nil, nofun, Keep.refl _ _, fun y n hy => .inl ⟨n, hy⟩⟩
  | split m v e le gt ih1 ih2 =>
    intro chs ks h x root r extra cnt todo hch hf hg
    rw [nkids] at hch
    obtain ⟨ch, chs', hr, hch', rfl⟩ : ∃ ch chs', Rel c bits k ch (v, e, gt) ∧ List.Forall₂ (Rel c bits k) chs' (nkids le) ∧ chs = ch :: chs' := by
      cases hch with
      | cons h1 h2 => exact ⟨_, _, h1, h2, rfl⟩
    obtain ⟨l, v', e'⟩ := ch
    obtain ⟨rfl, rfl, r3, r4⟩ : v' = v ∧ e' = e ∧ l.length < k ∧ KDTree.build c bits l (some v') = some (some gt) := hr
    obtain ⟨h1, t1, a1, a2, a3, a4, a5, a6, a7, a8, a9⟩ := ih1 chs' (ks ++ [blank]) h x root r extra cnt
      (⟨l, some (v', e', (x, ks.length))⟩ :: todo) hch' hf (by rw [hg]; simp [List.replicate_succ])
    have hc1 : (⟨r, ks ++ [blank] ++ kidsOf unset t1 ++ extra, cnt⟩ : PNode T).children[ks.length]? = some blank := by simp
    obtain ⟨h2, t2, b1, b2⟩ := ih l.length r3 l rfl h1 (some root) (some (v', e', (x, ks.length))) todo gt
      (by rintro _ _ _ ⟨⟩; exact ⟨_, _, a4, hc1⟩) r4
    have hx2 := b2.slot v' e' (x, ks.length) _ _ rfl a4 hc1
    have hset : (⟨r, ks ++ [blank] ++ kidsOf unset t1 ++ extra, cnt⟩ : PNode T).children.set ks.length
        ⟨none, some v', some e', some t2.addr⟩ = ks ++ ⟨none, some v', some e', some t2.addr⟩ :: kidsOf unset t1 ++ extra := by simp
    have hx1 : ∀ y, get h1 y = none → get h y = none := by
      intro y hy
      cases hgy : get h y with
      | none => rfl
      | some n =>
        by_cases hyx : y = x
        · rw [hyx, a4] at hy; cases hy
        · rw [a8 y n (by simpa using hyx) hgy] at hy; cases hy
    have hxr : x ∉ rest t1 := fun hy => by have := a7 x hy; rw [hg] at this; cases this
    refine ⟨h2, .split x m v' e' t1 t2, ?_, by rw [AT.erase, a2, b2.erase], rfl, ?_, ⟨a3.symm, b2.holds.1, b2.holds.2, ?_⟩, ?_, ?_, ?_, ?_⟩
    · rw [tasks, List.reverse_cons, List.append_assoc, List.singleton_append]
      rw [List.length_append] at a1
      exact a1.trans b1
    · rw [hset] at hx2
      rw [hx2]
      simp [kidsOf]
    · refine gts_keep a5 (fun y hy n hgy => b2.keep y n ?_ hgy)
      show y ∉ [x]
      rw [List.mem_singleton]
      rintro rfl
      exact hxr hy
    · rw [rest, List.nodup_append]
      refine ⟨a6, b2.nodup, ?_⟩
      rintro y hy _ hy' rfl
      obtain ⟨n, hgy⟩ := gts_live a5 y hy
      have := b2.fresh y hy'
      rw [hgy] at this; cases this
    · intro y hy
      rw [rest, List.mem_append] at hy
      rcases hy with hy | hy
      · exact a7 y hy
      · exact hx1 y (b2.fresh y hy)
    · intro y n hy hgy
      exact b2.keep y n hy (a8 y n hy hgy)
    · intro y n hy
      rw [rest]
      rcases b2.cover y n hy with ⟨n', h'⟩ | h'
      · rcases a9 y n' h' with h'' | h''
        · exact .inl h''
        · exact .inr (by simp [h''])
      · exact .inr (by simp [h'])

theorem base_erase : ∀ (t : AT T), base t = nbase t.erase := by
  intro t
  induction t with
  | entries x a => rfl
  | split x m v e le gt ih1 ih2 => exact ih1

theorem forall_length {α β : Type} {R : α → β → Prop} {l₁ : List α} {l₂ : List β} (h : List.Forall₂ R l₁ l₂) : l₁.length = l₂.length := by
  induction h with
  | nil => rfl
  | cons _ _ ih => simp [ih]

theorem kids_length (mk : Mask → Option Mask) : ∀ (t : AT T), (kidsOf mk t).length = (nkids t.erase).length := by
  intro t
  induction t with
  | entries x a => rfl
  | split x m v e le gt ih1 ih2 => simp [kidsOf, AT.erase, nkids, ih1]

theorem setSplit_ok {h : Heap (PNode T)} {child : Option (ℕ × ℤ × (Addr × ℕ))}
    (hs : ∀ v e p, child = some (v, e, p) → ∃ n k, get h p.1 = some n ∧ n.children[p.2]? = some k) :
    ∃ h', setSplit h child = some h' ∧ (∀ v e p n k, child = some (v, e, p) → get h p.1 = some n → n.children[p.2]? = some k →
      get h' p.1 = some { n with children := n.children.set p.2 { k with var := some v, exp := some e } }) ∧
      ∀ y, (∀ v e p, child = some (v, e, p) → y ≠ p.1) → get h' y = get h y := by
  cases child with
  | none => exact ⟨h, rfl, nofun, fun _ _ => rfl⟩
  | some q =>
    obtain ⟨v, e, p⟩ := q
    obtain ⟨n, k, h1, h2⟩ := hs v e p rfl
    obtain ⟨h', g1, g2, g3⟩ := putChild_ok h1 h2 { k with var := some v, exp := some e }
    refine ⟨h', ?_, ?_, fun y hy => g3 y (hy v e p rfl)⟩
    · rw [setSplit]
      simp only [getChild, h1, h2, Option.bind_eq_bind, Option.bind_some]
      exact g1
    · rintro _ _ _ n' k' ⟨⟩ hg hc
      rw [h1] at hg; cases hg
      rw [h2] at hc; cases hc
      exact g2

theorem task_ok (hl : c.Lawful) {bits : Bits} : ∀ (k : ℕ), TaskOk c bits k := by
  intro k
  induction k using Nat.strong_induction_on with
  | _ k ih =>
    intro l hk h root child todo n hs hb
    obtain ⟨l', chs, s1, s2, s3⟩ := splitOff_ok k l hk _ [] n hb
    obtain ⟨h1, u1, u2, u3⟩ := setSplit_ok hs
    obtain ⟨o1, o2⟩ := ofRange_ofArr (sort_length hl) s2
    generalize hnode : make (ofArr c (nbase n)) chs.length = node
    generalize hxa : (alloc h1 node).2 = xa
    generalize hh2 : (alloc h1 node).1 = h2
    have a1 : get h2 xa = some node := by rw [← hh2, ← hxa]; exact alloc_get _ _
    have a2 : ∀ y, y ≠ xa → get h2 y = get h1 y := by rw [← hh2, ← hxa]; exact fun y hy => alloc_keep _ _ hy
    have a3 : get h1 xa = none := by rw [← hxa]; exact alloc_fresh _ _
    -- the parent
    have hpar : ∀ v e p, child = some (v, e, p) → p.1 ≠ xa ∧ ∀ n k, get h p.1 = some n → n.children[p.2]? = some k →
        get h2 p.1 = some { n with children := n.children.set p.2 { k with var := some v, exp := some e } } := by
      intro v e p hp
      obtain ⟨n, k, q1, q2⟩ := hs v e p hp
      have e1 : p.1 ≠ xa := by
        intro e1
        have := u2 v e p n k hp q1 q2
        rw [e1, a3] at this; cases this
      exact ⟨e1, fun n k q1 q2 => by rw [a2 _ e1]; exact u2 v e p n k hp q1 q2⟩
    have hset : ∀ {l : List Child} {i : ℕ} {k k' : Child}, l[i]? = some k → (l.set i k')[i]? = some k' := by
      intro l i k k' hk
      rw [List.getElem?_set_self (List.getElem?_eq_some_iff.mp hk).1]
    obtain ⟨h3, d1, d2, d3⟩ := relink_ok (h := h2) (parent := child.map (·.2.2)) xa (by
      intro p hp
      rw [Option.map_eq_some_iff] at hp
      obtain ⟨⟨v, e, p'⟩, hp, rfl⟩ := hp
      obtain ⟨n, k, q1, q2⟩ := hs v e p' hp
      exact ⟨_, _, (hpar v e p' hp).2 n k q1 q2, hset q2⟩)
    have hx3 : get h3 xa = some node := by
      rw [d3 xa]
      · exact a1
      · intro p hp
        rw [Option.map_eq_some_iff] at hp
        obtain ⟨⟨v, e, p'⟩, hp, rfl⟩ := hp
        exact Ne.symm (hpar v e p' hp).1
    have other3 : ∀ y, y ≠ xa → (∀ v e p, child = some (v, e, p) → y ≠ p.1) → get h3 y = get h y := by
      intro y e1 e2
      rw [d3 y, a2 y e1, u3 y e2]
      intro p hp
      rw [Option.map_eq_some_iff] at hp
      obtain ⟨⟨v, e, p'⟩, hp, rfl⟩ := hp
      exact e2 v e p' hp
    have hslot3 : ∀ v e p n k, child = some (v, e, p) → get h p.1 = some n → n.children[p.2]? = some k →
        get h3 p.1 = some { n with children := n.children.set p.2 ⟨k.mask, some v, some e, some xa⟩ } := by
      intro v e p n k hp q1 q2
      have := d2 p _ _ (by rw [hp]; rfl) ((hpar v e p hp).2 n k q1 q2) (hset q2)
      rw [this, List.set_set]
    obtain ⟨rt, hrt⟩ : ∃ rt, (root <|> some xa) = some rt := by cases root <;> exact ⟨_, rfl⟩
    have hnode' : node = ⟨ofArr c (nbase n), [] ++ List.replicate chs.length blank ++ List.replicate (max 1 chs.length - chs.length) blank, chs.length⟩ := by
      rw [← hnode, make, List.nil_append, List.replicate_append_replicate]
      congr 2
      omega
    obtain ⟨h4, t, r1, r2, r3, r4, r5, r6, r7, r8, r9⟩ := resetKids_ok ih n chs [] h3 xa rt _ _ _ todo s3 o2 (by rw [hx3, hnode'])
    have hlive : ∀ y n, get h y = some n → ∃ n', get h3 y = some n' := by
      intro y n hy
      by_cases hp : ∃ v e p, child = some (v, e, p) ∧ y = p.1
      · obtain ⟨v, e, p, hp, rfl⟩ := hp
        obtain ⟨n, k, q1, q2⟩ := hs v e p hp
        exact ⟨_, hslot3 v e p n k hp q1 q2⟩
      · by_cases hyx : y = xa
        · exact ⟨_, hyx ▸ hx3⟩
        · exact ⟨n, by rw [other3 y hyx (fun v e p hp' e' => hp ⟨v, e, p, hp', e'⟩)]; exact hy⟩
    have hxh : get h xa = none := by
      rw [← u3 xa]
      · exact a3
      · intro v e p hp
        exact Ne.symm (hpar v e p hp).1
    have haddr := addrs_eq r5
    rw [r3] at haddr
    refine ⟨h4, t, ?_, r2, ⟨⟨List.replicate (max 1 chs.length - chs.length) blank, ?_⟩, r5⟩, ?_, ?_, ?_, ?_, ?_⟩
    · rw [resetLoop]
      simp only [u1, Option.bind_eq_bind, Option.bind_some, s1, List.nil_append, o1, hnode, hxa, hh2, d1]
      rw [r3, hrt]
      exact r1
    · rw [r3, r4, cell, base_erase, r2, kids_length, r2, ← forall_length s3]
      simp
    · rw [haddr, List.nodup_cons]
      refine ⟨fun hy => ?_, r6⟩
      have := r7 xa hy
      rw [hx3] at this; cases this
    · intro y hy
      rw [haddr, List.mem_cons] at hy
      rcases hy with rfl | hy
      · exact hxh
      · have h3y := r7 y hy
        cases hgy : get h y with
        | none => rfl
        | some n =>
          obtain ⟨n', hn'⟩ := hlive y n hgy
          rw [h3y] at hn'; cases hn'
    · intro y n hy hgy
      have hyx : y ≠ xa := by rintro rfl; rw [hxh] at hgy; cases hgy
      refine r8 y n (by simpa using hyx) ?_
      rw [other3 y hyx]
      · exact hgy
      · rintro v e p rfl rfl
        exact hy (by simp)
    · intro y n hy
      rw [haddr]
      rcases r9 y n hy with ⟨n', h'⟩ | h'
      · by_cases hyx : y = xa
        · exact .inr (by simp [hyx])
        · left
          by_cases hp : ∃ v e p, child = some (v, e, p) ∧ y = p.1
          · obtain ⟨v, e, p, hp, rfl⟩ := hp
            obtain ⟨n, k, q1, q2⟩ := hs v e p hp
            exact ⟨_, q1⟩
          · rw [other3 y hyx (fun v e p hp' e' => hp ⟨v, e, p, hp', e'⟩)] at h'
            exact ⟨n', h'⟩
      · exact .inr (by simp [h'])
    · intro v e p n k hp q1 q2
      rw [r3]
      refine r8 p.1 _ ?_ (hslot3 v e p n k hp q1 q2)
      simpa using (hpar v e p hp).1

/-! ## The masks -/

theorem masks_append (l₁ l₂ : List Addr) : ∀ (h : Heap (PNode T)), masks h (l₁ ++ l₂) = (masks h l₁).bind (fun h => masks h l₂) := by
  induction l₁ with
  | nil => intro h; rfl
  | cons a l ih =>
    intro h
    simp only [List.cons_append, masks, Option.bind_eq_bind]
    cases get h a with
    | none => rfl
    | some n =>
      simp only [Option.bind_some]
      cases kidMasks h a n.arr.mask n.count with
      | none => rfl
      | some h2 => simp only [Option.bind_some]; exact ih h2

theorem nodeMask_ok (hu : c.useTreeDivMask = true) {h : Heap (PNode T)} {t : AT T} (ha : At c (fin c) h [] t) :
    nodeMask h t.addr = some t.erase.mask := by
  obtain ⟨⟨extra, g1⟩, g2⟩ := ha
  rw [nodeMask, g1]
  simp only [Option.bind_eq_bind, Option.bind_some, kids_cell, List.nil_append]
  cases t with
  | entries x a => rfl
  | split x m v e le gt => simp [kidsOf, fin, hu, AT.erase, Node.mask]

theorem kidMasks_ok (hu : c.useTreeDivMask = true) : ∀ (t : AT T) (h : Heap (PNode T)) (ks extra : List Child) (x : Addr) (r : RArr T) (cnt : ℕ),
    Masked c t.erase → (∀ g ∈ gtsOf t, At c (fin c) h [] g ∧ x ∉ addrs g) →
    get h x = some ⟨r, ks ++ kidsOf unset t ++ extra, cnt⟩ →
    ∃ h', kidMasks h x (base t).mask (ks.length + (kidsOf unset t).length) = kidMasks h' x t.erase.mask ks.length ∧
      get h' x = some ⟨r, ks ++ kidsOf (fin c) t ++ extra, cnt⟩ ∧ ∀ y, y ≠ x → get h' y = get h y := by
  intro t
  induction t with
  | entries x' a =>
    intro h ks extra x r cnt _ _ hg
    exact ⟨h, by simp [kidsOf, base, AT.erase, Node.mask], by simpa [kidsOf] using hg, fun _ _ => rfl⟩
  | split x' m v e le gt ih1 ih2 =>
    intro h ks extra x r cnt hm hgts hg
    obtain ⟨m1, m2, m3⟩ := hm
    obtain ⟨h1, q1, q2, q3⟩ := ih1 h (ks ++ [⟨none, some v, some e, some gt.addr⟩]) extra x r cnt m2
      (fun g hg' => hgts g (by simp [gtsOf, hg'])) (by rw [hg]; simp [kidsOf])
    obtain ⟨g1, g2⟩ := hgts gt (by simp [gtsOf])
    have g1' : At c (fin c) h1 [] gt := at_keep g1 (fun y hy n hgy => by
      rw [q3 y (by rintro rfl; exact g2 hy)]; exact hgy)
    have hc1 : (⟨r, ks ++ [⟨none, some v, some e, some gt.addr⟩] ++ kidsOf (fin c) le ++ extra, cnt⟩ : PNode T).children[ks.length]? =
        some ⟨none, some v, some e, some gt.addr⟩ := by simp
    obtain ⟨h2, p1, p2, p3⟩ := putChild_ok q2 hc1 ⟨some (combineAnd (combineAnd maxMask le.erase.mask) gt.erase.mask), some v, some e, some gt.addr⟩
    have hmask : combineAnd (combineAnd maxMask le.erase.mask) gt.erase.mask = m := by
      rw [m1, lower, lower, hu]; rfl
    refine ⟨h2, ?_, ?_, fun y hy => by rw [p3 y hy, q3 y hy]⟩
    · have hlen : ks.length + (kidsOf unset (.split x' m v e le gt)).length =
          (ks ++ [(⟨none, some v, some e, some gt.addr⟩ : Child)]).length + (kidsOf unset le).length := by
        simp [kidsOf]; omega
      rw [hlen, base, q1]
      rw [List.length_append, List.length_singleton, kidMasks]
      simp only [getChild, q2, Option.bind_eq_bind, Option.bind_some, hc1, nodeMask_ok hu g1']
      rw [p1]
      simp only [Option.bind_some, hmask]
      rfl
    · rw [p2, hmask]
      simp [kidsOf, fin, hu]

theorem masks_ok (hu : c.useTreeDivMask = true) : ∀ (k : ℕ) (ts : List (AT T)) (h : Heap (PNode T)) (done : List Addr),
    sizes ts = k → (∀ t ∈ ts, At c unset h [] t ∧ Masked c t.erase) → (ts.flatMap addrs).Nodup →
    ∃ L h', record h (done ++ ts.map AT.addr) done.length = some (done ++ L) ∧ masks h L.reverse = some h' ∧
      (∀ t ∈ ts, At c (fin c) h' [] t) ∧ (∀ y, y ∉ ts.flatMap addrs → get h' y = get h y) := by
  intro k
  induction k using Nat.strong_induction_on with
  | _ k ih =>
    intro ts h done hk hts hn
    cases ts with
    | nil =>
      refine ⟨[], h, ?_, rfl, nofun, fun _ _ => rfl⟩
      rw [record]
      simp
    | cons t ts =>
      obtain ⟨t2, t3⟩ := hts t (by simp)
      obtain ⟨⟨extra, g1⟩, g2⟩ := t2
      rw [List.flatMap_cons] at hn
      obtain ⟨n1, n2, n3⟩ := nodup_gts g2 hn
      have hrec : record h (done ++ (t :: ts).map AT.addr) done.length =
          record h (done ++ [t.addr] ++ (ts ++ gtsOf t).map AT.addr) (done ++ [t.addr]).length := by
        conv_lhs => rw [record]
        have : (done ++ (t :: ts).map AT.addr)[done.length]? = some t.addr := by simp
        rw [this]
        simp only [g1, Option.bind_eq_bind, Option.bind_some, kids_cell, List.nil_append, nodesOf_kids]
        congr 1
        · simp
        · simp
      have hmk : ∀ (t : AT T), Masked c t.erase → ∀ g ∈ gtsOf t, Masked c g.erase := by
        intro t
        induction t with
        | entries x a => intro _ g hg; cases hg
        | split x m v e le gt ih1 ih2 =>
          intro hm g hg
          rcases List.mem_cons.mp hg with rfl | hg
          · exact hm.2.2
          · exact ih1 hm.2.1 g hg
      obtain ⟨L, h1, r1, r2, r3, r4⟩ := ih (sizes (ts ++ gtsOf t)) (by
          rw [← hk]
          have := gtsOf_size t
          simp [sizes] at this ⊢
          omega) (ts ++ gtsOf t) h (done ++ [t.addr]) rfl (by
          intro g hg
          rw [List.mem_append] at hg
          rcases hg with hg | hg
          · exact hts g (by simp [hg])
          · exact ⟨at_gts g2 g hg, hmk t t3 g hg⟩) (by
          rw [List.flatMap_append]
          exact List.perm_append_comm.nodup_iff.mp n3)
      have hx1 : get h1 t.addr = some (cell c unset [] t extra) := by
        rw [r4 t.addr]
        · exact g1
        · rw [List.flatMap_append, List.mem_append, not_or]; exact ⟨n2, n1⟩
      have hgts : ∀ g ∈ gtsOf t, At c (fin c) h1 [] g ∧ t.addr ∉ addrs g := by
        intro g hg
        exact ⟨r3 g (by simp [hg]), fun hy => n1 (List.mem_flatMap.mpr ⟨g, hg, hy⟩)⟩
      obtain ⟨h2, q1, q2, q3⟩ := kidMasks_ok hu t h1 [] extra t.addr _ _ t3 hgts hx1
      have hkeep : ∀ g, t.addr ∉ addrs g → At c (fin c) h1 [] g → At c (fin c) h2 [] g := by
        intro g hg ha
        exact at_keep ha (fun y hy n hgy => by rw [q3 y (by rintro rfl; exact hg hy)]; exact hgy)
      refine ⟨t.addr :: L, h2, ?_, ?_, ?_, ?_⟩
      · rw [hrec, r1]; simp
      · rw [List.reverse_cons, masks_append, r2]
        simp only [Option.bind_some, masks, Option.bind_eq_bind, hx1]
        have e1 : (cell c unset [] t extra).arr.mask = (base t).mask := rfl
        have e2 : (cell c unset [] t extra).count = ([] : List Child).length + (kidsOf unset t).length := rfl
        rw [e1, e2, q1]
        rfl
      · intro g hg
        rcases List.mem_cons.mp hg with rfl | hg
        · refine ⟨⟨extra, ?_⟩, gts_change g2 (fun g' hg' => hkeep g' (hgts g' hg').2 (hgts g' hg').1)⟩
          rw [q2, cell, kids_length, kids_length]
        · exact hkeep g (fun hy => n2 (List.mem_flatMap.mpr ⟨g, hg, hy⟩)) (r3 g (by simp [hg]))
      · intro y hy
        rw [List.flatMap_cons, List.mem_append, mem_gts g2, not_or, not_or] at hy
        rw [q3 y hy.1.1, r4 y]
        rw [List.flatMap_append, List.mem_append, not_or]
        exact ⟨hy.2, hy.1.2⟩

theorem reset_ok (hl : c.Lawful) {h : Heap (PNode T)} {t : Option (AT T)} {bits : Bits} {l : List T} {n : KDTree.Tree T}
    (hm : MemRoot (Holds c (fin c)) addrs h t) (hr : KDTree.Tree.reset c bits l = some (some n)) :
    ∃ h' t', reset c bits ⟨h, t.map AT.addr, []⟩ l = some (false, ⟨h', t'.map AT.addr, []⟩) ∧
      MemRoot (Holds c (fin c)) addrs h' t' ∧ t'.map AT.erase = n.root := by
  obtain ⟨h1, k1, k2⟩ := clear_ok hm
  rw [KDTree.Tree.reset] at hr
  rw [reset, k1]
  simp only [Option.bind_eq_bind, Option.bind_some]
  by_cases hnil : l = []
  · rw [if_pos hnil] at hr ⊢
    cases hr
    exact ⟨h1, none, rfl, k2, rfl⟩
  · rw [if_neg hnil] at hr ⊢
    cases hb : KDTree.build c bits l none with
    | none => rw [hb] at hr; cases hr
    | some q =>
      cases q with
      | none => rw [hb] at hr; cases hr
      | some nd =>
        rw [hb] at hr
        cases hr
        obtain ⟨h2, t, r1, r2⟩ := task_ok hl _ l rfl h1 none none [] nd nofun hb
        have hend : resetLoop c bits h2 (some t.addr) [] = some (false, h2, some t.addr) := by rw [resetLoop]
        have hor : (none <|> some t.addr) = some t.addr := rfl
        rw [r1, hor, hend]
        simp only [Option.bind_some, Bool.false_eq_true, if_false]
        have hcov : ∀ y n, get h2 y = some n → y ∈ addrs t := by
          intro y n hy
          rcases r2.cover y n hy with ⟨n', h'⟩ | h'
          · rw [k2] at h'; cases h'
          · exact h'
        cases hu : c.useTreeDivMask with
        | false =>
          have hfin : fin c = unset := by funext m; simp [fin, hu]
          refine ⟨h2, some t, by simp, ⟨?_, r2.nodup, hcov⟩, by simp [r2.erase]⟩
          rw [hfin]; exact r2.holds
        | true =>
          have hmk : Masked c t.erase := by rw [r2.erase]; exact build_masked _ _ _ _ rfl hb
          obtain ⟨L, h3, q1, q2, q3, q4⟩ := masks_ok hu _ [t] h2 [] rfl (by simpa using ⟨r2.holds, hmk⟩)
            (by simpa using r2.nodup)
          simp only [List.nil_append, List.map_cons, List.map_nil, List.length_nil] at q1
          simp only [if_true, q1, Option.bind_some, q2]
          refine ⟨h3, some t, by simp, ⟨q3 t (by simp), r2.nodup, ?_⟩, by simp [r2.erase]⟩
          intro y n hy
          by_contra hya
          rw [q4 y (by simpa using hya)] at hy
          exact hya (hcov y n hy)

/-- Packed trees in memory. -/
def layout (hl : c.Lawful) (hpk : c.packed = true) : Layout (impl : Impl T (PNode T)) c where
  Holds := Holds c (fin c)
  addrs := addrs
  Spine h A p n := Spine c h A n p
  spine_root hh := spine_of hh
  spine_put hs hp := spine_put hp hs
  expand_ok k tmp hs := expand_ok hpk k tmp hs
  post_ok k tmp hs := post_ok hpk k tmp hs
  spine_pre k hs := spine_pre hpk k hs
  spine_post k hs := spine_post hpk k hs
  getArr_ok := getArr_ok
  putArr_ok := putArr_ok
  insert_ok := insert_ok hl hpk
  clear_ok := clear_ok
  reset_ok := reset_ok hl
  removeElement_ok _ := removeElement_ok
  removeElement_none _ := rfl
  live := live

end Verif.KDMem.Packed
