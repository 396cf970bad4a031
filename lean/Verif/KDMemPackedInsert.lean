import Verif.KDMemPackedProofs

/-!
# Lemmas on packed KD trees in memory: insertion
-/

namespace Verif.KDMem.Packed

open Verif.DivMask (Ext Bits Mask combineAnd canDivide maxMask)
open Verif.KDTree (Conf Flow Arr Split Kind Node Path lower inChild sortEntries split)
open Binary (recalculate_same fits_recalculate)

variable {T : Type} {c : Conf T}

/-- `insert` after the walk. -/
def finish (c : Conf T) (x : Ext T) (w : Heap (PNode T) × Addr × Option (Addr × ℕ)) : Option (Bool × Heap (PNode T) × Option Addr) := do
  let r ← getArr w.1 w.2.1
  if r.len < c.leafSize then do
    let r ← r.insert c x
    let h ← putArr w.1 w.2.1 r
    some (false, h, none)
  else do
    let res ← splitInsert c x w.1 w.2.1 w.2.2
    match res with
    | none => some (true, w.1, none)
    | some (h, a) => some (false, h, if w.2.2 = none then some a else none)

theorem insert_eq (h : Heap (PNode T)) (root : Addr) (tmp : List Addr) (x : Ext T) :
    insert c ⟨h, some root, tmp⟩ x = ((insertWalk c x h root 0 none).bind (finish c x)).map
      (fun r => (r.1, ⟨r.2.1, some (r.2.2.getD root), tmp⟩)) := by
  rw [insert]
  simp only [Option.bind_eq_bind]
  cases insertWalk c x h root 0 none with
  | none => rfl
  | some w =>
    obtain ⟨h1, leaf, parent⟩ := w
    simp only [Option.bind_some, finish, Option.bind_eq_bind]
    cases getArr h1 leaf with
    | none => rfl
    | some r =>
      simp only [Option.bind_some]
      by_cases hr : r.len < c.leafSize
      · rw [if_pos hr, if_pos hr]
        cases r.insert c x with
        | none => rfl
        | some r =>
          simp only [Option.bind_some]
          cases putArr h1 leaf r <;> rfl
      · rw [if_neg hr, if_neg hr]
        cases splitInsert c x h1 leaf parent with
        | none => rfl
        | some res =>
          cases res with
          | none => rfl
          | some q =>
            cases parent <;> rfl

/-- The child that leads to a node. -/
def Slot (h : Heap (PNode T)) (parent : Option (Addr × ℕ)) (old : Addr) : Prop :=
  match parent with
  | none => True
  | some p => ∃ n k, get h p.1 = some n ∧ n.children[p.2]? = some k ∧ k.node = some old

/-- What the node of that child is afterwards. -/
def Slot' (h h' : Heap (PNode T)) (parent : Option (Addr × ℕ)) (new : Addr) : Prop :=
  ∀ p n k, parent = some p → get h p.1 = some n → n.children[p.2]? = some k →
    get h' p.1 = some { n with children := n.children.set p.2 { k with node := some new } }

/-- The variable to start from. -/
inductive Hint (h : Heap (PNode T)) : List Child → Option (Addr × ℕ) → Option ℕ → Prop
  | root : Hint h [] none none
  | parent (p : Addr × ℕ) (n : PNode T) (k : Child) (v : ℕ) : get h p.1 = some n → n.children[p.2]? = some k → k.var = some v →
      Hint h [] (some p) (some v)
  | last (ks : List Child) (k : Child) (parent : Option (Addr × ℕ)) (v : ℕ) : k.var = some v → Hint h (ks ++ [k]) parent (some v)

theorem hint_ok {h : Heap (PNode T)} {ks extra : List Child} {parent : Option (Addr × ℕ)} {v : Option ℕ} (hh : Hint h ks parent v)
    (r : RArr T) : hint h ⟨r, ks ++ extra, ks.length⟩ parent = some v := by
  cases hh with
  | root => rfl
  | parent p n k v h1 h2 h3 =>
    rw [hint]
    simp only [List.length_nil, ne_eq, not_true_eq_false, if_false, getChild, h1, Option.bind_eq_bind, Option.bind_some, h2, h3]
  | last ks k parent v h1 =>
    unfold hint
    simp [h1]

theorem hint_keep {h h' : Heap (PNode T)} {ks : List Child} {parent : Option (Addr × ℕ)} {v : Option ℕ} (hh : Hint h ks parent v)
    (hk : ∀ p n, parent = some p → get h p.1 = some n → get h' p.1 = some n) : Hint h' ks parent v := by
  cases hh with
  | root => exact .root
  | parent p n k v h1 h2 h3 => exact .parent p n k v (hk p n rfl h1) h2 h3
  | last ks k parent v h1 => exact .last ks k parent v h1

theorem set_same {l : List Child} {i : ℕ} {k : Child} (h : l[i]? = some k) : l.set i k = l := by
  rw [List.getElem?_eq_some_iff] at h
  obtain ⟨h1, h2⟩ := h
  rw [← h2, List.set_getElem_self]

theorem slot_same {h h' : Heap (PNode T)} {parent : Option (Addr × ℕ)} {old : Addr} (hs : Slot h parent old)
    (hk : ∀ p n, parent = some p → get h p.1 = some n → get h' p.1 = some n) : Slot' h h' parent old := by
  rintro p n k rfl hg hc
  obtain ⟨n', k', h1, h2, h3⟩ := hs
  rw [h1] at hg
  cases hg
  rw [h2] at hc
  cases hc
  rw [hk p _ rfl h1]
  have : ({ k with node := some old } : Child) = k := by cases k; cases h3; rfl
  rw [this, set_same h2]

theorem putChild_ok {h : Heap (PNode T)} {x : Addr} {i : ℕ} {n : PNode T} {k' : Child} (hg : get h x = some n) (hc : n.children[i]? = some k')
    (k : Child) : ∃ h', putChild h (x, i) k = some h' ∧ get h' x = some { n with children := n.children.set i k } ∧
      ∀ y, y ≠ x → get h' y = get h y := by
  obtain ⟨h', g1, g2, g3⟩ := put_spec hg { n with children := n.children.set i k }
  refine ⟨h', ?_, g2, g3⟩
  rw [putChild, hg]
  simp only [Option.bind_eq_bind, Option.bind_some]
  rw [if_pos (List.getElem?_eq_some_iff.mp hc).1]
  exact g1

theorem relink_ok {h : Heap (PNode T)} {parent : Option (Addr × ℕ)} (new : Addr)
    (hs : ∀ p, parent = some p → ∃ n k, get h p.1 = some n ∧ n.children[p.2]? = some k) :
    ∃ h', relink h parent new = some h' ∧ Slot' h h' parent new ∧ ∀ y, (∀ p, parent = some p → y ≠ p.1) → get h' y = get h y := by
  cases parent with
  | none => exact ⟨h, rfl, nofun, fun _ _ => rfl⟩
  | some p =>
    obtain ⟨n, k, h1, h2⟩ := hs p rfl
    obtain ⟨h', g1, g2, g3⟩ := putChild_ok h1 h2 { k with node := some new }
    refine ⟨h', ?_, ?_, fun y hy => g3 y (hy p rfl)⟩
    · rw [relink]
      simp only [getChild, h1, h2, Option.bind_eq_bind, Option.bind_some]
      exact g1
    · rintro _ n' k' ⟨⟩ hg hc
      rw [h1] at hg; cases hg
      rw [h2] at hc; cases hc
      exact g2

/-- What an insertion below `t` leaves. -/
structure Inserted (c : Conf T) (h : Heap (PNode T)) (ks : List Child) (t : AT T) (parent : Option (Addr × ℕ)) (b : Bool) (n' : Node T)
    (h' : Heap (PNode T)) (t' : AT T) (top : Option Addr) : Prop where
  erase : t'.erase = n'
  holds : At c (fin c) h' ks t'
  nodup : (addrs t').Nodup
  keep : Keep h h' ((parent.map (·.1)).toList ++ addrs t)
  slot : Slot' h h' parent t'.addr
  cover : Cover h h' (addrs t')
  fresh : ∀ y ∈ addrs t', y ∈ addrs t ∨ get h y = none
  sub : ∀ y ∈ addrs t, y ∈ addrs t'
  root : parent = none → top.getD t.addr = t'.addr
  noRoot : parent ≠ none → top = none
  loc : b = true → t'.loc = t.loc

/-- The array that stays in the node. -/
theorem right_ok (hl : c.Lawful) {a : Arr T} (hf : Fits c a) {sp : Split (Ext T)}
    (hlen : sp.le.length + sp.gt.length = a.es.length) :
    ∃ r1 s r2 r3, (ofArr c a).permute (sp.le ++ sp.gt) = some r1 ∧ r1.mask = a.mask ∧ shiftDown r1.slots 0 sp.le.length sp.gt.length = some s ∧
      RArr.popWhile { r1 with slots := s } sp.gt.length = some r2 ∧ r2.sort c = some r3 ∧
      r3.recalculate c = some (ofArr c (Arr.recalculate c ⟨sortEntries c sp.gt, maxMask⟩)) := by
  obtain ⟨tail, ht, htl⟩ := copyDown_raw (c.leafSize - (sp.le ++ sp.gt).length) sp.le sp.gt [] sp.le rfl
  simp only [List.nil_append, List.length_nil] at ht
  have hlen' : (sp.gt ++ tail).length = (sp.le ++ sp.gt).length := by simp; omega
  have hf' : Fits c { a with es := sp.gt ++ tail } := ⟨by simp; have := hf.cap; omega, hf.mask⟩
  have heq : ({ ofArr c { a with es := sp.le ++ sp.gt } with slots := raw (sp.gt ++ tail) (c.leafSize - (sp.le ++ sp.gt).length) } : RArr T) =
      ofArr c { a with es := sp.gt ++ tail } := by
    simp only [ofArr, hlen']
  refine ⟨ofArr c { a with es := sp.le ++ sp.gt }, _, ofArr c { a with es := sp.gt }, ofArr c ⟨sortEntries c sp.gt, a.mask⟩, permute_ofArr (by simpa using hlen), rfl, ht, ?_, ?_, ?_⟩
  · rw [heq, popWhile_ofArr tail.length hf' (by simp)]
    simp
  · rw [sort_ofArr (sort_length hl)]
  · rw [recalculate_ofArr, recalculate_same hf]

theorem splitInsert_ok (hl : c.Lawful) {x : Ext T} {h : Heap (PNode T)} {this : Addr} {a : Arr T} {parent : Option (Addr × ℕ)}
    {ks : List Child} {hint' : Option ℕ} {sp : Split (Ext T)} {n' : Node T}
    (ha : At c (fin c) h ks (.entries this a)) (hs : Slot h parent this) (hh : Hint h ks parent hint')
    (hne : ∀ p, parent = some p → p.1 ≠ this) (hsp : split c Ext.t a.es (some x) hint' = some (some sp))
    (hn : KDTree.splitInsertP c x a sp = some n') :
    ∃ h' t' top, splitInsert c x h this parent = some (some (h', top)) ∧ t'.addr = top ∧
      Inserted c h ks (.entries this a) parent false n' h' t' (if parent = none then some top else none) := by
  obtain ⟨⟨extra, hg⟩, hf⟩ := ha
  rw [AT.addr] at hg
  simp only [cell, kidsOf, base, List.append_nil, List.length_nil, Nat.add_zero] at hg
  have hf : Fits c a := hf
  have hlen := split_length hl hsp
  obtain ⟨r1, s, r2, r3, q1, q2, q3, q4, q5, q6⟩ := right_ok hl hf hlen
  rw [KDTree.splitInsertP] at hn
  cases ho : Arr.ofRange c sp.le with
  | none => rw [ho] at hn; cases hn
  | some other =>
    rw [ho] at hn
    simp only at hn
    obtain ⟨o1, o2⟩ := ofRange_ofArr (sort_length hl) ho
    by_cases hself : (c.selfCopyUndefined && sp.le.isEmpty) = true
    · rw [if_pos hself] at hn; cases hn
    rw [if_neg hself] at hn
    generalize hgtA : Arr.recalculate c (⟨sortEntries c sp.gt, maxMask⟩ : Arr T) = gtA at hn q6
    have hft : Fits c gtA := by
      rw [← hgtA]
      exact fits_recalculate (by rw [sort_length hl]; have := hf.cap; omega)
    generalize hmask : lower c (lower c maxMask a.mask) x.mask = mask at hn
    have hfin : (if c.useTreeDivMask then some (combineAnd (combineAnd maxMask r1.mask) x.mask) else none) = fin c mask := by
      rw [← hmask, q2]; unfold fin lower; cases c.useTreeDivMask <;> rfl
    generalize hkid : (⟨fin c mask, some sp.var, some sp.exp, some this⟩ : Child) = kid
    generalize hnode : (⟨ofArr c other, ks ++ [kid], ks.length + 1⟩ : PNode T) = node
    generalize hcp : (alloc h node).2 = cp
    generalize hh1 : (alloc h node).1 = h1
    have a1 : get h1 cp = some node := by rw [← hh1, ← hcp]; exact alloc_get _ _
    have a2 : ∀ y, y ≠ cp → get h1 y = get h y := by rw [← hh1, ← hcp]; exact fun y hy => alloc_keep _ _ hy
    have a3 : get h cp = none := by rw [← hcp]; exact alloc_fresh _ _
    have htc : this ≠ cp := by rintro rfl; rw [a3] at hg; cases hg
    have hpar : ∀ p, parent = some p → p.1 ≠ cp ∧ ∃ n k, get h p.1 = some n ∧ n.children[p.2]? = some k := by
      rintro p rfl
      obtain ⟨n, k, s1, s2, s3⟩ := hs
      exact ⟨by { intro e; rw [e, a3] at s1; cases s1 }, n, k, s1, s2⟩
    obtain ⟨h2, d1, d2, d3⟩ := relink_ok (h := h1) (parent := parent) cp (fun p hp => by
      obtain ⟨e1, n, k, s1, s2⟩ := hpar p hp
      exact ⟨n, k, by rw [a2 _ e1]; exact s1, s2⟩)
    have ht2 : get h2 this = some ⟨ofArr c a, ks ++ extra, ks.length⟩ := by
      rw [d3 this (fun p hp e => hne p hp e.symm), a2 this htc]; exact hg
    have hc2 : get h2 cp = some node := by
      rw [d3 cp (fun p hp e => (hpar p hp).1 e.symm)]; exact a1
    obtain ⟨h3, b1, b2, b3⟩ := put_spec ht2 (⟨ofArr c gtA, ks ++ extra, 0⟩ : PNode T)
    have hc3 : get h3 cp = some ⟨ofArr c other, ks ++ [kid], ks.length + 1⟩ := by
      rw [b3 cp (Ne.symm htc), hc2, hnode]
    have other3 : ∀ y, y ≠ this → y ≠ cp → (∀ p, parent = some p → y ≠ p.1) → get h3 y = get h y := by
      intro y e1 e2 e3
      rw [b3 y e1, d3 y e3, a2 y e2]
    have hslot3 : Slot' h h3 parent cp := by
      intro p n k hp hg' hc
      rw [b3 p.1 (hne p hp)]
      exact d2 p n k hp (by rw [a2 _ (hpar p hp).1]; exact hg') hc
    have hcomp : splitInsert c x h this parent = (do
        let r ← getArr h3 (if inChild c sp.var sp.exp x.t then this else cp)
        let r ← r.insert c x
        let h ← putArr h3 (if inChild c sp.var sp.exp x.t then this else cp) r
        some (some (h, cp))) := by
      have hne' : (c.selfCopyUndefined && sp.le.isEmpty) = false := by simpa using hself
      rw [splitInsert, hg]
      simp only [Option.bind_eq_bind, Option.bind_some]
      rw [hint_ok hh]
      simp only [Option.bind_some, view_ofArr, hsp, q1, o1, kids_has, hfin, hkid, hnode, hcp, hh1, d1, hne', Bool.false_eq_true, if_false, q3, q4, q5, q6, b1]
    rw [hcomp]
    have fin_ok : ∀ (h6 : Heap (PNode T)) (ta oa : Arr T) (changed : Addr), changed = this ∨ changed = cp →
        (∀ y, y ≠ changed → get h6 y = get h3 y) → get h6 this = some ⟨ofArr c ta, ks ++ extra, 0⟩ →
        get h6 cp = some ⟨ofArr c oa, ks ++ [kid], ks.length + 1⟩ →
        Fits c ta → Fits c oa → n' = .split mask sp.var sp.exp (.entries oa) (.entries ta) →
        Inserted c h ks (.entries this a) parent false n' h6
          (.split cp mask sp.var sp.exp (.entries cp oa) (.entries this ta)) (if parent = none then some cp else none) := by
      intro h6 ta oa changed hch hk hgt hgo hf1 hf2 hn'
      have hpk : ∀ p, parent = some p → p.1 ≠ changed := by
        intro p hp
        rcases hch with rfl | rfl
        · exact hne p hp
        · exact (hpar p hp).1
      refine ⟨?_, ⟨⟨[], ?_⟩, rfl, ⟨ks ++ extra, ?_⟩, hf1, hf2⟩, ?_, ?_, ?_, ?_, ?_, ?_, ?_, fun hp => if_neg hp, nofun⟩
      · rw [hn']; rfl
      · rw [AT.addr, hgo]
        simp [cell, kidsOf, base, hkid, AT.addr]
      · rw [AT.addr, hgt]
        simp [cell, kidsOf, base]
      · simp only [addrs, List.singleton_append, List.nodup_cons, List.mem_cons, List.not_mem_nil, or_false, List.nodup_nil, not_false_eq_true, and_true]
        exact Ne.symm htc
      · intro y n hy hgy
        simp only [addrs, List.mem_append, Option.mem_toList, List.mem_singleton, not_or, Option.map_eq_some_iff, not_exists, not_and] at hy
        have e1 : y ≠ cp := by rintro rfl; rw [a3] at hgy; cases hgy
        have e2 : y ≠ changed := by rcases hch with rfl | rfl <;> [exact hy.2; exact e1]
        rw [hk y e2, other3 y hy.2 e1 (fun p hp e => hy.1 p hp e.symm)]; exact hgy
      · intro p n k hp hg' hc
        rw [hk p.1 (hpk p hp)]
        exact hslot3 p n k hp hg' hc
      · intro y n hy
        by_cases e1 : y = this
        · right; simp [addrs, e1]
        · by_cases e2 : y = cp
          · right; simp [addrs, e2]
          · left
            by_cases e4 : ∃ p, parent = some p ∧ y = p.1
            · obtain ⟨p, hp, rfl⟩ := e4
              obtain ⟨_, n, k, s1, _⟩ := hpar p hp
              exact ⟨n, s1⟩
            · have : y ≠ changed := by rcases hch with rfl | rfl <;> assumption
              rw [hk y this, other3 y e1 e2 (fun p hp e => e4 ⟨p, hp, e⟩)] at hy
              exact ⟨n, hy⟩
      · intro y hy
        simp only [addrs, List.singleton_append, List.mem_cons, List.not_mem_nil, or_false] at hy
        rcases hy with rfl | rfl
        · exact .inr a3
        · exact .inl (by simp [addrs])
      · intro y hy
        simp only [addrs, List.mem_singleton] at hy
        simp [addrs, hy]
      · intro hp
        rw [if_pos hp]; rfl
    by_cases hin : inChild c sp.var sp.exp x.t = true
    · rw [if_pos hin, Option.map_eq_some_iff] at hn
      obtain ⟨o', i1, i2⟩ := hn
      obtain ⟨j1, j2⟩ := insert_ofArr hft i1
      obtain ⟨h6, f1, f2, f3⟩ := put_spec b2 (⟨ofArr c o', ks ++ extra, 0⟩ : PNode T)
      refine ⟨h6, _, cp, ?_, ?_, fin_ok h6 o' other this (.inl rfl) f3 f2 ?_ j2 o2 i2.symm⟩
      · simp only [hin, if_true, Option.bind_eq_bind]
        rw [getArr, b2]
        simp only [Option.bind_some, Option.map_some, j1]
        rw [putArr, b2]
        simp only [Option.bind_eq_bind, Option.bind_some, f1]
      · rfl
      · rw [f3 cp (Ne.symm htc)]; exact hc3
    · rw [if_neg hin, Option.map_eq_some_iff] at hn
      obtain ⟨o', i1, i2⟩ := hn
      obtain ⟨j1, j2⟩ := insert_ofArr o2 i1
      obtain ⟨h6, f1, f2, f3⟩ := put_spec hc3 (⟨ofArr c o', ks ++ [kid], ks.length + 1⟩ : PNode T)
      refine ⟨h6, _, cp, ?_, ?_, fin_ok h6 gtA o' cp (.inr rfl) f3 ?_ f2 hft j2 i2.symm⟩
      · simp only [hin, Bool.false_eq_true, if_false, Option.bind_eq_bind]
        rw [getArr, hc3]
        simp only [Option.bind_some, Option.map_some, j1]
        rw [putArr, hc3]
        simp only [Option.bind_eq_bind, Option.bind_some, f1]
      · rfl
      · rw [f3 this htc]; exact b2

theorem lower_child {m x : Mask} {v : Option ℕ} {e : Option ℤ} {n : Option Addr} :
    lowerChild c ⟨fin c m, v, e, n⟩ x = some ⟨fin c (lower c m x), v, e, n⟩ := by
  unfold lowerChild fin lower
  cases c.useTreeDivMask <;> rfl

theorem insertNode_ok (hl : c.Lawful) (hpk : c.packed = true) {x : Ext T} {b : Bool} : ∀ (t : AT T) {h : Heap (PNode T)}
    {ks : List Child} {parent : Option (Addr × ℕ)} {hint : Option ℕ} {n' : Node T}, At c (fin c) h ks t → (addrs t).Nodup →
    Slot h parent t.addr → Hint h ks parent hint → (∀ p, parent = some p → p.1 ∉ addrs t) →
    KDTree.insertNode c x hint t.erase = some (b, n') →
    ∃ h' t' top, (insertWalk c x h t.addr ks.length parent).bind (finish c x) = some (b, h', top) ∧
      Inserted c h ks t parent b n' h' t' top := by
  intro t
  induction t with
  | entries leaf a =>
    intro h ks parent hint n' hh hn hs hhint hpar hi
    have hne : ∀ p, parent = some p → p.1 ≠ leaf := by
      rintro p hp rfl
      exact hpar p hp (by simp [addrs])
    have hh' := hh
    obtain ⟨⟨extra, hg⟩, hf⟩ := hh
    have hf : Fits c a := hf
    rw [AT.addr] at hg
    simp only [cell, kidsOf, base, List.append_nil, List.length_nil, Nat.add_zero] at hg
    have hw : insertWalk c x h leaf ks.length parent = some (h, leaf, parent) := by
      rw [insertWalk, hg]; simp
    rw [AT.addr, hw]
    simp only [Option.bind_some, finish]
    have hga : getArr h leaf = some (ofArr c a) := by rw [getArr, hg]; rfl
    rw [hga]
    simp only [Option.bind_eq_bind, Option.bind_some]
    rw [AT.erase, KDTree.insertNode] at hi
    by_cases hfull : a.es.length = c.leafSize
    · rw [if_pos hfull] at hi
      rw [if_neg (show ¬ (ofArr c a).len < c.leafSize by show ¬ a.es.length < c.leafSize; omega)]
      cases hsp : split c Ext.t a.es (some x) hint with
      | none => rw [hsp] at hi; cases hi
      | some r =>
        cases r with
        | none =>
          rw [hsp] at hi
          cases hi
          have hsi : splitInsert c x h leaf parent = some none := by
            rw [splitInsert, hg]
            simp only [Option.bind_eq_bind, Option.bind_some]
            rw [hint_ok hhint]
            simp only [Option.bind_some, view_ofArr, hsp]
          rw [hsi]
          exact ⟨h, .entries leaf a, none, rfl, rfl, hh', hn, Keep.refl _ _, slot_same hs (fun _ _ _ hg => hg),
            fun y n hy => .inl ⟨n, hy⟩, fun y hy => .inl hy, fun y hy => hy, fun _ => rfl, fun _ => rfl, fun _ => rfl⟩
        | some sp =>
          rw [hsp] at hi
          simp only [hpk, if_true, Option.map_eq_some_iff, Prod.mk.injEq] at hi
          obtain ⟨n, hi1, rfl, rfl⟩ := hi
          obtain ⟨h', t', top, g1, g2, g3⟩ := splitInsert_ok hl hh' hs hhint hne hsp hi1
          rw [g1]
          exact ⟨h', t', _, rfl, g3⟩
    · rw [if_neg hfull] at hi
      rw [if_pos (show (ofArr c a).len < c.leafSize by show a.es.length < c.leafSize; have := hf.cap; omega)]
      rw [Option.map_eq_some_iff] at hi
      obtain ⟨a', hi1, hi2⟩ := hi
      cases hi2
      obtain ⟨j1, j2⟩ := insert_ofArr hf hi1
      obtain ⟨h', g1, g2, g3⟩ := put_spec hg (⟨ofArr c a', ks ++ extra, ks.length⟩ : PNode T)
      rw [j1]
      simp only [Option.bind_some]
      have hpa : putArr h leaf (ofArr c a') = some h' := by rw [putArr, hg]; exact g1
      rw [hpa]
      refine ⟨h', .entries leaf a', none, rfl, rfl, ⟨⟨extra, ?_⟩, j2⟩, hn, ?_, ?_, ?_, fun y hy => .inl hy, fun y hy => hy, fun _ => rfl, fun _ => rfl, nofun⟩
      · rw [AT.addr, g2]; simp [cell, kidsOf, base]
      · intro y n hy hg
        simp only [addrs, List.mem_append, List.mem_singleton, not_or] at hy
        rw [g3 y hy.2]; exact hg
      · refine slot_same hs (fun p n hp hg => ?_)
        rw [g3 p.1 (hne p hp)]; exact hg
      · intro y n hy
        by_cases hyl : y = leaf
        · exact .inr (by simp [addrs, hyl])
        · rw [g3 y hyl] at hy; exact .inl ⟨n, hy⟩
  | split nd m v e le gt ih1 ih2 =>
    intro h ks parent hint n' hh hn hs hhint hpar hi
    have hle := at_le hh
    have hgt := at_gt hh
    obtain ⟨⟨extra, hg⟩, hnd, _⟩ := hh
    rw [AT.addr] at hg
    rw [addrs, List.nodup_append] at hn
    obtain ⟨n2, n3, n4⟩ := hn
    have hndle : nd ∈ addrs le := by rw [hnd]; exact addr_mem hle.2
    have hndgt : nd ∉ addrs gt := fun hy => n4 _ hndle _ hy rfl
    have hne : ∀ p, parent = some p → p.1 ≠ nd := by
      rintro p hp rfl
      exact hpar p hp (by simp [addrs, hndle])
    generalize hkid : (⟨fin c (lower c m x.mask), some v, some e, some gt.addr⟩ : Child) = kid
    have hchild : (cell c (fin c) ks (.split nd m v e le gt) extra).children[ks.length]? =
        some ⟨fin c m, some v, some e, some gt.addr⟩ := by
      simp [cell, kidsOf]
    have hset : (cell c (fin c) ks (.split nd m v e le gt) extra).children.set ks.length kid =
        ks ++ [kid] ++ kidsOf (fin c) le ++ extra := by
      simp [cell, kidsOf]
    obtain ⟨h1, p1, p2, p3⟩ := putChild_ok hg hchild kid
    rw [hset] at p2
    have p2' : get h1 nd = some (cell c (fin c) (ks ++ [kid]) le extra) := by
      rw [p2]; simp [cell, kidsOf, base, Nat.add_assoc, Nat.add_comm]
    have hw : insertWalk c x h nd ks.length parent = if inChild c v e x.t then insertWalk c x h1 gt.addr 0 (some (nd, ks.length))
        else insertWalk c x h1 nd (ks.length + 1) parent := by
      conv_lhs => rw [insertWalk, hg]
      simp only [Option.bind_eq_bind, Option.bind_some]
      rw [if_neg (by simp [cell, kidsOf])]
      simp only [getChild, hg, Option.bind_eq_bind, Option.bind_some, hchild, lower_child, hkid, p1]
      rw [← hkid]
      simp only [inKid, Option.bind_eq_bind, Option.bind_some]
    rw [AT.addr, hw]
    have hle1 : At c (fin c) h1 (ks ++ [kid]) le := by
      refine ⟨⟨extra, by rw [← hnd]; exact p2'⟩, gts_keep hle.2 (fun y hy n hgy => ?_)⟩
      rw [p3 y]
      · exact hgy
      · rintro rfl
        rw [addrs_eq hle.2, List.nodup_cons] at n2
        exact n2.1 (hnd ▸ hy)
    have hgt1 : At c (fin c) h1 [] gt := at_keep hgt (fun y hy n hgy => by
      rw [p3 y (by rintro rfl; exact hndgt hy)]; exact hgy)
    have hparent : ∀ p n, parent = some p → get h p.1 = some n → get h1 p.1 = some n := by
      intro p n hp hgp
      rw [p3 p.1 (hne p hp)]; exact hgp
    have hback : ∀ p n, parent = some p → get h1 p.1 = some n → get h p.1 = some n := by
      intro p n hp hgp
      rw [← p3 p.1 (hne p hp)]; exact hgp
    have hfr : ∀ y, get h1 y = none → get h y = none := by
      intro y hy
      rw [← p3 y (by rintro rfl; rw [p2'] at hy; cases hy)]; exact hy
    rw [AT.erase, KDTree.insertNode] at hi
    by_cases hin : inChild c v e x.t = true
    · rw [if_pos hin, Option.map_eq_some_iff] at hi
      obtain ⟨⟨b', ng⟩, hi1, hi2⟩ := hi
      cases hi2
      rw [if_pos hin]
      have hk1 : (cell c (fin c) (ks ++ [kid]) le extra).children[ks.length]? = some kid := by simp [cell]
      obtain ⟨h2, t2, top, r1, r2⟩ := ih2 (h := h1) (ks := []) (parent := some (nd, ks.length)) (hint := some v) hgt1 n3
        ⟨_, _, p2', hk1, by rw [← hkid]⟩ (.parent _ _ _ _ p2' hk1 (by rw [← hkid]))
        (by rintro p ⟨⟩ hp; exact hndgt hp) hi1
      have hnd2 := r2.slot (nd, ks.length) _ _ rfl p2' hk1
      have hle2 : At c (fin c) h2 (ks ++ [⟨fin c (lower c m x.mask), some v, some e, some t2.addr⟩]) le := by
        refine ⟨⟨extra, ?_⟩, gts_keep hle1.2 (fun y hy n hgy => r2.keep y n ?_ hgy)⟩
        · rw [← hnd]
          refine hnd2.trans ?_
          rw [← hkid]
          simp [cell]
        · simp only [Option.map_some, Option.toList_some, List.singleton_append, List.mem_cons, not_or]
          rw [addrs_eq hle.2, List.nodup_cons] at n2
          exact ⟨by rintro rfl; exact n2.1 (hnd ▸ hy), fun hy' => n4 y (rest_sub hle.2 y hy) y hy' rfl⟩
      have hfr2 : ∀ y ∈ addrs t2, y ∈ addrs gt ∨ get h y = none := by
        intro y hy
        rcases r2.fresh y hy with h' | h'
        · exact .inl h'
        · exact .inr (hfr y h')
      refine ⟨h2, .split nd (lower c m x.mask) v e le t2, none, ?_, ?_, at_split hnd hle2 r2.holds, ?_, ?_, ?_, ?_, ?_, ?_, fun _ => rfl, fun _ => rfl, ?_⟩
      · rw [List.length_nil] at r1
        rw [r1, r2.noRoot nofun]
      · rw [AT.erase, r2.erase]
      · rw [addrs, List.nodup_append]
        refine ⟨n2, r2.nodup, ?_⟩
        rintro y hy _ hy' rfl
        rcases hfr2 y hy' with h' | h'
        · exact n4 y hy y h' rfl
        · obtain ⟨n, hgy⟩ := at_live hle y hy
          rw [hgy] at h'; cases h'
      · intro y n hy hgy
        simp only [addrs, List.mem_append, not_or] at hy
        have hyn : y ≠ nd := by rintro rfl; exact hy.2.1 hndle
        refine r2.keep y n ?_ (by rw [p3 y hyn]; exact hgy)
        simp [hyn, hy.2.2]
      · refine slot_same hs (fun p n hp hgp => r2.keep p.1 n ?_ (hparent p n hp hgp))
        have := hpar p hp
        simp only [addrs, List.mem_append, not_or] at this
        simp [hne p hp, this.2]
      · intro y n hy
        rcases r2.cover y n hy with ⟨n', h'⟩ | h'
        · by_cases hyn : y = nd
          · right; simp [addrs, hyn, hndle]
          · rw [p3 y hyn] at h'; exact .inl ⟨n', h'⟩
        · right; simp [addrs, h']
      · intro y hy
        simp only [addrs, List.mem_append] at hy ⊢
        rcases hy with hy | hy
        · exact .inl (.inl hy)
        · rcases hfr2 y hy with h' | h'
          · exact .inl (.inr h')
          · exact .inr h'
      · intro y hy
        simp only [addrs, List.mem_append] at hy ⊢
        rcases hy with hy | hy
        · exact .inl hy
        · exact .inr (r2.sub y hy)
      · intro hb
        funext q
        cases q with
        | nil => rfl
        | cons d q => cases d <;> simp [AT.loc, r2.loc hb]
    · rw [if_neg hin, Option.map_eq_some_iff] at hi
      obtain ⟨⟨b', ng⟩, hi1, hi2⟩ := hi
      cases hi2
      rw [if_neg hin]
      have hs1 : Slot h1 parent le.addr := by
        cases parent with
        | none => trivial
        | some p =>
          obtain ⟨n, k, s1, s2, s3⟩ := hs
          exact ⟨n, k, hparent p n rfl s1, s2, by rw [s3, AT.addr, hnd]⟩
      obtain ⟨h2, t2, top, r1, r2⟩ := ih1 (h := h1) (ks := ks ++ [kid]) (parent := parent) (hint := some v) hle1 n2
        hs1 (.last _ _ _ _ (by rw [← hkid])) (by
          intro p hp hy
          exact hpar p hp (by simp [addrs, hy])) hi1
      have hfr2 : ∀ y ∈ addrs t2, y ∈ addrs le ∨ get h y = none := by
        intro y hy
        rcases r2.fresh y hy with h' | h'
        · exact .inl h'
        · exact .inr (hfr y h')
      have hgt2 : At c (fin c) h2 [] gt := at_keep hgt1 (fun y hy n hgy => r2.keep y n (by
        simp only [List.mem_append, Option.mem_toList, Option.map_eq_some_iff, not_or, not_exists, not_and]
        exact ⟨fun p hp e => hpar p hp (by simp [addrs, e, hy]), fun hy' => n4 y hy' y hy rfl⟩) hgy)
      refine ⟨h2, .split t2.addr (lower c m x.mask) v e t2 gt, top, ?_, ?_, at_split rfl ?_ hgt2, ?_, ?_, ?_, ?_, ?_, ?_, ?_, r2.noRoot, ?_⟩
      · rw [hnd]
        rw [List.length_append] at r1
        exact r1
      · rw [AT.erase, r2.erase]
      · rw [hkid]; exact r2.holds
      · rw [addrs, List.nodup_append]
        refine ⟨r2.nodup, n3, ?_⟩
        rintro y hy' _ hy rfl
        rcases hfr2 y hy' with h' | h'
        · exact n4 y h' y hy rfl
        · obtain ⟨n, hgy⟩ := at_live hgt y hy
          rw [hgy] at h'; cases h'
      · intro y n hy hgy
        simp only [addrs, List.mem_append, not_or] at hy
        have hyn : y ≠ nd := by rintro rfl; exact hy.2.1 hndle
        refine r2.keep y n ?_ (by rw [p3 y hyn]; exact hgy)
        simp only [List.mem_append, not_or]
        exact ⟨hy.1, hy.2.1⟩
      · intro p n k hp hgp hc
        exact r2.slot p n k hp (hparent p n hp hgp) hc
      · intro y n hy
        rcases r2.cover y n hy with ⟨n', h'⟩ | h'
        · by_cases hyn : y = nd
          · right; simp [addrs, hyn, r2.sub nd hndle]
          · rw [p3 y hyn] at h'; exact .inl ⟨n', h'⟩
        · right; simp [addrs, h']
      · intro y hy
        simp only [addrs, List.mem_append] at hy ⊢
        rcases hy with hy | hy
        · rcases hfr2 y hy with h' | h'
          · exact .inl (.inl h')
          · exact .inr h'
        · exact .inl (.inr hy)
      · intro y hy
        simp only [addrs, List.mem_append] at hy ⊢
        rcases hy with hy | hy
        · exact .inl (r2.sub y hy)
        · exact .inr hy
      · intro hp
        rw [AT.addr, AT.addr, hnd]
        exact r2.root hp
      · intro hb
        funext q
        cases q with
        | nil => rw [AT.loc, AT.loc, ← AT.loc_nil, r2.loc hb, AT.loc_nil, hnd]
        | cons d q => cases d <;> simp [AT.loc, r2.loc hb]

theorem insert_ok (hl : c.Lawful) (hpk : c.packed = true) {h : Heap (PNode T)} {t : Option (AT T)} {x : Ext T} {b : Bool}
    {n' : Node T} (hm : MemRoot (Holds c (fin c)) addrs h t)
    (hi : KDTree.insertNode c x none ((t.map AT.erase).getD (.entries Arr.empty)) = some (b, n')) :
    ∃ h' t', insert c ⟨h, t.map AT.addr, []⟩ x = some (b, ⟨h', some t'.addr, []⟩) ∧ Mem (Holds c (fin c)) addrs h' t' ∧
      t'.erase = n' ∧ (b = true → ∀ t₀, t = some t₀ → t'.loc = t₀.loc) := by
  have key : ∀ (h : Heap (PNode T)) (t : AT T), Mem (Holds c (fin c)) addrs h t →
      KDTree.insertNode c x none t.erase = some (b, n') →
      ∃ h' t', insert c ⟨h, some t.addr, []⟩ x = some (b, ⟨h', some t'.addr, []⟩) ∧ Mem (Holds c (fin c)) addrs h' t' ∧
        t'.erase = n' ∧ (b = true → t'.loc = t.loc) := by
    intro h t hm hi
    obtain ⟨h', t', top, g1, g2⟩ := insertNode_ok hl hpk t (ks := []) (parent := none) hm.holds hm.nodup trivial .root nofun hi
    refine ⟨h', t', ?_, ⟨g2.holds, g2.nodup, ?_⟩, g2.erase, g2.loc⟩
    · rw [List.length_nil] at g1
      rw [insert_eq, g1]
      simp only [Option.map_some]
      rw [g2.root rfl]
    · intro y n hy
      rcases g2.cover y n hy with ⟨n', h'⟩ | h'
      · exact g2.sub y (hm.cover y n' h')
      · exact h'
  cases t with
  | some t =>
    obtain ⟨h', t', g1, g2, g3, g4⟩ := key h t hm hi
    exact ⟨h', t', g1, g2, g3, fun hb t₀ h0 => by cases h0; exact g4 hb⟩
  | none =>
    have hnone : ∀ y, get h y = none := hm
    generalize hnode : make (RArr.new c) 0 = node
    generalize hxa : (alloc h node).2 = xa
    generalize hh1 : (alloc h node).1 = h1
    have a1 : get h1 xa = some node := by rw [← hh1, ← hxa]; exact alloc_get _ _
    have a2 : ∀ y, y ≠ xa → get h1 y = get h y := by rw [← hh1, ← hxa]; exact fun y hy => alloc_keep _ _ hy
    have hmem : Mem (Holds c (fin c)) addrs h1 (.entries xa Arr.empty) := by
      refine ⟨⟨⟨[⟨none, none, none, none⟩], ?_⟩, fits_empty⟩, by simp [addrs], ?_⟩
      · rw [AT.addr, a1, ← hnode, make, ofArr_new]; simp [cell, kidsOf, base]
      · intro y n hy
        by_cases hyx : y = xa
        · simp [addrs, hyx]
        · rw [a2 y hyx, hnone] at hy; cases hy
    obtain ⟨h', t', g1, g2, g3, g4⟩ := key h1 _ hmem hi
    refine ⟨h', t', ?_, g2, g3, fun _ _ => nofun⟩
    rw [← g1]
    simp only [insert, Option.map_none, hnode, hxa, hh1, AT.addr]

end Verif.KDMem.Packed
