import Verif.KDMemBinaryProofs

/-!
# Lemmas on binary KD trees in memory: `clear` and `reset`
-/

namespace Verif.KDMem.Binary

open Verif.DivMask (Ext Bits Mask combineAnd canDivide maxMask)
open Verif.KDTree (Conf Flow Arr Split Kind Node Path lower inChild sortEntries split)

variable {T : Type} {c : Conf T}

theorem insert_ok (hl : c.Lawful) (hpk : c.packed = false) {h : Heap (BNode T)} {t : Option (AT T)} {x : Ext T} {b : Bool}
    {n' : Node T} (hm : MemRoot (Holds c (fin c)) addrs h t)
    (hi : KDTree.insertNode c x none ((t.map AT.erase).getD (.entries Arr.empty)) = some (b, n')) :
    ∃ h' t', insert c ⟨h, t.map AT.addr, []⟩ x = some (b, ⟨h', some t'.addr, []⟩) ∧ Mem (Holds c (fin c)) addrs h' t' ∧
      t'.erase = n' ∧ (b = true → ∀ t₀, t = some t₀ → t'.loc = t₀.loc) := by
  have key : ∀ (h : Heap (BNode T)) (t : AT T), Mem (Holds c (fin c)) addrs h t →
      KDTree.insertNode c x none t.erase = some (b, n') →
      ∃ h' t', insert c ⟨h, some t.addr, []⟩ x = some (b, ⟨h', some t'.addr, []⟩) ∧ Mem (Holds c (fin c)) addrs h' t' ∧
        t'.erase = n' ∧ (b = true → t'.loc = t.loc) := by
    intro h t hm hi
    obtain ⟨h', t', top, g1, g2⟩ := insertNode_ok hl hpk t (parent := none) (side := false) hm.holds hm.nodup rfl nofun hi
    refine ⟨h', t', ?_, ⟨g2.holds, g2.nodup, ?_⟩, g2.erase, g2.loc⟩
    · rw [insert_eq, g1]
      simp only [Option.map_some]
      rw [g2.root rfl]
    · intro y n hy
      rcases g2.cover y n hy with ⟨n', h'⟩ | h'
      · exact g2.sub y (hm.cover y n' h')
      · exact h'
  cases t with
  | some t =>
    obtain ⟨h', t', g1, g2, g3, g4⟩ := key h t hm hi
    exact ⟨h', t', g1, g2, g3, fun hb t₀ h0 => by cases h0; exact g4 hb⟩
  | none =>
    have hnone : ∀ y, get h y = none := hm
    generalize hxa : (alloc h (BNode.leaf (RArr.new c))).2 = xa
    generalize hh1 : (alloc h (BNode.leaf (RArr.new c))).1 = h1
    have a1 : get h1 xa = some (.leaf (RArr.new c)) := by rw [← hh1, ← hxa]; exact alloc_get _ _
    have a2 : ∀ y, y ≠ xa → get h1 y = get h y := by rw [← hh1, ← hxa]; exact fun y hy => alloc_keep _ _ hy
    have hmem : Mem (Holds c (fin c)) addrs h1 (.entries xa Arr.empty) := by
      refine ⟨⟨?_, fits_empty⟩, by simp [addrs], ?_⟩
      · rw [a1, ofArr_new]
      · intro y n hy
        by_cases hyx : y = xa
        · simp [addrs, hyx]
        · rw [a2 y hyx, hnone] at hy; cases hy
    obtain ⟨h', t', g1, g2, g3, g4⟩ := key h1 _ hmem hi
    refine ⟨h', t', ?_, g2, g3, fun _ _ => nofun⟩
    rw [← g1]
    simp only [insert, Option.map_none, hxa, hh1, AT.addr]

/-! ## `clear` -/

/-- The number of nodes of a list of trees. -/
def sizes (ts : List (AT T)) : ℕ := (ts.map AT.size).sum

theorem clearLoop_split {h : Heap (BNode T)} {x : Addr} {m : Mask} {v : ℕ} {e : ℤ} {l g : Addr} {tmp : List Addr}
    (hg : get h x = some (.interior m v e (some l) (some g))) : clearLoop h (x :: tmp) = clearLoop h (l :: g :: tmp) := by
  conv_lhs => rw [clearLoop]
  conv_rhs => rw [clearLoop]
  simp only
  rw [expandAll, hg]
  rfl

theorem clearLoop_ok {mk : Mask → Mask} : ∀ (k : ℕ) (ts : List (AT T)) (h : Heap (BNode T)), sizes ts = k →
    (∀ t ∈ ts, Holds c mk h t) → (ts.flatMap addrs).Nodup →
    ∃ h', clearLoop h (ts.map AT.addr) = some h' ∧
      (∀ y ∈ ts.flatMap addrs, ∀ n, get h' y = some n → ∀ s ∈ slots n, s = none) ∧
      (∀ y, y ∉ ts.flatMap addrs → get h' y = get h y) := by
  intro k
  induction k using Nat.strong_induction_on with
  | _ k ih =>
    intro ts h hk hh hn
    cases ts with
    | nil => exact ⟨h, by rw [List.map_nil, clearLoop], nofun, fun _ _ => rfl⟩
    | cons t ts =>
      rw [List.flatMap_cons] at hn
      cases t with
      | entries x a =>
        have hx := hh _ (by simp : AT.entries x a ∈ _)
        simp only [addrs, List.singleton_append, List.nodup_cons] at hn
        have hpop : (ofArr c a).popWhile 0 = some (ofArr c { a with es := [] }) := by
          rw [popWhile_ofArr a.es.length hx.2 (by omega)]; rfl
        obtain ⟨h1, p1, p2, p3⟩ := put_spec hx.1 (BNode.leaf (ofArr c { a with es := [] }))
        obtain ⟨h2, g1, g2, g3⟩ := ih (sizes ts) (by rw [← hk]; simp [sizes, AT.size]) ts h1 rfl (fun t ht => by
          refine holds_keep (hh t (by simp [ht])) (fun y hy n hg => ?_)
          rw [p3 y (by rintro rfl; exact hn.1 (List.mem_flatMap.mpr ⟨t, ht, hy⟩))]; exact hg) hn.2
        refine ⟨h2, ?_, ?_, ?_⟩
        · rw [List.map_cons, AT.addr, clearLoop]
          simp only
          rw [expandAll, hx.1]
          simp only [Option.bind_eq_bind, Option.bind_some]
          rw [getArr, hx.1]
          simp only [Option.bind_some, hpop]
          rw [putArr, hx.1]
          simp only [p1, Option.bind_some]
          exact g1
        · intro y hy n hgy
          simp only [List.flatMap_cons, addrs, List.singleton_append, List.mem_cons] at hy
          by_cases hyt : y ∈ ts.flatMap addrs
          · exact g2 y hyt n hgy
          · have hyx : y = x := hy.resolve_right hyt
            rw [g3 y hyt, hyx, p2] at hgy
            cases hgy
            exact raw_nil_none _
        · intro y hy
          simp only [List.flatMap_cons, addrs, List.singleton_append, List.mem_cons, not_or] at hy
          rw [g3 y hy.2, p3 y hy.1]
      | split x m v e le gt =>
        have hx := hh _ (by simp : AT.split x m v e le gt ∈ _)
        simp only [addrs, List.cons_append, List.nodup_cons, List.append_assoc] at hn
        obtain ⟨h2, g1, g2, g3⟩ := ih (sizes (le :: gt :: ts)) (by rw [← hk]; simp [sizes, AT.size]; omega) (le :: gt :: ts) h rfl
          (fun t ht => by
            rcases List.mem_cons.mp ht with rfl | ht
            · exact hx.2.1
            · rcases List.mem_cons.mp ht with rfl | ht
              · exact hx.2.2
              · exact hh t (by simp [ht])) (by simpa using hn.2)
        simp only [List.flatMap_cons] at g2 g3
        refine ⟨h2, ?_, ?_, ?_⟩
        · rw [List.map_cons, AT.addr, clearLoop_split hx.1]; exact g1
        · intro y hy n hgy
          simp only [List.flatMap_cons, addrs, List.cons_append, List.mem_cons, List.append_assoc] at hy
          by_cases hyt : y ∈ addrs le ++ (addrs gt ++ ts.flatMap addrs)
          · exact g2 y hyt n hgy
          · have hyx : y = x := hy.resolve_right hyt
            rw [g3 y hyt, hyx, hx.1] at hgy
            cases hgy
            exact nofun
        · intro y hy
          simp only [List.flatMap_cons, addrs, List.cons_append, List.mem_cons, not_or, List.append_assoc] at hy
          exact g3 y hy.2

theorem clear_ok {mk : Mask → Mask} {h : Heap (BNode T)} {t : Option (AT T)} (hm : MemRoot (Holds c mk) addrs h t) :
    ∃ h', clear c ⟨h, t.map AT.addr, []⟩ = some ⟨h', none, []⟩ ∧ ∀ y, get h' y = none := by
  have key : ∃ h1, clearLoop h (t.map AT.addr).toList = some h1 ∧ ∀ y n, get h1 y = some n → ∀ s ∈ slots n, s = none := by
    cases t with
    | none =>
      refine ⟨h, by rw [Option.map_none, Option.toList_none, clearLoop], ?_⟩
      intro y n hy
      have : get h y = none := hm y
      rw [this] at hy; cases hy
    | some t =>
      obtain ⟨h1, g1, g2, g3⟩ := clearLoop_ok (c := c) (mk := mk) _ [t] h rfl (by simpa using hm.holds) (by simpa using hm.nodup)
      refine ⟨h1, g1, ?_⟩
      intro y n hy
      by_cases hya : y ∈ [t].flatMap addrs
      · exact g2 y hya n hy
      · rw [g3 y hya] at hy
        exact absurd (by simpa using hm.cover y n hy) hya
  obtain ⟨h1, k1, k2⟩ := key
  obtain ⟨h2, f1, f2⟩ := freeAll_ok k2
  refine ⟨h2, ?_, f2⟩
  rw [clear]
  simp only [List.append_nil, k1, Option.bind_eq_bind, Option.bind_some, f1]

/-! ## The loop of `reset` -/

/-- The masks before they are computed. -/
abbrev unset : Mask → Mask := fun _ => maxMask

/-- What the loop does with the next task. -/
def resume (c : Conf T) (bits : Bits) (h : Heap (BNode T)) (root : Option Addr) :
    List (List T × Addr) → Option (Bool × Heap (BNode T) × Option Addr)
  | [] => some (false, h, root)
  | (l, p) :: todo => resetLoop c bits h root l (some p) false todo

/-- The parent of a range. -/
def RSlot (h : Heap (BNode T)) (parent : Option Addr) (hint : Option ℕ) : Prop :=
  match parent with
  | none => hint = none
  | some p => ∃ m v e l g, get h p = some (.interior m v e l g) ∧ hint = some v

/-- The parent afterwards. -/
def RSlot' (h h' : Heap (BNode T)) (parent : Option Addr) (isLE : Bool) (new : Addr) : Prop :=
  ∀ p m v e l g, parent = some p → get h p = some (.interior m v e l g) →
    get h' p = some (if isLE then .interior m v e (some new) g else .interior m v e l (some new))

theorem link_ok {h : Heap (BNode T)} {root parent : Option Addr} {hint : Option ℕ} (hs : RSlot h parent hint) (isLE : Bool)
    (node : Addr) : ∃ h', link h root parent isLE node = some (h', if parent = none then some node else root) ∧
      RSlot' h h' parent isLE node ∧ ∀ y, parent ≠ some y → get h' y = get h y := by
  cases parent with
  | none => exact ⟨h, rfl, nofun, fun _ _ => rfl⟩
  | some p =>
    obtain ⟨m, v, e, l, g, h1, h2⟩ := hs
    obtain ⟨h', g1, g2, g3⟩ := put_spec h1 (if isLE then BNode.interior m v e (some node) g else .interior m v e l (some node))
    refine ⟨h', ?_, ?_, fun y hy => g3 y (fun e => hy (e ▸ rfl))⟩
    · rw [link, h1]
      simp only [g1, Option.map_some]
      rfl
    · rintro _ m' v' e' l' g' ⟨⟩ hg
      rw [h1] at hg; cases hg
      exact g2

theorem hint_reset {h : Heap (BNode T)} {parent : Option Addr} {hint' : Option ℕ} (hs : RSlot h parent hint') :
    hint h parent = some hint' := by
  cases parent with
  | none => rw [hint, hs]
  | some p =>
    obtain ⟨m, v, e, l, g, h1, h2⟩ := hs
    rw [hint, h1, h2]

/-- What the loop leaves of a range. -/
structure Made (c : Conf T) (h : Heap (BNode T)) (parent : Option Addr) (isLE : Bool) (n : Node T) (h' : Heap (BNode T))
    (t : AT T) : Prop where
  erase : t.erase = n
  holds : Holds c unset h' t
  nodup : (addrs t).Nodup
  fresh : ∀ y ∈ addrs t, get h y = none
  keep : Keep h h' parent.toList
  cover : Cover h h' (addrs t)
  slot : RSlot' h h' parent isLE t.addr

theorem resetLoop_ok (hl : c.Lawful) {bits : Bits} : ∀ (k : ℕ) (l : List T), l.length = k → ∀ (h : Heap (BNode T))
    (root parent : Option Addr) (isLE : Bool) (todo : List (List T × Addr)) (hint : Option ℕ) (n : Node T),
    RSlot h parent hint → KDTree.build c bits l hint = some (some n) →
    ∃ h' t, resetLoop c bits h root l parent isLE todo = resume c bits h' (if parent = none then some t.addr else root) todo ∧
      Made c h parent isLE n h' t := by
  intro k
  induction k using Nat.strong_induction_on with
  | _ k ih =>
    intro l hk h root parent isLE todo hint n hs hb
    have hplive : ∀ p, parent = some p → ∃ n, get h p = some n := by
      rintro p rfl
      obtain ⟨m, v, e, l, g, h1, h2⟩ := hs
      exact ⟨_, h1⟩
    rw [KDTree.build] at hb
    rw [resetLoop]
    by_cases hlen : l.length ≤ c.leafSize
    · rw [if_pos hlen] at hb ⊢
      rw [Option.map_eq_some_iff] at hb
      obtain ⟨a, ha, hn⟩ := hb
      cases hn
      obtain ⟨o1, o2⟩ := ofRange_ofArr (sort_length hl) ha
      rw [o1]
      simp only [Option.bind_eq_bind, Option.bind_some]
      generalize hxa : (alloc h (BNode.leaf (ofArr c a))).2 = xa
      generalize hh1 : (alloc h (BNode.leaf (ofArr c a))).1 = h1
      have a1 : get h1 xa = some (.leaf (ofArr c a)) := by rw [← hh1, ← hxa]; exact alloc_get _ _
      have a2 : ∀ y, y ≠ xa → get h1 y = get h y := by rw [← hh1, ← hxa]; exact fun y hy => alloc_keep _ _ hy
      have a3 : get h xa = none := by rw [← hxa]; exact alloc_fresh _ _
      have hpx : ∀ p, parent = some p → p ≠ xa := by
        rintro p hp rfl
        obtain ⟨n, hn⟩ := hplive p hp
        rw [a3] at hn; cases hn
      have hs1 : RSlot h1 parent hint := by
        cases parent with
        | none => exact hs
        | some p =>
          obtain ⟨m, v, e, l, g, q1, q2⟩ := hs
          exact ⟨m, v, e, l, g, by rw [a2 p (hpx p rfl)]; exact q1, q2⟩
      obtain ⟨h2, l1, l2, l3⟩ := link_ok (root := root) hs1 isLE xa
      rw [l1]
      simp only [Option.bind_some]
      have hx2 : get h2 xa = some (.leaf (ofArr c a)) := by rw [l3 xa (fun e => hpx xa e rfl)]; exact a1
      refine ⟨h2, .entries xa a, ?_, rfl, ⟨hx2, o2⟩, by simp [addrs], ?_, ?_, ?_, ?_⟩
      · cases todo <;> rfl
      · intro y hy
        simp only [addrs, List.mem_singleton] at hy
        rw [hy]; exact a3
      · intro y n hy hg
        rw [l3 y (by rintro rfl; simp at hy), a2 y (by rintro rfl; rw [a3] at hg; cases hg)]; exact hg
      · intro y n hy
        by_cases hyx : y = xa
        · exact .inr (by simp [addrs, hyx])
        · left
          by_cases hp : parent = some y
          · exact hplive y hp
          · rw [l3 y hp, a2 y hyx] at hy; exact ⟨n, hy⟩
      · intro p m v e l g hp hg
        exact l2 p m v e l g hp (by rw [a2 p (hpx p hp)]; exact hg)
    · rw [if_neg hlen] at hb ⊢
      rw [hint_reset hs]
      simp only [Option.bind_eq_bind, Option.bind_some]
      cases hsp : split c id l none hint with
      | none => rw [hsp] at hb; cases hb
      | some q =>
        cases q with
        | none => rw [hsp] at hb; cases hb
        | some sp =>
          rw [hsp] at hb
          simp only at hb ⊢
          split at hb
          · rename_i hlt
            split at hb
            · rename_i nle ngt hb1 hb2
              cases hb
              generalize hnode : (BNode.interior (T := T) maxMask sp.var sp.exp none none) = node
              generalize hxa : (alloc h node).2 = xa
              generalize hh1 : (alloc h node).1 = h1
              have a1 : get h1 xa = some node := by rw [← hh1, ← hxa]; exact alloc_get _ _
              have a2 : ∀ y, y ≠ xa → get h1 y = get h y := by rw [← hh1, ← hxa]; exact fun y hy => alloc_keep _ _ hy
              have a3 : get h xa = none := by rw [← hxa]; exact alloc_fresh _ _
              have hpx : ∀ p, parent = some p → p ≠ xa := by
                rintro p hp rfl
                obtain ⟨n, hn⟩ := hplive p hp
                rw [a3] at hn; cases hn
              have hs1 : RSlot h1 parent hint := by
                cases parent with
                | none => exact hs
                | some p =>
                  obtain ⟨m, v, e, l, g, q1, q2⟩ := hs
                  exact ⟨m, v, e, l, g, by rw [a2 p (hpx p rfl)]; exact q1, q2⟩
              obtain ⟨h2, l1, l2, l3⟩ := link_ok (root := root) hs1 isLE xa
              rw [l1]
              simp only [Option.bind_some]
              have hx2 : get h2 xa = some (.interior maxMask sp.var sp.exp none none) := by
                rw [l3 xa (fun e => hpx xa e rfl), a1, hnode]
              generalize hroot : (if parent = none then some xa else root) = root'
              obtain ⟨h3, t1, r1, r2⟩ := ih sp.le.length (by omega) sp.le rfl h2 root' (some xa) true ((sp.gt, xa) :: todo)
                (some sp.var) nle ⟨_, _, _, _, _, hx2, rfl⟩ hb1
              have hx3 : get h3 xa = some (.interior maxMask sp.var sp.exp (some t1.addr) none) := r2.slot xa _ _ _ _ _ rfl hx2
              obtain ⟨h4, t2, s1, s2⟩ := ih sp.gt.length (by omega) sp.gt rfl h3 root' (some xa) false todo
                (some sp.var) ngt ⟨_, _, _, _, _, hx3, rfl⟩ hb2
              have hx4 : get h4 xa = some (.interior maxMask sp.var sp.exp (some t1.addr) (some t2.addr)) :=
                s2.slot xa _ _ _ _ _ rfl hx3
              have hxt1 : xa ∉ addrs t1 := fun hy => by have := r2.fresh xa hy; rw [hx2] at this; cases this
              have hxt2 : xa ∉ addrs t2 := fun hy => by have := s2.fresh xa hy; rw [hx3] at this; cases this
              have hd : ∀ y ∈ addrs t1, y ∉ addrs t2 := by
                intro y hy hy'
                obtain ⟨n, hg⟩ := holds_live r2.holds y hy
                have := s2.fresh y hy'
                rw [hg] at this; cases this
              have hback : ∀ y n, get h y = some n → parent ≠ some y → get h4 y = some n := by
                intro y n hg hp
                have hyx : y ≠ xa := by rintro rfl; rw [a3] at hg; cases hg
                refine s2.keep y n (by simpa using fun e => hyx e) (r2.keep y n (by simpa using fun e => hyx e) ?_)
                rw [l3 y hp, a2 y hyx]; exact hg
              have hfresh : ∀ y, y ≠ xa → get h2 y = none → get h y = none := by
                intro y hyx hg
                cases hgy : get h y with
                | none => rfl
                | some n =>
                  exfalso
                  by_cases hp : parent = some y
                  · obtain ⟨m, v, e, l, g, hg', _⟩ : ∃ m v e l g, get h y = some (.interior m v e l g) ∧ hint = some v := by
                      rw [hp] at hs; exact hs
                    rw [l2 y m v e l g hp (by rw [a2 y hyx]; exact hg')] at hg
                    cases hg
                  · rw [l3 y hp, a2 y hyx, hgy] at hg; cases hg
              refine ⟨h4, .split xa (lower c (lower c maxMask nle.mask) ngt.mask) sp.var sp.exp t1 t2, ?_, ?_, ⟨hx4, ?_, s2.holds⟩, ?_, ?_, ?_, ?_, ?_⟩
              · rw [r1]
                simp only [reduceCtorEq, if_false]
                rw [resume, s1]
                simp only [reduceCtorEq, if_false, AT.addr, hroot]
              · rw [AT.erase, r2.erase, s2.erase]
              · exact holds_keep r2.holds (fun y hy n hg => s2.keep y n (by
                  rw [Option.toList_some, List.mem_singleton]; rintro rfl; exact hxt1 hy) hg)
              · rw [addrs, List.nodup_cons, List.nodup_append]
                refine ⟨by simp [hxt1, hxt2], r2.nodup, s2.nodup, ?_⟩
                rintro y hy _ hy' rfl
                exact hd y hy hy'
              · intro y hy
                simp only [addrs, List.mem_cons, List.mem_append] at hy
                rcases hy with rfl | hy | hy
                · exact a3
                · exact hfresh y (by rintro rfl; exact hxt1 hy) (r2.fresh y hy)
                · have hyx : y ≠ xa := by rintro rfl; exact hxt2 hy
                  refine hfresh y hyx ?_
                  have h3y := s2.fresh y hy
                  cases hg : get h2 y with
                  | none => rfl
                  | some n =>
                    have := r2.keep y n (by simpa using fun e => hyx e) hg
                    rw [h3y] at this; cases this
              · intro y n hy hg
                exact hback y n hg (by rintro rfl; simp at hy)
              · intro y n hy
                by_cases hyx : y = xa
                · exact .inr (by simp [addrs, hyx])
                · rcases s2.cover y n hy with ⟨n', h'⟩ | h'
                  · rcases r2.cover y n' h' with ⟨n'', h''⟩ | h''
                    · left
                      by_cases hp : parent = some y
                      · exact hplive y hp
                      · rw [l3 y hp, a2 y hyx] at h''; exact ⟨n'', h''⟩
                    · exact .inr (by simp [addrs, h''])
                  · exact .inr (by simp [addrs, h'])
              · intro p m v e l g hp hg
                have hpx' := hpx p hp
                refine s2.keep p _ (by simpa using fun e => hpx' e) (r2.keep p _ (by simpa using fun e => hpx' e) ?_)
                exact l2 p m v e l g hp (by rw [a2 p hpx']; exact hg)
            · cases hb
            · cases hb
            · cases hb
          · cases hb

/-! ## The masks -/

theorem masks_append (l₁ l₂ : List Addr) : ∀ (h : Heap (BNode T)), masks h (l₁ ++ l₂) = (masks h l₁).bind (fun h => masks h l₂) := by
  induction l₁ with
  | nil => intro h; rfl
  | cons a l ih =>
    intro h
    simp only [List.cons_append, masks, Option.bind_eq_bind]
    cases update h a false with
    | none => rfl
    | some h1 =>
      simp only [Option.bind_some]
      cases update h1 a true with
      | none => rfl
      | some h2 => simp only [Option.bind_some]; exact ih h2

/-- An interior node. -/
def IsSplit : AT T → Bool
  | .entries .. => false
  | .split .. => true

theorem get_node {mk : Mask → Mask} {h : Heap (BNode T)} {t : AT T} (hh : Holds c mk h t) :
    ∃ n, get h t.addr = some n ∧ isInterior n = IsSplit t := by
  cases t with
  | entries x a => exact ⟨_, hh.1, rfl⟩
  | split x m v e le gt => exact ⟨_, hh.1, rfl⟩

/-- The mask of a node. -/
def maskOf : BNode T → Mask
  | .leaf r => r.mask
  | .interior m _ _ _ _ => m

theorem get_mask (hu : c.useTreeDivMask = true) {h : Heap (BNode T)} {t : AT T} (hh : Holds c (fin c) h t) :
    ∃ n, get h t.addr = some n ∧ maskOf n = t.erase.mask := by
  cases t with
  | entries x a => exact ⟨_, hh.1, rfl⟩
  | split x m v e le gt => exact ⟨_, hh.1, by simp [maskOf, fin, hu, AT.erase, Node.mask]⟩

theorem holds_leaf {mk mk' : Mask → Mask} {h : Heap (BNode T)} {t : AT T} (ht : IsSplit t = false) (hh : Holds c mk h t) :
    Holds c mk' h t := by
  cases t with
  | entries x a => exact hh
  | split x m v e le gt => cases ht

theorem update_ok {h : Heap (BNode T)} {a : Addr} {m : Mask} {v : ℕ} {e : ℤ} {l g : Addr} (child : Bool)
    (hg : get h a = some (.interior m v e (some l) (some g))) {nb : BNode T} {x : Mask}
    (hb : get h (if child then g else l) = some nb) (hx : maskOf nb = x) :
    ∃ h', update h a child = some h' ∧ get h' a = some (.interior (combineAnd m x) v e (some l) (some g)) ∧
      ∀ y, y ≠ a → get h' y = get h y := by
  obtain ⟨h', g1, g2, g3⟩ := put_spec hg (BNode.interior (combineAnd m x) v e (some l) (some g))
  refine ⟨h', ?_, g2, g3⟩
  rw [update, hg]
  simp only [Option.bind_eq_bind, Option.bind_some]
  rw [← g1, ← hx]
  cases child with
  | false => rw [if_neg (by simp)] at hb ⊢; rw [hb]; cases nb <;> rfl
  | true => rw [if_pos rfl] at hb ⊢; rw [hb]; cases nb <;> rfl

theorem masks_ok (hu : c.useTreeDivMask = true) : ∀ (k : ℕ) (ts : List (AT T)) (h : Heap (BNode T)) (done : List Addr),
    sizes ts = k → (∀ t ∈ ts, IsSplit t = true ∧ Holds c unset h t ∧ Masked c t.erase) → (ts.flatMap addrs).Nodup →
    ∃ L h', record h (done ++ ts.map AT.addr) done.length = some (done ++ L) ∧ masks h L.reverse = some h' ∧
      (∀ t ∈ ts, Holds c (fin c) h' t) ∧ (∀ y, y ∉ ts.flatMap addrs → get h' y = get h y) := by
  intro k
  induction k using Nat.strong_induction_on with
  | _ k ih =>
    intro ts h done hk hts hn
    cases ts with
    | nil =>
      refine ⟨[], h, ?_, rfl, nofun, fun _ _ => rfl⟩
      rw [record]
      simp
    | cons t ts =>
      obtain ⟨t1, t2, t3⟩ := hts t (by simp)
      cases t with
      | entries x a => cases t1
      | split x m v e le gt =>
        rw [List.flatMap_cons, addrs, List.cons_append, List.nodup_cons, List.append_assoc] at hn
        obtain ⟨n1, n2⟩ := hn
        rw [List.nodup_append] at n2
        obtain ⟨n2, n3, n4⟩ := n2
        rw [List.nodup_append] at n3
        obtain ⟨n3, n5, n6⟩ := n3
        simp only [List.mem_append, not_or] at n1
        obtain ⟨hx, hle, hgt⟩ := t2
        obtain ⟨nl, gl1, gl2⟩ := get_node hle
        obtain ⟨ng, gg1, gg2⟩ := get_node hgt
        have hrec : record h (done ++ (AT.split x m v e le gt :: ts).map AT.addr) done.length =
            record h (done ++ [x] ++ (ts ++ ([le, gt].filter IsSplit)).map AT.addr) (done ++ [x]).length := by
          conv_lhs => rw [record]
          have : (done ++ (AT.split x m v e le gt :: ts).map AT.addr)[done.length]? = some x := by
            simp [AT.addr]
          rw [this]
          simp only [hx, gl1, gg1, Option.bind_eq_bind, Option.bind_some, gl2, gg2]
          congr 1
          · cases hil : IsSplit le <;> cases hig : IsSplit gt <;> simp [List.filter, hil, hig, AT.addr]
          · simp
        have hkids : ∀ t ∈ [le, gt].filter IsSplit, IsSplit t = true ∧ (t = le ∨ t = gt) := by
          intro t ht
          rw [List.mem_filter] at ht
          exact ⟨ht.2, by simpa using ht.1⟩
        have hmem : ∀ y, y ∈ ([le, gt].filter IsSplit).flatMap addrs → y ∈ addrs le ∨ y ∈ addrs gt := by
          intro y hy
          rw [List.mem_flatMap] at hy
          obtain ⟨t, ht, hy⟩ := hy
          rcases (hkids t ht).2 with rfl | rfl
          · exact .inl hy
          · exact .inr hy
        have hknodup : (([le, gt].filter IsSplit).flatMap addrs).Nodup := by
          have hsub : (([le, gt].filter IsSplit).flatMap addrs).Sublist ([le, gt].flatMap addrs) := by
            cases hil : IsSplit le <;> cases hig : IsSplit gt <;> simp [List.filter, hil, hig]
          refine hsub.nodup ?_
          simp only [List.flatMap_cons, List.flatMap_nil, List.append_nil, List.nodup_append]
          exact ⟨n2, n3, fun y hy z hz => n4 y hy z (by simp [hz])⟩
        have hksize : sizes ([le, gt].filter IsSplit) ≤ le.size + gt.size := by
          cases hil : IsSplit le <;> cases hig : IsSplit gt <;> simp [List.filter, hil, hig, sizes]
        obtain ⟨L, h1, r1, r2, r3, r4⟩ := ih (sizes (ts ++ [le, gt].filter IsSplit)) (by
            rw [← hk]
            have : sizes (ts ++ [le, gt].filter IsSplit) = sizes ts + sizes ([le, gt].filter IsSplit) := by simp [sizes]
            rw [this]
            have : sizes (AT.split x m v e le gt :: ts) = le.size + gt.size + 1 + sizes ts := by simp [sizes, AT.size]
            omega) (ts ++ [le, gt].filter IsSplit) h (done ++ [x]) rfl (by
            intro t ht
            rw [List.mem_append] at ht
            rcases ht with ht | ht
            · exact hts t (by simp [ht])
            · obtain ⟨q1, q2 | q2⟩ := hkids t ht
              · exact ⟨q1, q2 ▸ hle, q2 ▸ t3.2.1⟩
              · exact ⟨q1, q2 ▸ hgt, q2 ▸ t3.2.2⟩) (by
            rw [List.flatMap_append, List.nodup_append]
            refine ⟨n5, hknodup, ?_⟩
            rintro y hy _ hz rfl
            rcases hmem y hz with hz | hz
            · exact n4 y hz y (by simp [hy]) rfl
            · exact n6 y hz y hy rfl)
        have hq : ∀ y, y ∉ ts.flatMap addrs → y ∉ addrs le → y ∉ addrs gt → get h1 y = get h y := by
          intro y h1 h2 h3
          refine r4 y ?_
          rw [List.flatMap_append, List.mem_append, not_or]
          exact ⟨h1, fun hy => (hmem y hy).elim h2 h3⟩
        have hx1 : get h1 x = some (.interior maxMask v e (some le.addr) (some gt.addr)) := by
          rw [hq x n1.2.2 n1.1 n1.2.1]; exact hx
        have hle1 : Holds c (fin c) h1 le := by
          cases hs : IsSplit le with
          | true => exact r3 le (by simp [hs])
          | false =>
            refine holds_leaf hs (holds_keep hle (fun y hy n hg => ?_))
            rw [r4 y]
            · exact hg
            · rw [List.flatMap_append, List.mem_append, not_or]
              refine ⟨fun hy' => n4 y hy y (by simp [hy']) rfl, fun hy' => ?_⟩
              rw [List.mem_flatMap] at hy'
              obtain ⟨t, ht, hy'⟩ := hy'
              obtain ⟨q1, rfl | rfl⟩ := hkids t ht
              · rw [hs] at q1; cases q1
              · exact n4 y hy y (by simp [hy']) rfl
        have hgt1 : Holds c (fin c) h1 gt := by
          cases hs : IsSplit gt with
          | true => exact r3 gt (by simp [hs])
          | false =>
            refine holds_leaf hs (holds_keep hgt (fun y hy n hg => ?_))
            rw [r4 y]
            · exact hg
            · rw [List.flatMap_append, List.mem_append, not_or]
              refine ⟨fun hy' => n6 y hy y hy' rfl, fun hy' => ?_⟩
              rw [List.mem_flatMap] at hy'
              obtain ⟨t, ht, hy'⟩ := hy'
              obtain ⟨q1, rfl | rfl⟩ := hkids t ht
              · exact n4 y hy' y (by simp [hy]) rfl
              · rw [hs] at q1; cases q1
        obtain ⟨nl1, m1, m2⟩ := get_mask hu hle1
        obtain ⟨h2, u1, u2, u3⟩ := update_ok false hx1 m1 m2
        have hle2 : Holds c (fin c) h2 le := holds_keep hle1 (fun y hy n hg => by
          rw [u3 y (by rintro rfl; exact n1.1 hy)]; exact hg)
        have hgt2 : Holds c (fin c) h2 gt := holds_keep hgt1 (fun y hy n hg => by
          rw [u3 y (by rintro rfl; exact n1.2.1 hy)]; exact hg)
        obtain ⟨ng1, m3, m4⟩ := get_mask hu hgt2
        obtain ⟨h3, w1, w2, w3⟩ := update_ok true u2 m3 m4
        refine ⟨x :: L, h3, ?_, ?_, ?_, ?_⟩
        · rw [hrec, r1]; simp
        · rw [List.reverse_cons, masks_append, r2]
          simp only [Option.bind_some, masks, Option.bind_eq_bind, u1, w1]
        · intro t ht
          rcases List.mem_cons.mp ht with rfl | ht'
          · refine ⟨?_, ?_, ?_⟩
            · rw [w2]
              have : fin c m = combineAnd (combineAnd maxMask le.erase.mask) gt.erase.mask := by
                have := t3.1
                rw [fin, hu, if_pos rfl, this, lower, lower, hu]; rfl
              rw [this]
            · exact holds_keep hle2 (fun y hy n hg => by rw [w3 y (by rintro rfl; exact n1.1 hy)]; exact hg)
            · exact holds_keep hgt2 (fun y hy n hg => by rw [w3 y (by rintro rfl; exact n1.2.1 hy)]; exact hg)
          · refine holds_keep (r3 t (by simp [ht'])) (fun y hy n hg => ?_)
            have hyx : y ≠ x := by rintro rfl; exact n1.2.2 (List.mem_flatMap.mpr ⟨t, ht', hy⟩)
            rw [w3 y hyx, u3 y hyx]; exact hg
        · intro y hy
          simp only [List.flatMap_cons, addrs, List.cons_append, List.mem_cons, not_or, List.append_assoc, List.mem_append] at hy
          rw [w3 y hy.1, u3 y hy.1, hq y hy.2.2.2 hy.2.1 hy.2.2.1]

theorem reset_ok (hl : c.Lawful) {h : Heap (BNode T)} {t : Option (AT T)} {bits : Bits} {l : List T} {n : KDTree.Tree T}
    (hm : MemRoot (Holds c (fin c)) addrs h t) (hr : KDTree.Tree.reset c bits l = some (some n)) :
    ∃ h' t', reset c bits ⟨h, t.map AT.addr, []⟩ l = some (false, ⟨h', t'.map AT.addr, []⟩) ∧
      MemRoot (Holds c (fin c)) addrs h' t' ∧ t'.map AT.erase = n.root := by
  obtain ⟨h1, k1, k2⟩ := clear_ok hm
  rw [KDTree.Tree.reset] at hr
  rw [reset, k1]
  simp only [Option.bind_eq_bind, Option.bind_some]
  by_cases hnil : l = []
  · rw [if_pos hnil] at hr ⊢
    cases hr
    exact ⟨h1, none, rfl, k2, rfl⟩
  · rw [if_neg hnil] at hr ⊢
    cases hb : KDTree.build c bits l none with
    | none => rw [hb] at hr; cases hr
    | some q =>
      cases q with
      | none => rw [hb] at hr; cases hr
      | some nd =>
        rw [hb] at hr
        cases hr
        obtain ⟨h2, t, r1, r2⟩ := resetLoop_ok hl _ l rfl h1 none none false [] none nd rfl hb
        rw [r1]
        simp only [if_true, resume, Option.bind_some, Bool.false_eq_true, if_false]
        have hcov : ∀ y n, get h2 y = some n → y ∈ addrs t := by
          intro y n hy
          rcases r2.cover y n hy with ⟨n', h'⟩ | h'
          · rw [k2] at h'; cases h'
          · exact h'
        cases hu : c.useTreeDivMask with
        | false =>
          have hfin : fin c = unset := by funext m; simp [fin, hu]
          refine ⟨h2, some t, by simp, ⟨?_, r2.nodup, hcov⟩, by simp [r2.erase]⟩
          rw [hfin]; exact r2.holds
        | true =>
          simp only [if_true]
          obtain ⟨nt, g1, g2⟩ := get_node r2.holds
          rw [g1]
          simp only [Option.bind_some, g2]
          cases hs : IsSplit t with
          | false =>
            have hrec : record h2 ([] : List Addr) 0 = some [] := by rw [record]; rfl
            simp only [Bool.false_eq_true, if_false, hrec, Option.bind_some, List.reverse_nil, masks]
            exact ⟨h2, some t, by simp, ⟨holds_leaf hs r2.holds, r2.nodup, hcov⟩, by simp [r2.erase]⟩
          | true =>
            have hmk : Masked c t.erase := by rw [r2.erase]; exact build_masked _ _ _ _ rfl hb
            obtain ⟨L, h3, q1, q2, q3, q4⟩ := masks_ok hu _ [t] h2 [] rfl (by simpa using ⟨hs, r2.holds, hmk⟩)
              (by simpa using r2.nodup)
            simp only [List.nil_append, List.map_cons, List.map_nil, List.length_nil] at q1
            simp only [if_true, q1, Option.bind_some, q2]
            refine ⟨h3, some t, by simp, ⟨q3 t (by simp), r2.nodup, ?_⟩, by simp [r2.erase]⟩
            intro y n hy
            by_contra hya
            rw [q4 y (by simpa using hya)] at hy
            exact hya (hcov y n hy)

/-- Binary trees in memory. -/
def layout (hl : c.Lawful) (hpk : c.packed = false) : Layout (impl : Impl T (BNode T)) c where
  Holds := Holds c (fin c)
  addrs := addrs
  Spine h A p n := Spine c h A n p
  spine_root hh := spine_of hh (fun q => by rw [List.nil_append])
  spine_put hs hp := spine_put hp hs
  expand_ok k tmp hs := expand_ok hpk k tmp hs
  post_ok k tmp hs := by rw [expand_post hpk]; rfl
  spine_pre k hs := spine_pre hpk k hs
  spine_post k hs := by rw [expand_post hpk]; exact nofun
  getArr_ok := getArr_ok
  putArr_ok := putArr_ok
  insert_ok := insert_ok hl hpk
  clear_ok := clear_ok
  reset_ok := reset_ok hl
  removeElement_ok hp := by rw [hpk] at hp; cases hp
  removeElement_none hp := by rw [hpk] at hp; cases hp
  live := live

end Verif.KDMem.Binary
