import Verif.KDMemAlias
import Verif.DivListAliasSpec
import Verif.PropKDMem

/-!
# Lemmas on `removeMultiples` with an entry of the tree itself
-/

namespace Verif.KDMem

open Verif.DivMask (Ext Mask canDivide)
open Verif.KDTree (Conf Ret Op divides exDm)

variable {T N : Type} {c : Conf T}

theorem dividesRef_some (mask : Mask) (m : T) (e : Ext T) :
    dividesRef c mask (some m) e = some (divides c ⟨mask, m⟩ e) := by
  unfold dividesRef divides DivMask.Ext.divides
  cases c.useDivMask <;> cases canDivide mask e.mask <;> rfl

theorem divides_false (mask : Mask) (m : T) (e : Ext T) (h : c.dm.divides m e.t = false) :
    divides c ⟨mask, m⟩ e = false := by
  unfold divides DivMask.Ext.divides
  simp [h]

theorem scanRef_some (mask : Mask) (m : T) (l : List (Ext T)) :
    scanRef c mask (some m) l = some (l.findIdx? (fun e => divides c ⟨mask, m⟩ e)) := by
  induction l with
  | nil => rfl
  | cons e l ih =>
    rw [scanRef, dividesRef_some, ih, List.findIdx?_cons]
    cases divides c ⟨mask, m⟩ e <;> rfl

theorem read_assign_ne {s s' : Slots T} {i j : ℕ} {e : Ext T} (h : assign s i e = some s') (hne : j ≠ i) :
    read s' j = read s j := by
  unfold assign at h
  split at h
  · cases h
    unfold read
    rw [List.getElem?_set_ne (Ne.symm hne)]
  · cases h

theorem read_assign_self {s s' : Slots T} {i : ℕ} {e : Ext T} (h : assign s i e = some s') :
    read s' i = some e := by
  unfold assign at h
  split at h
  · rename_i h1
    cases h
    unfold read
    rw [List.getElem?_set_self (List.getElem?_eq_some_iff.mp h1).1]
  · cases h

/-- The monomial at position `j` of the array itself. -/
def argAt (j : ℕ) (s : Slots T) : Option T := (read s j).map Ext.t

/-- Up to the position referred to nothing is written to it. -/
theorem compactRef_before (mask : Mask) (j : ℕ) (a : Ext T) : ∀ (n : ℕ) (s : Slots T) (it newEnd : ℕ) (out : List T),
    read s j = some a → newEnd < it → it + n ≤ j + 1 →
    compactRef c mask (argAt j) s it newEnd out n = compact (fun e => divides c ⟨mask, a.t⟩ e) s it newEnd out n := by
  intro n
  induction n with
  | zero => intro s it newEnd out _ _ _; rfl
  | succ n ih =>
    intro s it newEnd out ha hlt hn
    rw [compactRef, compact]
    cases he : read s it with
    | none => rfl
    | some e =>
      simp only [Option.bind_eq_bind, Option.bind_some, argAt, ha, Option.map_some, dividesRef_some]
      cases hv : divides c ⟨mask, a.t⟩ e with
      | true =>
        simp only [Bool.not_true, Bool.false_eq_true, if_false]
        exact ih s (it + 1) newEnd _ ha (by omega) (by omega)
      | false =>
        simp only [Bool.not_false, if_true]
        cases hs : assign s newEnd e with
        | none => rfl
        | some s' =>
          simp only [Option.bind_some]
          exact ih s' (it + 1) (newEnd + 1) _ ((read_assign_ne hs (by omega)).trans ha) (by omega) (by omega)

/-- Once another entry has been written there, and neither it nor the monomial divides what is left. -/
theorem compactRef_after (mask : Mask) (j : ℕ) (q m : Ext T) : ∀ (n : ℕ) (s : Slots T) (it newEnd : ℕ) (out : List T),
    read s j = some q → j < newEnd → newEnd ≤ it →
    (∀ k e, it ≤ k → k < it + n → read s k = some e → c.dm.divides q.t e.t = false ∧ c.dm.divides m.t e.t = false) →
    compactRef c mask (argAt j) s it newEnd out n = compact (fun e => divides c ⟨mask, m.t⟩ e) s it newEnd out n := by
  intro n
  induction n with
  | zero => intro s it newEnd out _ _ _ _; rfl
  | succ n ih =>
    intro s it newEnd out hq hlt hle hall
    rw [compactRef, compact]
    cases he : read s it with
    | none => rfl
    | some e =>
      obtain ⟨h1, h2⟩ := hall it e (le_refl _) (by omega) he
      simp only [Option.bind_eq_bind, Option.bind_some, argAt, hq, Option.map_some, dividesRef_some,
        divides_false _ _ _ h1, divides_false _ _ _ h2, Bool.not_false, if_true]
      cases hs : assign s newEnd e with
      | none => rfl
      | some s' =>
        simp only [Option.bind_some]
        refine ih s' (it + 1) (newEnd + 1) _ ((read_assign_ne hs (by omega)).trans hq) (by omega) (by omega) ?_
        intro k e' hk hk' he'
        rw [read_assign_ne hs (by omega)] at he'
        exact hall k e' (by omega) (by omega) he'

/-- All entries of an array can be read. -/
theorem readRange_get {s : Slots T} : ∀ {n i : ℕ} {l : List (Ext T)}, readRange s i n = some l →
    l.length = n ∧ ∀ k < n, read s (i + k) = l[k]? := by
  intro n
  induction n with
  | zero => intro i l h; cases h; exact ⟨rfl, fun k hk => by omega⟩
  | succ n ih =>
    intro i l h
    rw [readRange] at h
    cases he : read s i with
    | none => rw [he] at h; cases h
    | some e =>
      cases hr : readRange s (i + 1) n with
      | none => rw [he, hr] at h; cases h
      | some l' =>
        rw [he, hr] at h
        cases h
        obtain ⟨h1, h2⟩ := ih hr
        refine ⟨by simp [h1], ?_⟩
        intro k hk
        cases k with
        | zero => simpa using he
        | succ k =>
          rw [show i + (k + 1) = i + 1 + k by omega, h2 k (by omega)]
          rfl

/-- The removal from one array with an entry of it, the last or one of entries that do not divide each other. -/
theorem removeMultiplesRef_eq (mask : Mask) (r : RArr T) (l : List (Ext T)) (hv : r.view = some l) (j : ℕ) (a : Ext T)
    (ha : l[j]? = some a) (hd : divides c ⟨mask, a.t⟩ a = true)
    (h : j + 1 = r.len ∨ DivList.Minimal c.dm (l.map Ext.t)) :
    r.removeMultiplesRef c mask (argAt j) = r.removeMultiples c ⟨mask, a.t⟩ := by
  obtain ⟨hlen, hget⟩ := readRange_get hv
  have hj : j < l.length := (List.getElem?_eq_some_iff.mp ha).1
  have hra : read r.slots j = some a := by
    have := hget j (by omega)
    rw [Nat.zero_add] at this
    rw [this, ha]
  unfold RArr.removeMultiplesRef RArr.removeMultiples
  have harg : argAt j r.slots = some a.t := by simp [argAt, hra]
  rw [harg, hv]
  simp only [dividesRef_some, scanRef_some, Option.bind_eq_bind, Option.bind_some]
  by_cases h1 : c.leafSize = 1
  · rw [if_pos h1, if_pos h1]
  · rw [if_neg h1, if_neg h1]
    cases hf : l.findIdx? (fun e => divides c ⟨mask, a.t⟩ e) with
    | none => rfl
    | some it =>
      simp only
      have hf' := hf
      rw [List.findIdx?_eq_some_iff_getElem] at hf'
      obtain ⟨hit, hdv, hno⟩ := hf'
      have hitj : it ≤ j := by
        by_contra hc
        have := hno j (by omega)
        rw [List.getElem?_eq_getElem hj] at ha
        cases ha
        exact this hd
      have key : ∀ out, compactRef c mask (argAt j) r.slots (it + 1) it out (r.len - (it + 1)) =
          compact (fun e => divides c ⟨mask, a.t⟩ e) r.slots (it + 1) it out (r.len - (it + 1)) := by
        intro out
        rcases h with h | h
        · exact compactRef_before mask j a _ _ _ _ _ hra (by omega) (by omega)
        · have hij : it = j := by
            by_contra hc
            have h2 := h j it a.t l[it].t (by omega) (by rw [List.getElem?_map, ha]; rfl)
              (by rw [List.getElem?_map, List.getElem?_eq_getElem hit]; rfl)
            rw [divides_false _ _ _ h2] at hdv
            cases hdv
          subst hij
          cases hn : r.len - (it + 1) with
          | zero => rfl
          | succ n =>
            have hrd : ∀ k < l.length, read r.slots k = l[k]? := by
              intro k hk
              have := hget k (by omega)
              rwa [Nat.zero_add] at this
            have hnext : it + 1 < l.length := by omega
            have hre := hrd (it + 1) hnext
            rw [List.getElem?_eq_getElem hnext] at hre
            have hmin : ∀ x y (hx : x < l.length) (hy : y < l.length), x ≠ y →
                c.dm.divides l[x].t l[y].t = false := by
              intro x y hx hy hxy
              exact h x y _ _ hxy (by rw [List.getElem?_map, List.getElem?_eq_getElem hx]; rfl)
                (by rw [List.getElem?_map, List.getElem?_eq_getElem hy]; rfl)
            have hla : l[it] = a := by
              rw [List.getElem?_eq_getElem hj] at ha
              exact Option.some.inj ha
            have hm1 := hmin it (it + 1) hit hnext (by omega)
            rw [hla] at hm1
            rw [compactRef, compact]
            simp only [Option.bind_eq_bind, hre, Option.bind_some, harg, dividesRef_some, divides_false _ _ _ hm1,
              Bool.not_false, if_true]
            cases hs : assign r.slots it l[it + 1] with
            | none => rfl
            | some s' =>
              simp only [Option.bind_some]
              refine compactRef_after mask it l[it + 1] a n s' _ _ _ (read_assign_self hs) (by omega) (by omega) ?_
              intro k e hk hk' he
              have hkl : k < l.length := by omega
              rw [read_assign_ne hs (by omega), hrd k hkl, List.getElem?_eq_getElem hkl] at he
              cases he
              refine ⟨hmin _ _ hnext hkl (by omega), ?_⟩
              have := hmin it k hit hkl (by omega)
              rwa [hla] at this
      simp only [key]

/-- The whole call on a tree of one node. -/
theorem removeRef_of_single (I : Impl T N) (bare : Heap N → Addr → Bool) (s : State N) (a : Addr) (r : RArr T) (j : ℕ) (x : Ext T)
    (hbare : bare s.tree.heap a = true)
    (hexp : ∀ m, I.expand c (.multiples m) s.tree.heap a [] = some (some a, []))
    (hpost : ∀ m (h : Heap N), I.post c (.multiples m) h a [] = some [])
    (hroot : s.tree.root = some a) (htmp : s.tree.tmp = []) (hr : I.getArr s.tree.heap a = some r)
    (hx : read r.slots j = some x)
    (he : r.removeMultiplesRef c (Ext.make c.dm s.bits x.t).mask (argAt j) =
      r.removeMultiples c (Ext.make c.dm s.bits x.t)) :
    removeRef I bare c s (a, j) = remove I c s x.t := by
  unfold removeRef remove
  have hde : deref I s.tree (a, j) = some x.t := by
    unfold deref
    simp [hr, hx]
  by_cases hal : c.allowRemovals = true
  · rw [hde]
    simp only [hal, Bool.not_true, Bool.false_eq_true, if_false]
    have harg : argIn I s.tree.heap (a, j) a = argAt j := by
      funext s'
      simp [argIn, argAt]
    have key : removeMultiplesRef I bare c s.tree (Ext.make c.dm s.bits x.t).mask (a, j) =
        removeMultiples I c s.tree (Ext.make c.dm s.bits x.t) := by
      unfold removeMultiplesRef removeMultiples
      rw [hroot, htmp]
      simp only
      rw [loopRef, loop]
      simp only [expandRef, hbare, if_true, hexp, Option.bind_eq_bind, Option.bind_some, actRemoveRef, actRemove, hr, harg, he]
      cases hq : r.removeMultiples c (Ext.make c.dm s.bits x.t) with
      | none => rfl
      | some q =>
        simp only [Option.bind_some]
        cases hp : I.putArr s.tree.heap a q.1 with
        | none => rfl
        | some h => simp [hpost]
    rw [key]
    cases removeMultiples I c s.tree (Ext.make c.dm s.bits x.t) <;> rfl
  · simp [hal]

theorem Binary.single {h : Heap (BNode T)} {a : Addr} (hb : Binary.bare h a = true) :
    (∀ m, (Binary.impl (T := T)).expand c (.multiples m) h a [] = some (some a, [])) := by
  intro m
  unfold Binary.bare at hb
  split at hb
  · rename_i r hg
    show Binary.expandMultiples c m h a [] = _
    rw [Binary.expandMultiples, hg]
    rfl
  · cases hb

theorem Packed.single {h : Heap (PNode T)} {a : Addr} (hb : Packed.bare h a = true) :
    (∀ m, (Packed.impl (T := T)).expand c (.multiples m) h a [] = some (some a, [])) := by
  intro m
  unfold Packed.bare at hb
  split at hb
  · rename_i n hg
    have hc : n.count = 0 := by simpa using hb
    show Packed.expand c (.multiples m) h a [] = _
    unfold Packed.expand Packed.kids
    simp [hg, hc, Packed.scanMultiples]
  · cases hb

/-- What a call with a pointer to an entry in a tree of one node does is what it does with a copy. -/
theorem own_single {N : Type} (I : Impl T N) (bare : Heap N → Addr → Bool)
    (hexp : ∀ h a, bare h a = true → ∀ m, I.expand c (.multiples m) h a [] = some (some a, []))
    (hpost : ∀ m (h : Heap N) a, I.post c (.multiples m) h a [] = some [])
    (hr : ∀ x : Ext T, KDTree.divides c x x = true) {s : State N} {a : Addr} {r : RArr T} {l : List (Ext T)} {j : ℕ} {x : Ext T}
    (hroot : s.tree.root = some a) (htmp : s.tree.tmp = []) (hb : bare s.tree.heap a = true)
    (hg : I.getArr s.tree.heap a = some r) (hv : r.view = some l) (hx : l[j]? = some x)
    (hmask : x = Ext.make c.dm s.bits x.t)
    (h : j + 1 = r.len ∨ DivList.Minimal c.dm (l.map Ext.t)) :
    removeRef I bare c s (a, j) = remove I c s x.t := by
  obtain ⟨hlen, hget⟩ := readRange_get hv
  have hj : j < l.length := (List.getElem?_eq_some_iff.mp hx).1
  have hrd : read r.slots j = some x := by
    have := hget j (by omega)
    rw [Nat.zero_add] at this
    rw [this, hx]
  refine removeRef_of_single I bare s a r j x hb (hexp _ _ hb) (fun m h => hpost m h a) hroot htmp hg hrd ?_
  refine removeMultiplesRef_eq _ r l hv j x hx ?_ h
  have : (⟨(Ext.make c.dm s.bits x.t).mask, x.t⟩ : Ext T) = x := by
    rw [hmask]
    rfl
  rw [this]
  exact hr x

/-! ## For the examples -/

/-- No masks, no order, no rebuilds. -/
def exPlain (packed : Bool) (leafSize : ℕ) : Conf (List ℕ) :=
  { KDTree.exConf packed false false leafSize with useDivMask := false, useTreeDivMask := false, sortOnInsert := false }

theorem exPlain_lawful (packed : Bool) {leafSize : ℕ} (h : 0 < leafSize) : (exPlain packed leafSize).Lawful :=
  let hl := KDTree.exConf_lawful packed false false h
  ⟨hl.masks, h, nofun, hl.sortVars, nofun, hl.range, nofun, nofun, nofun, hl.partition, hl.selfCopy⟩

/-- The array of a leaf with these entries. -/
def exArr (l : List (List ℕ)) : RArr (List ℕ) :=
  ⟨(l.map (fun t => some (Ext.make exDm [] t))) ++ List.replicate (3 - l.length) none, l.length, DivMask.maxMask⟩

/-- A tree of one leaf. -/
def exBinary (l : List (List ℕ)) : State (BNode (List ℕ)) :=
  ⟨⟨[some (.leaf (exArr l))], some 0, []⟩, [], 0, none, l.length⟩

/-- A tree of one node. -/
def exPacked (l : List (List ℕ)) : State (PNode (List ℕ)) :=
  ⟨⟨[some (Packed.make (exArr l) 0)], some 0, []⟩, [], 0, none, l.length⟩

theorem Binary.insert_leaf (r : RArr T) (x : Ext T) (hr : r.len ≠ c.leafSize) :
    Binary.insert c ⟨[some (.leaf r)], some 0, []⟩ x =
      (r.insert c x).map (fun r' => (false, ⟨[some (.leaf r')], some 0, []⟩)) := by
  unfold Binary.insert
  have h1 : Binary.insertWalk c x [some (.leaf r)] 0 none = some ([some (.leaf r)], 0, none) := by
    rw [Binary.insertWalk]
    rfl
  simp only [h1, Option.bind_eq_bind, Option.bind_some]
  have h2 : Binary.getArr [some (.leaf r)] 0 = some r := rfl
  simp only [h2, Option.bind_some, if_neg hr]
  cases r.insert c x <;> rfl

theorem Packed.insert_leaf (r : RArr T) (x : Ext T) (hr : r.len < c.leafSize) :
    Packed.insert c ⟨[some (Packed.make r 0)], some 0, []⟩ x =
      (r.insert c x).map (fun r' => (false, ⟨[some (Packed.make r' 0)], some 0, []⟩)) := by
  unfold Packed.insert
  have h1 : Packed.insertWalk c x [some (Packed.make r 0)] 0 0 none = some ([some (Packed.make r 0)], 0, none) := by
    rw [Packed.insertWalk]
    rfl
  simp only [h1, Option.bind_eq_bind, Option.bind_some]
  have h2 : Packed.getArr [some (Packed.make r 0)] 0 = some r := rfl
  simp only [h2, Option.bind_some, if_pos hr]
  cases r.insert c x <;> rfl

theorem exBinary_step (l : List (List ℕ)) (e : List ℕ) (hl : l.length < 3) :
    step Binary.impl (exPlain false 3) (exBinary l) (.insert e) = .ok (.unit, exBinary (l ++ [e])) := by
  show insert Binary.impl (exPlain false 3) (exBinary l) e = _
  have hr : (exArr l).insert (exPlain false 3) (Ext.make exDm [] e) = some (exArr (l ++ [e])) := by
    match l, hl with
    | [], _ => rfl
    | [a], _ => rfl
    | [a, b], _ => rfl
  unfold insert
  have h := Binary.insert_leaf (c := exPlain false 3) (exArr l) (Ext.make exDm [] e) (by
    show l.length ≠ 3
    omega)
  rw [hr] at h
  have h' : Binary.impl.insert (exPlain false 3) (exBinary l).tree (Ext.make (exPlain false 3).dm (exBinary l).bits e) =
      some (false, ⟨[some (.leaf (exArr (l ++ [e])))], some 0, []⟩) := h
  rw [h']
  simp [reportChanges, exPlain, KDTree.exConf, exBinary, Res.with]

theorem exBinary_run (l : List (List ℕ)) (e : List (List ℕ)) (hl : l.length + e.length ≤ 3) :
    ∃ rs, run Binary.impl (exPlain false 3) (exBinary l) (e.map .insert) = .ok (rs, exBinary (l ++ e)) := by
  induction e generalizing l with
  | nil => exact ⟨[], by rw [List.append_nil]; rfl⟩
  | cons a e ih =>
    rw [List.length_cons] at hl
    obtain ⟨rs, h⟩ := ih (l ++ [a]) (by simp; omega)
    refine ⟨.unit :: rs, ?_⟩
    rw [List.append_assoc, List.singleton_append] at h
    rw [List.map_cons, run, exBinary_step l a (by omega)]
    simp only [h]

theorem exPacked_step (l : List (List ℕ)) (e : List ℕ) (hl : l.length < 3) :
    step Packed.impl (exPlain true 3) (exPacked l) (.insert e) = .ok (.unit, exPacked (l ++ [e])) := by
  show insert Packed.impl (exPlain true 3) (exPacked l) e = _
  have hr : (exArr l).insert (exPlain true 3) (Ext.make exDm [] e) = some (exArr (l ++ [e])) := by
    match l, hl with
    | [], _ => rfl
    | [a], _ => rfl
    | [a, b], _ => rfl
  unfold insert
  have h := Packed.insert_leaf (c := exPlain true 3) (exArr l) (Ext.make exDm [] e) (by
    show l.length < 3
    omega)
  rw [hr] at h
  have h' : Packed.impl.insert (exPlain true 3) (exPacked l).tree (Ext.make (exPlain true 3).dm (exPacked l).bits e) =
      some (false, ⟨[some (Packed.make (exArr (l ++ [e])) 0)], some 0, []⟩) := h
  rw [h']
  simp [reportChanges, exPlain, KDTree.exConf, exPacked, Res.with]

theorem exPacked_run (l : List (List ℕ)) (e : List (List ℕ)) (hl : l.length + e.length ≤ 3) :
    ∃ rs, run Packed.impl (exPlain true 3) (exPacked l) (e.map .insert) = .ok (rs, exPacked (l ++ e)) := by
  induction e generalizing l with
  | nil => exact ⟨[], by rw [List.append_nil]; rfl⟩
  | cons a e ih =>
    rw [List.length_cons] at hl
    obtain ⟨rs, h⟩ := ih (l ++ [a]) (by simp; omega)
    refine ⟨.unit :: rs, ?_⟩
    rw [List.append_assoc, List.singleton_append] at h
    rw [List.map_cons, run, exPacked_step l a (by omega)]
    simp only [h]


theorem exRemove (packed : Bool) : (exArr [[1], [0, 1], [2]]).removeMultiplesRef (exPlain packed 3) (Ext.make exDm [] [1]).mask (argAt 0) =
    some (exArr [[0, 1], [2]], [[1]], 1) := by
  unfold RArr.removeMultiplesRef
  have h1 : ¬ (exPlain packed 3).leafSize = 1 := by show ¬ (3 = 1); decide
  have h2 : (exArr [[1], [0, 1], [2]]).view = some ([[1], [0, 1], [2]].map (Ext.make exDm [])) := rfl
  have h3 : scanRef (exPlain packed 3) (Ext.make exDm [] [1]).mask (argAt 0 (exArr [[1], [0, 1], [2]]).slots)
      ([[1], [0, 1], [2]].map (Ext.make exDm [])) = some (some 0) := by cases packed <;> rfl
  have h4 : read (exArr [[1], [0, 1], [2]]).slots 0 = some (Ext.make exDm [] [1]) := rfl
  have h5 : compactRef (exPlain packed 3) (Ext.make exDm [] [1]).mask (argAt 0) (exArr [[1], [0, 1], [2]]).slots 1 0 [[1]] 2 =
      some ([[0, 1], [2], [2]].map (fun t => some (Ext.make exDm [] t)), 2, [[1]]) := by cases packed <;> rfl
  have h6 : RArr.popLoop ⟨[[0, 1], [2], [2]].map (fun t => some (Ext.make exDm [] t)), 3, DivMask.maxMask⟩ 2 =
      some (exArr [[0, 1], [2]]) := by
    rw [RArr.popLoop]
    rfl
  rw [if_neg h1, h2]
  simp only [Option.bind_eq_bind, Option.bind_some, h3, h4]
  have h5' : compactRef (exPlain packed 3) (Ext.make exDm [] [1]).mask (argAt 0) (exArr [[1], [0, 1], [2]]).slots (0 + 1) 0
      [(Ext.make exDm [] [1]).t] ((exArr [[1], [0, 1], [2]]).len - (0 + 1)) = _ := h5
  rw [h5']
  simp only [Option.bind_some]
  have h6' : RArr.popLoop { exArr [[1], [0, 1], [2]] with slots := [[0, 1], [2], [2]].map (fun t => some (Ext.make exDm [] t)) } 2 = _ := h6
  rw [h6']
  rfl

/-- The call with the first entry of a node that holds x, y, x². -/
theorem exOwn_of (I : Impl (List ℕ) N) (bare : Heap N → Addr → Bool) (packed : Bool) (s : State N) (h' : Heap N)
    (hbare : bare s.tree.heap 0 = true) (hroot : s.tree.root = some 0) (htmp : s.tree.tmp = []) (hbits : s.bits = [])
    (hg : I.getArr s.tree.heap 0 = some (exArr [[1], [0, 1], [2]])) (hp : I.putArr s.tree.heap 0 (exArr [[0, 1], [2]]) = some h') :
    removeRef I bare (exPlain packed 3) s (0, 0) = .ok (.removed [[1]] true, { s with tree := ⟨h', some 0, []⟩, size := s.size - 1 }) := by
  unfold removeRef
  have hde : deref I s.tree (0, 0) = some [1] := by
    unfold deref
    simp only [hg, Option.bind_eq_bind, Option.bind_some]
    rfl
  have hal : (!(exPlain packed 3).allowRemovals) = false := rfl
  rw [hal, hde]
  simp only [Bool.false_eq_true, if_false]
  have harg : argIn I s.tree.heap (0, 0) 0 = argAt 0 := by
    funext s'
    simp [argIn, argAt]
  have key : removeMultiplesRef I bare (exPlain packed 3) s.tree (Ext.make (exPlain packed 3).dm s.bits [1]).mask (0, 0) =
      some ([[1]], 1, ⟨h', some 0, []⟩) := by
    unfold removeMultiplesRef
    rw [hroot, htmp, hbits]
    simp only
    rw [loopRef]
    simp only [expandRef, hbare, if_true, Option.bind_eq_bind, Option.bind_some, actRemoveRef, hg, harg]
    have := exRemove packed
    have hdm : (exPlain packed 3).dm = exDm := rfl
    rw [hdm, this]
    simp only [Option.bind_some, hp]
    rfl
  rw [key]
  rfl

end Verif.KDMem
