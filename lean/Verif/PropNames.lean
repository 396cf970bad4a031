import Verif.NamesProofs
import Verif.PropDivList
import Verif.PropKDTree

/-!
# Property C99: names tell configurations apart

`ratio` is the text of the rebuild ratio; numbers are written without `'/'`.
-/

namespace Verif.Name

open Verif.Text (decimal)

variable {T E F : Type}

/-! ## Queues -/

theorem heap_name_iff (f f' : Bool) (c : PQConf E) (c' : PQConf F) :
    heap f c = heap f' c' ↔ f = f' ∧ c.supportDedup = c'.supportDedup := by
  unfold heap
  generalize c.supportDedup = d
  generalize c'.supportDedup = d'
  revert f f' d d'
  decide +kernel

theorem tourTree_name_iff (f f' : Bool) : tourTree f = tourTree f' ↔ f = f' := by
  revert f f'
  decide +kernel

theorem pairQueue_name_iff (q q' : List Char) : pairQueue q = pairQueue q' ↔ q = q' :=
  ⟨List.append_cancel_left, congrArg _⟩

/-- Geobuckets have the same name if and only if they have the same settings. -/
theorem geobucket_name_iff (c : Geobucket.Conf E) (c' : Geobucket.Conf F) : geobucket c = geobucket c' ↔
    c.geoBase = c'.geoBase ∧ c.minBucketSize = c'.minBucketSize ∧ c.insertFactor = c'.insertFactor ∧
    c.binarySearch = c'.binarySearch ∧ c.trackFront = c'.trackFront ∧ c.supportDedup = c'.supportDedup ∧
    c.premerge = c'.premerge ∧ c.collectMax = c'.collectMax ∧ c.storage = c'.storage := by
  constructor
  · intro h
    unfold geobucket at h
    simp only [List.append_assoc] at h
    have h := List.append_cancel_left h
    obtain ⟨h1, h⟩ := decimal_append (ends_cons (c := 'm') (by decide)) (ends_cons (c := 'm') (by decide)) h
    obtain ⟨h2, h⟩ := decimal_append (ends_cons (c := 'i') (by decide)) (ends_cons (c := 'i') (by decide))
      (List.append_cancel_left (as := ['m']) h)
    obtain ⟨h3, h⟩ := decimal_append (geoFlags_ends _ _ _ _ _ _) (geoFlags_ends _ _ _ _ _ _)
      (List.append_cancel_left (as := ['i']) h)
    exact ⟨h1, h2, h3, geoFlags_all _ (mem_storages _) _ (mem_storages _) _ _ _ _ _ _ _ _ _ _ h⟩
  · rintro ⟨h1, h2, h3, h4, h5, h6, h7, h8, h9⟩
    unfold geobucket
    rw [h1, h2, h3, h4, h5, h6, h7, h8, h9]

/-! ## Divisor finders -/

/-- Lists have the same name if and only if they agree in all settings, except for those of automatic rebuilds
without masks and for how often to rebuild without automatic rebuilds. -/
theorem divList_name_iff {r r' : List Char} (hr : '/' ∉ r) (hr' : '/' ∉ r') (c : DivList.Conf T) (c' : DivList.Conf F) :
    divList r c = divList r' c' ↔ c.useLinkedList = c'.useLinkedList ∧ c.useDivMask = c'.useDivMask ∧
      c.sortOnInsert = c'.sortOnInsert ∧ (c.useDivMask = true → c.doAutomaticRebuilds = c'.doAutomaticRebuilds ∧
        (c.doAutomaticRebuilds = true → r = r' ∧ c.rebuildMin = c'.rebuildMin)) := by
  constructor
  · intro h
    unfold divList at h
    simp only [List.append_assoc] at h
    have h := List.append_cancel_left h
    have h1 : c.useLinkedList = c'.useLinkedList := by
      cases e : c.useLinkedList <;> cases e' : c'.useLinkedList <;> rw [e, e'] at h
      · exact absurd (show some 'a' = some 'l' from congrArg (·[1]?) h) (by decide)
      · exact absurd (show some 'l' = some 'a' from congrArg (·[1]?) h) (by decide)
    rw [h1] at h
    obtain ⟨h2, h3, h4⟩ := autob_append hr hr' (listFlags_ends _ _) (listFlags_ends _ _) (listFlags_second _ _)
      (listFlags_second _ _) (List.append_cancel_left h)
    obtain ⟨h5, h6⟩ := listFlags_inj _ _ _ _ h4
    refine ⟨h1, h6, h5, fun hm => ?_⟩
    rw [← h6, hm, Bool.true_and, Bool.true_and] at h2
    exact ⟨h2, fun ha => h3 (by rw [hm, ha]; rfl)⟩
  · rintro ⟨h1, h2, h3, h4⟩
    unfold divList
    rw [h1, ← h2, h3]
    cases hm : c.useDivMask
    · rfl
    · obtain ⟨h5, h6⟩ := h4 hm
      rw [← h5]
      cases ha : c.doAutomaticRebuilds
      · rfl
      · obtain ⟨h7, h8⟩ := h6 ha
        rw [h7, h8]

/-- Lists on the same entries with the same name give the same answers and the same lists on all histories. -/
theorem divList_name_behaviour {r r' : List Char} (hr : '/' ∉ r) (hr' : '/' ∉ r') {c c' : DivList.Conf T} (h : c.Lawful)
    (h' : c'.Lawful) (hdm : c.dm = c'.dm) (hlt : c.isLessThan = c'.isLessThan) (hn : divList r c = divList r' c')
    (ops : List (DivList.Op T)) (ha : ∀ op ∈ ops, DivList.Allowed c op)
    (hsort : ∀ l, c.sort c.isLessThan l = c'.sort c'.isLessThan l) :
    ∃ s s', DivList.init c = some s ∧ DivList.init c' = some s' ∧
      (DivList.run c s ops).map (fun r => (r.1, r.2.contents)) =
      (DivList.run c' s' ops).map (fun r => (r.1, r.2.contents)) :=
  DivList.lists_agree h h' hdm hlt ((divList_name_iff hr hr' c c').1 hn).2.2.1 ops ha (.inr hsort)

/-- Trees have the same name if and only if they agree in all settings, except for those of automatic rebuilds
without masks and for how often to rebuild without automatic rebuilds. -/
theorem kdTree_name_iff {r r' : List Char} (hr : '/' ∉ r) (hr' : '/' ∉ r') {c : KDTree.Conf T} {c' : KDTree.Conf F}
    (h : c.Lawful) (h' : c'.Lawful) :
    kdTree r c = kdTree r' c' ↔ c.packed = c'.packed ∧ c.leafSize = c'.leafSize ∧ c.useDivMask = c'.useDivMask ∧
      c.useTreeDivMask = c'.useTreeDivMask ∧ c.sortOnInsert = c'.sortOnInsert ∧
      c.useDivisorCache = c'.useDivisorCache ∧ c.allowRemovals = c'.allowRemovals ∧
      (c.useDivMask = true → c.doAutomaticRebuilds = c'.doAutomaticRebuilds ∧
        (c.doAutomaticRebuilds = true → r = r' ∧ c.rebuildMin = c'.rebuildMin)) := by
  constructor
  · intro hn
    unfold kdTree at hn
    simp only [List.append_assoc] at hn
    have hn := List.append_cancel_left hn
    have h1 : c.packed = c'.packed := by
      cases e : c.packed <;> cases e' : c'.packed <;> rw [e, e'] at hn
      · exact absurd (show some 'b' = some 'p' from congrArg (·[0]?) hn) (by decide)
      · exact absurd (show some 'p' = some 'b' from congrArg (·[0]?) hn) (by decide)
    rw [h1] at hn
    have hn := List.append_cancel_left (List.append_cancel_left (List.append_cancel_left hn))
    obtain ⟨h2, hn⟩ := decimal_append (autob_ends (treeFlags_ends _ _ _ _ _)) (autob_ends (treeFlags_ends _ _ _ _ _)) hn
    obtain ⟨h3, h4, h5⟩ := autob_append hr hr' (treeFlags_ends _ _ _ _ _) (treeFlags_ends _ _ _ _ _)
      (treeFlags_second _ _ _ _ _) (treeFlags_second _ _ _ _ _) hn
    obtain ⟨h6, h7, h8, h9, h10⟩ := treeFlags_inj _ _ _ _ _ _ _ _ _ _ h.treeMask h'.treeMask h5
    refine ⟨h1, h2, h6, h7, h8, h9, h10, fun hm => ?_⟩
    rw [← h6, hm, Bool.true_and, Bool.true_and] at h3
    exact ⟨h3, fun ha => h4 (by rw [hm, ha]; rfl)⟩
  · rintro ⟨h1, h2, h3, h4, h5, h6, h7, h8⟩
    unfold kdTree
    rw [h1, h2, ← h3, h4, h5, h6, h7]
    cases hm : c.useDivMask
    · rfl
    · obtain ⟨h9, h10⟩ := h8 hm
      rw [← h9]
      cases ha : c.doAutomaticRebuilds
      · rfl
      · obtain ⟨h11, h12⟩ := h10 ha
        rw [h11, h12]

/-- The part of the property that holds for trees: if masks are in use or neither tree rebuilds by itself, then trees on
the same entries with the same name are configured alike. What is missing is in `kdTree_name_refuted`. -/
theorem kdTree_name_partial {r r' : List Char} (hr : '/' ∉ r) (hr' : '/' ∉ r') {c c' : KDTree.Conf T} (h : c.Lawful)
    (h' : c'.Lawful) (hn : kdTree r c = kdTree r' c')
    (hk : c.useDivMask = true ∨ (c.doAutomaticRebuilds = false ∧ c'.doAutomaticRebuilds = false)) :
    c' = { c with dm := c'.dm, isLessThan := c'.isLessThan, rebuildSize := c'.rebuildSize, sortVars := c'.sortVars,
                  sort := c'.sort, partition := c'.partition, selfCopyUndefined := c'.selfCopyUndefined,
                  rebuildMin := if c.doAutomaticRebuilds then c.rebuildMin else c'.rebuildMin } := by
  obtain ⟨h1, h2, h3, h4, h5, h6, h7, h8⟩ := (kdTree_name_iff hr hr' h h').1 hn
  rcases hk with hk | ⟨hk, hk'⟩
  · obtain ⟨h9, h10⟩ := h8 hk
    cases ha : c.doAutomaticRebuilds
    · rw [if_neg (by decide), ← ha, h1, h2, h3, h4, h5, h6, h7, h9]
    · rw [if_pos rfl, (h10 ha).2, ← ha, h1, h2, h3, h4, h5, h6, h7, h9]
  · rw [hk, if_neg (by decide), ← hk', h1, h2, h3, h4, h5, h6, h7]

/-- Trees without masks. -/
def exTree (packed auto : Bool) : KDTree.Conf (List ℕ) :=
  { KDTree.exConf packed false auto 1 with useDivMask := false, useTreeDivMask := false }

theorem exTree_lawful (packed auto : Bool) : (exTree packed auto).Lawful :=
  { KDTree.exConf_lawful packed false auto (leafSize := 1) (by decide) with
    treeMask := nofun
    noOverflow := nofun }

/-- What a tree puts out after insertions. -/
def shown (c : KDTree.Conf (List ℕ)) (l : List (List ℕ)) : Option (List (List ℕ)) :=
  match KDTree.init c with
  | none => none
  | some s =>
    match KDTree.run c s (l.map .insert ++ [.forAll (fun _ => .go)]) with
    | .ok (rs, _) =>
      match rs.getLast? with
      | some (.got l false) => some l
      | _ => none
    | _ => none

/-- Without masks trees rebuild by themselves too, which the name does not show: the trees have the same name and differ
in no other setting, and put out their entries in different orders. -/
theorem kdTree_name_refuted (packed : Bool) : ∃ c c' : KDTree.Conf (List ℕ), c.Lawful ∧ c'.Lawful ∧ c.packed = packed ∧
    c = { c' with doAutomaticRebuilds := true } ∧ (∀ r, kdTree r c = kdTree r c') ∧
    ∃ l, shown c l = some [[1, 1], [3, 3], [0, 5], [5], [7]] ∧ shown c' l = some [[1, 1], [0, 5], [5], [3, 3], [7]] := by
  refine ⟨exTree packed true, exTree packed false, exTree_lawful _ _, exTree_lawful _ _, rfl, rfl, fun _ => rfl,
    [[5], [0, 5], [7], [1, 1], [3, 3]], ?_, ?_⟩ <;> cases packed <;> decide +kernel

/-! ## Kinds -/

/-- What has a name. -/
inductive Thing : Type 1 where
  | heap (E : Type) (fastIndex : Bool) (c : PQConf E)
  | tourTree (fastIndex : Bool)
  | stlSet
  | geobucket (E : Type) (c : Geobucket.Conf E)
  | pairQueue (columnQueue : List Char)
  | divList (T : Type) (ratio : List Char) (c : DivList.Conf T)
  | kdTree (T : Type) (ratio : List Char) (c : KDTree.Conf T)

/-- Its name. -/
def Thing.name : Thing → List Char
  | .heap _ f c => Name.heap f c
  | .tourTree f => Name.tourTree f
  | .stlSet => Name.stlSet
  | .geobucket _ c => Name.geobucket c
  | .pairQueue q => Name.pairQueue q
  | .divList _ r c => Name.divList r c
  | .kdTree _ r c => Name.kdTree r c

/-- A number for each of the seven class templates. -/
def Thing.kind : Thing → ℕ
  | .heap .. => 0
  | .tourTree .. => 1
  | .stlSet => 2
  | .geobucket .. => 3
  | .pairQueue .. => 4
  | .divList .. => 5
  | .kdTree .. => 6

/-- The kind is known from the name. -/
theorem kind_of_name {x y : Thing} (h : x.name = y.name) : x.kind = y.kind := by
  have hh : ∀ x : Thing, x.name.head? = ['h', 't', 's', 'G', 'P', 'D', 'K'][x.kind]? := by
    intro x
    cases x <;> rfl
  have hk : ∀ x : Thing, x.kind < 7 := by intro x; cases x <;> simp [Thing.kind]
  have h1 := hh x
  rw [h, hh y] at h1
  have key : ∀ i < 7, ∀ j < 7, ['h', 't', 's', 'G', 'P', 'D', 'K'][j]? = ['h', 't', 's', 'G', 'P', 'D', 'K'][i]? → i = j := by
    decide
  exact key _ (hk x) _ (hk y) h1

/-! ## Models of the simulators -/

/-- The names of the models on priority queues: the queue, the use of `decreaseTop` and what it runs on. All names of
queues end in `')'` or `'t'`. -/
theorem model_name_iff {q q' : List Char} (hq : q.getLast? ≠ some 'p') (hq' : q'.getLast? ≠ some 'p') (d d' o o' : Bool) :
    model q d o = model q' d' o' ↔ q = q' ∧ d = d' ∧ o = o' := by
  constructor
  · intro h
    unfold model at h
    obtain ⟨h1, h2⟩ := ends_inj 1 (by decide) (by decide) (by decide) h
    obtain ⟨x, e1, e2⟩ := getLast_model q hq d
    obtain ⟨x', e1', e2'⟩ := getLast_model q' hq' d'
    have h3 : d = d' := by
      rw [Bool.eq_iff_iff, ← e2, ← e2', ← e1, ← e1', h2]
    rw [h3] at h2
    exact ⟨List.append_cancel_right h2, h3, h1⟩
  · rintro ⟨rfl, rfl, rfl⟩
    rfl

/-- The names of queues end as `model_name_iff` asks. -/
theorem queue_names_end (f : Bool) (c : PQConf E) (g : Geobucket.Conf E) : (heap f c).getLast? = some ')' ∧
    (tourTree f).getLast? = some ')' ∧ stlSet.getLast? = some 't' ∧ (geobucket g).getLast? = some ')' := by
  refine ⟨by unfold heap; rw [List.getLast?_concat], by unfold tourTree; rw [List.getLast?_concat], by decide, ?_⟩
  unfold geobucket geoFlags
  rw [← List.append_assoc, List.getLast?_concat]

/-- The names of the models on lists. -/
theorem divListModel_name_iff (r r' : List Char) (c : Minimize.ListConf T) (c' : Minimize.ListConf F) :
    divListModel r c = divListModel r' c' ↔ divList r c.finder = divList r' c'.finder ∧
      c.minimizeOnInsert = c'.minimizeOnInsert ∧ c.moveDivisorToFront = c'.moveDivisorToFront := by
  constructor
  · intro h
    unfold divListModel at h
    have hb : ∀ (b : Bool) (q : List Char) (m : Bool), ((q ++ if m then " remin".toList else " nomin".toList) ++
        opt b " toFront".toList).getLast? = if b then some 't' else some 'n' := by
      have e1 : " remin".toList = [' ', 'r', 'e', 'm', 'i', 'n'] := rfl
      have e2 : " nomin".toList = [' ', 'n', 'o', 'm', 'i', 'n'] := rfl
      have e3 : " toFront".toList = [' ', 't', 'o', 'F', 'r', 'o', 'n', 't'] := rfl
      intro b q m
      rw [e1, e2, e3]
      cases b <;> cases m <;> simp [opt]
    have h1 := congrArg List.getLast? h
    rw [hb, hb] at h1
    have h2 : c.moveDivisorToFront = c'.moveDivisorToFront := by
      revert h1
      generalize c.moveDivisorToFront = b
      generalize c'.moveDivisorToFront = b'
      revert b b'
      decide
    rw [h2] at h
    have h3 := List.append_cancel_right h
    have hl : ∀ m m' : Bool, (if m then " remin".toList else " nomin".toList).length =
        (if m' then " remin".toList else " nomin".toList).length := by decide
    obtain ⟨h4, h5⟩ := List.append_inj' h3 (hl _ _)
    refine ⟨h4, ?_, h2⟩
    revert h5
    generalize c.minimizeOnInsert = b
    generalize c'.minimizeOnInsert = b'
    revert b b'
    decide
  · rintro ⟨h1, h2, h3⟩
    unfold divListModel
    rw [h1, h2, h3]

/-- The names of the models on trees. -/
theorem kdTreeModel_name_iff (r r' : List Char) (c : Minimize.TreeConf T) (c' : Minimize.TreeConf F) :
    kdTreeModel r c = kdTreeModel r' c' ↔ kdTree r c.finder = kdTree r' c'.finder ∧
      c.minimizeOnInsert = c'.minimizeOnInsert := by
  constructor
  · intro h
    unfold kdTreeModel at h
    have hl : ∀ m m' : Bool, (if m then " remin".toList else " nomin".toList).length =
        (if m' then " remin".toList else " nomin".toList).length := by decide
    obtain ⟨h4, h5⟩ := List.append_inj' h (hl _ _)
    refine ⟨h4, ?_⟩
    revert h5
    generalize c.minimizeOnInsert = b
    generalize c'.minimizeOnInsert = b'
    revert b b'
    decide
  · rintro ⟨h1, h2⟩
    unfold kdTreeModel
    rw [h1, h2]

/-! ## Concrete cases -/

/-- A configuration of geobuckets. -/
def exGeo (base min : ℕ) (tf : Bool) (s : Geobucket.Storage) : Geobucket.Conf ℕ where
  lt a b := decide (a < b)
  eq a b := a == b
  dedup a _ := a
  supportDedup := true
  minBucketSize := min
  geoBase := base
  insertFactor := 1
  binarySearch := false
  trackFront := tf
  premerge := false
  collectMax := true
  storage := s

#guard geobucket (exGeo 4 32 true .sameSize) == "Geobucket(b4m32i1 tf dedup col ss)".toList
#guard geobucket (exGeo 43 2 false .plain) == "Geobucket(b43m2i1 dedup col)".toList
#guard heap true (exGeo 4 32 true .plain).toPQConf == "heap(fi dedup)".toList
#guard pairQueue (tourTree false) == "PairQueue-t-tree (si)".toList
#guard divList "0.5".toList (DivList.exConf 1 true true true) == "DivList linked autob:0.5/2 sort dmask".toList
#guard kdTree "0.5".toList (KDTree.exConf true true true 15) == "KDTree(packed) leaf:15 autob:0.5/2 tree-dmask sort cache".toList
#guard kdTree "0.5".toList (exTree false true) == "KDTree(binary) leaf:1 sort".toList
#guard model stlSet true false == "stlset dectop on elements".toList

/-- Names of numbers that would run together without the letters between them. -/
example : geobucket (exGeo 4 32 true .plain) ≠ geobucket (exGeo 43 2 true .plain) := by
  intro h
  exact absurd ((geobucket_name_iff _ _).1 h).1 (by decide)

/-- The names of the rows that `main` of `pqsim` puts out (src/pqsim/pqMain.cpp:50-60). -/
def mainNames : List (List Char) :=
  let geo (base : ℕ) (dedup : Bool) := geobucket (E := ℕ) { exGeo base 32 false .plain with
    supportDedup := dedup, collectMax := false }
  let conf (dedup : Bool) : PQConf ℕ := { (exGeo 4 32 false .plain).toPQConf with supportDedup := dedup }
  [model (tourTree false) true true, model (tourTree false) true false,
   model (geo 4 false) false false, model (geo 2 false) false false, model (geo 4 true) false false,
   model stlSet false true, model stlSet false false,
   model (heap false (conf false)) true false, model (heap false (conf false)) true true,
   model (heap false (conf true)) true false, model (heap false (conf true)) true true]

/-- No two rows have the same name. -/
theorem mainNames_nodup : mainNames.Nodup := by decide +kernel

end Verif.Name
