import Verif.DivSimProofs
import Verif.PropKDTree

/-!
# The simulation of divisor finders (C79)

The simulation is to accuse no correct finder, to take the number of insertions that it is asked for, and `main` is
to get through. A finder is correct if it answers like a multiset of monomials, and `DivListModel` and `KDTreeModel`
are correct. With a single repeat no correct finder is accused. With two repeats correct finders are accused, one
monomial too many is inserted, and `main` ends with an exception if two of the monomials that it inserts are equal.
-/

namespace Verif.DivSim

variable {n : ℕ}

/-! ## Correct finders -/

/-- All kinds of `DivListModel` are correct, if the `ASSERT` of the constructor holds and if it is not about masks in
one variable (where the constructor of the masks overflows, C59). -/
theorem listModel_correct {lib : Lib} (hlib : lib.Lawful) (n : ℕ) (ull : Bool) {udm : Bool} (mini : Bool)
    {front sortOnInsert : Bool} (ratio : Ratio) (hn : udm = true → n ≠ 1) (hf : sortOnInsert = true → front = false) :
    (listFinder (listModel lib n ull udm mini front sortOnInsert ratio)).Correct mini (fun _ => True) :=
  list_correct (c := listModel lib n ull udm mini front sortOnInsert ratio)
    (listModel_lawful hlib n ull mini front sortOnInsert ratio hn) rfl hf

/-- All kinds of `KDTreeModel` are correct; those that do not minimize as long as no monomial is inserted more often
than a leaf can hold. -/
theorem treeModel_correct {lib : Lib} (hlib : lib.Lawful) (n : ℕ) {udm utdm : Bool} (packed : Bool) {leafSize : ℕ}
    {removals mini : Bool} (sortOnInsert cache : Bool) (ratio : Ratio) (hn : udm = true → n ≠ 1)
    (ht : utdm = true → udm = true) (hleaf : 0 < leafSize) (hrem : mini = true → removals = true) :
    (treeFinder (treeModel lib n udm utdm packed leafSize removals mini sortOnInsert cache ratio)).Correct mini
      (fun cs => mini = true ∨ AtMost leafSize cs) :=
  tree_correct (c := treeModel lib n udm utdm packed leafSize removals mini sortOnInsert cache ratio)
    (treeModel_lawful hlib n packed removals mini sortOnInsert cache ratio hn ht hleaf) rfl hrem

/-! ## Correct finders are not accused -/

/-- With one repeat, correct finders that minimize all or all not get through any simulation, one after the other.
C79 asks it for any number of repeats. -/
theorem simulate_passes_partial (hn : n ≠ 0) {mini : Bool} (R : ℕ → ℕ) (inserts queries : ℕ) (findAll : Bool)
    (Fs : List (Finder (Mono n)))
    (h : ∀ F ∈ Fs, ∃ H : List (Call n) → Prop, F.Correct mini H ∧ H (asked findAll (makeStandard R n inserts queries))) :
    ∃ es, simulate 1 findAll Fs (makeStandard R n inserts queries) = some (.ok es) :=
  simulate_fresh hn (makeStandard_fresh R n inserts queries) Fs h

/-- A finder that runs after a correct one and gives any other answer, in a number of monomials or in whether there is a
divisor, is accused. -/
theorem simulate_accuses (hn : n ≠ 0) {mini : Bool} (R : ℕ → ℕ) (inserts queries : ℕ) (findAll : Bool)
    {F G : Finder (Mono n)} {H : List (Call n) → Prop} (hF : F.Correct mini H)
    (hH : H (asked findAll (makeStandard R n inserts queries))) {s s' : G.State} {as : List Answer} (h1 : G.init = some s)
    (h2 : G.calls s (asked findAll (makeStandard R n inserts queries)) = some (as, s'))
    (h3 : as ≠ answers mini 0 (asked findAll (makeStandard R n inserts queries))) (Gs : List (Finder (Mono n))) :
    simulate 1 findAll (F :: G :: Gs) (makeStandard R n inserts queries) = some .accused :=
  simulate_other hn (makeStandard_fresh R n inserts queries) hF hH h1 h2 h3 Gs

/-- `main` gets through if the 5001 monomials that it inserts are distinct. C79 asks it for any values of `rand()`. -/
theorem main_passes_partial {lib : Lib} (hlib : lib.Lawful) {R : ℕ → ℕ}
    (h : ∀ i ≤ 5000, ∀ j ≤ 5000, makeRandom R 10 (i * 10) = makeRandom R 10 (j * 10) → i = j) :
    ∃ es, main lib R = some (.ok es) := by
  have h1 := (atMost_one_iff R 10 5000 2000000 (by decide) true).mpr h
  refine simulate_passes_partial (mini := false) (by decide) R 5000 2000000 true _ ?_
  intro F hF
  rcases List.mem_cons.mp hF with rfl | hF
  · exact ⟨_, treeModel_correct hlib 10 true false false ⟨true, id, 1000⟩ (fun _ => by decide) (fun _ => rfl) (by decide)
      nofun, .inr h1⟩
  · cases List.mem_singleton.mp hF
    exact ⟨_, treeModel_correct hlib 10 true false false ⟨true, id, 1000⟩ (fun _ => by decide) (fun _ => rfl) (by decide)
      nofun, .inr h1⟩

/-! ## What goes wrong -/

/-- If two of the monomials that `main` inserts are equal, the first tree throws, whose leaves hold one entry, and
nobody catches it. -/
theorem main_throws {lib : Lib} (hlib : lib.Lawful) {R : ℕ → ℕ} {i j : ℕ} (hi : i ≤ 5000) (hj : j ≤ 5000) (hij : i ≠ j)
    (h : makeRandom R 10 (i * 10) = makeRandom R 10 (j * 10)) : main lib R = none := by
  have hat : ¬ AtMost 1 (asked true (makeStandard R 10 5000 2000000)) := by
    intro h1
    exact hij ((atMost_one_iff R 10 5000 2000000 (by decide) true).mp h1 i hi j hj h)
  unfold main
  rw [simulate, tree_throws (by decide)
    (c := treeModel lib 10 true true true 1 true false false false ⟨true, id, 1000⟩)
    (treeModel_lawful hlib 10 true true false false false ⟨true, id, 1000⟩ (fun _ => by decide) (fun _ => rfl) (by decide))
    rfl rfl (makeStandard_fresh R 10 5000 2000000) hat 0]

/-- So `main` does not get through for all values of `rand()`. -/
theorem main_refuted {lib : Lib} (hlib : lib.Lawful) : ∃ R, main lib R = none :=
  ⟨fun _ => 0, main_throws hlib (i := 0) (j := 1) (by decide) (by decide) (by decide) (by decide)⟩

/-- With two repeats, each correct finder that does not minimize is accused: the finder of the first repeat is kept, so
that the second one finds each divisor twice. -/
theorem repeats_refuted (hn : n ≠ 0) {F : Finder (Mono n)} {H : List (Call n) → Prop} (hF : F.Correct false H)
    (hH : ∀ cs, AtMost 2 cs → H cs) : runFinder 2 true F (makeStandard (fun _ => 0) n 0 2) = some .accused := by
  obtain ⟨e, he⟩ : ∃ e, e = makeRandom (fun _ => 0) n 0 := ⟨_, rfl⟩
  have he' : makeRandom (fun _ => 0) n n = e := by rw [he]; rfl
  have hes : makeStandard (fun _ => 0) n 0 2 = [⟨.insertUnknown, e, none⟩, ⟨.queryUnknown, e, none⟩] := by
    have : makeStandard (fun _ => 0) n 0 2 =
      [⟨.insertUnknown, makeRandom (fun _ => 0) n (0 * n), none⟩, ⟨.queryUnknown, makeRandom (fun _ => 0) n (1 * n), none⟩] := rfl
    rw [this, Nat.zero_mul, Nat.one_mul, he', he]
  have hd : Divides e e := fun _ _ => le_refl _
  rw [hes, runFinder_two hn hF (es := [⟨.insertUnknown, e, none⟩, ⟨.queryUnknown, e, none⟩])
    (es' := [⟨.insertKnown, e, some 0⟩, ⟨.queryHasDivisor, e, some 1⟩])
    (as₁ := [.count 0, .count 1]) (as₂ := [.count 0, .count 2]) (hH _ ?_) ?_ rfl rfl rfl]
  · rfl
  · intro x
    show (e ::ₘ e ::ₘ (0 : Multiset (Mono n))).count x ≤ 2
    rw [Multiset.count_cons, Multiset.count_cons, Multiset.count_zero]
    split <;> omega
  · simp [asked, answers, ideal, hd, Multiset.filter_singleton]

/-- With two repeats, each correct finder that minimizes is accused once an insertion has put out an entry: the second
time there is nothing to put out. -/
theorem repeats_minimize_refuted (hn : n ≠ 0) {F : Finder (Mono n)} {H : List (Call n) → Prop} (hF : F.Correct true H)
    (hH : ∀ cs, AtMost 2 cs → H cs) (findAll : Bool) :
    runFinder 2 findAll F (makeStandard (fun i => if i < n then 1 else 0) n 1 1) = some .accused := by
  obtain ⟨R, hR⟩ : ∃ R : ℕ → ℕ, R = fun i => if i < n then 1 else 0 := ⟨_, rfl⟩
  rw [← hR]
  obtain ⟨a, ha⟩ : ∃ a, a = makeRandom R n 0 := ⟨_, rfl⟩
  obtain ⟨b, hb⟩ : ∃ b, b = makeRandom R n n := ⟨_, rfl⟩
  have hes : makeStandard R n 1 1 = [⟨.insertUnknown, a, none⟩, ⟨.insertUnknown, b, none⟩] := by
    have : makeStandard R n 1 1 =
      [⟨.insertUnknown, makeRandom R n (0 * n), none⟩, ⟨.insertUnknown, makeRandom R n (1 * n), none⟩] := rfl
    rw [this, Nat.zero_mul, Nat.one_mul, ha, hb]
  have hav : ∀ v < n, a.1.getD v 0 = 1 := by
    intro v hv
    rw [ha, hR]
    simp [makeRandom, List.getD_eq_getElem?_getD, hv]
  have hbv : ∀ v < n, b.1.getD v 0 = 0 := by
    intro v hv
    rw [hb, hR]
    simp [makeRandom, List.getD_eq_getElem?_getD, hv]
  have hba : Divides b a := by intro v hv; rw [hav v hv, hbv v hv]; exact Nat.zero_le _
  have hab : ¬ Divides a b := by
    intro h
    have := h 0 (by omega)
    rw [hav 0 (by omega), hbv 0 (by omega)] at this
    omega
  have hbb : Divides b b := fun _ _ => le_refl _
  have hne : b ≠ a := by rintro rfl; exact hab hbb
  rw [hes, runFinder_two hn hF (es' := [⟨.insertKnown, a, some 0⟩, ⟨.insertKnown, b, some 1⟩])
    (as₁ := [.count 0, .count 1]) (as₂ := [.count 0, .count 0]) (hH _ ?_) ?_ rfl ?_ ?_]
  · cases findAll <;> rfl
  · intro x
    have : insertedBy (asked findAll [⟨.insertUnknown, a, none⟩, ⟨.insertUnknown, b, none⟩] ++
        asked findAll [⟨.insertUnknown, a, none⟩, ⟨.insertUnknown, b, none⟩]) =
        a ::ₘ b ::ₘ a ::ₘ b ::ₘ (0 : Multiset (Mono n)) := by cases findAll <;> rfl
    rw [this]
    simp only [Multiset.count_cons, Multiset.count_zero]
    by_cases h1 : x = a
    · subst h1; simp [Ne.symm hne]
    · simp only [h1, if_false]; split <;> omega
  · simp [asked, answers, ideal, hba, hab, hbb, Multiset.filter_singleton]
  · cases findAll <;> rfl
  · cases findAll <;> rfl

/-- Zero variables: the address of the first element of an empty vector is taken. -/
theorem noVariables_refuted (F : Finder (Mono 0)) (findAll : Bool) (R : ℕ → ℕ) {inserts queries : ℕ}
    (h : 0 < inserts + queries) (repeats : ℕ) :
    runFinder (repeats + 1) findAll F (makeStandard R 0 inserts queries) = none := by
  rw [runFinder]
  cases F.init with
  | none => rfl
  | some s =>
    have hr : runEvents F findAll s (makeStandard R 0 inserts queries) = none := by
      obtain ⟨k, hk⟩ : ∃ k, inserts + queries = k + 1 := ⟨inserts + queries - 1, by omega⟩
      unfold makeStandard
      rw [hk, List.range_succ_eq_map, List.map_cons, runEvents, runEvent, toMonomial, if_pos rfl]
    simp only [repeatEvents, hr]

/-- As soon as there are queries, one monomial more is inserted than was asked for, and there is a query less. -/
theorem insertions_refuted (R : ℕ → ℕ) (n inserts : ℕ) {queries : ℕ} (hq : 0 < queries) :
    insertions (makeStandard R n inserts queries) = inserts + 1 ∧
    (makeStandard R n inserts queries).length = inserts + queries := by
  constructor
  · unfold insertions makeStandard
    rw [List.countP_map]
    obtain ⟨k, rfl⟩ : ∃ k, queries = k + 1 := ⟨queries - 1, by omega⟩
    rw [show inserts + (k + 1) = (inserts + 1) + k by omega, List.range_add, List.countP_append]
    rw [List.countP_eq_length.mpr, List.countP_eq_zero.mpr, List.length_range]
    · intro i hi
      obtain ⟨j, _, rfl⟩ := List.mem_map.mp hi
      have : ¬ inserts + 1 + j ≤ inserts := by omega
      simp [this]
    · intro i hi
      have : i ≤ inserts := by have := List.mem_range.mp hi; omega
      simp [this]
  · rw [makeStandard, List.length_map, List.length_range]

/-! ## Examples -/

/-- A standard library. -/
def exLib : Lib where
  sortVars := DivMask.exSort
  sort := DivList.exSort
  partition p l := (l.filter p, l.filter (fun x => !p x))

theorem exLib_lawful : exLib.Lawful where
  sortVars := DivMask.exSort_isSort
  sort := DivList.exSort_isSortFn
  partition := by
    intro α p l
    refine ⟨List.filter_append_perm p l, ?_, ?_⟩
    · intro x hx; exact (List.mem_filter.mp hx).2
    · intro x hx; simpa using (List.mem_filter.mp hx).2

/-- A generator of numbers. -/
def exRand (i : ℕ) : ℕ := (i * 7919 + i * i * 104729 + 17) % 32768 / 7

/-- Finders of all kinds. -/
def exFinders (n : ℕ) (mini : Bool) : List (Finder (Mono n)) :=
  [listFinder (listModel exLib n true true mini false true ⟨true, (· / 2), 3⟩),
   treeFinder (treeModel exLib n true true true 2 true mini true true ⟨true, (· / 2), 3⟩),
   treeFinder (treeModel exLib n true false false 3 true mini false true ⟨true, id, 10⟩),
   listFinder (listModel exLib n false false mini true false ⟨false, fun _ => 0, 0⟩)]

/-- How a simulation ends: the types of the events. -/
def exOutcome {n : ℕ} (repeats : ℕ) (findAll : Bool) (Fs : List (Finder (Mono n))) (es : List (Event n)) :
    Option (Option (List (EventType × Option ℕ))) :=
  match simulate repeats findAll Fs es with
  | none => none
  | some .accused => some none
  | some (.ok es) => some (some (es.map (fun e => (e.type, e.count))))

-- all finders give the same answers
#guard [false, true].all (fun mini => (exOutcome 1 true (exFinders 3 mini) (makeStandard exRand 3 20 30)).any (·.any (fun l =>
  l.countP (fun x => x.1 == .insertKnown) == 21 && l.countP (fun x => x.1 == .queryHasDivisor) > 3 &&
  l.countP (fun x => x.1 == .queryNoDivisor) > 2)))
#guard [false, true].all (fun mini => (exOutcome 1 false (exFinders 3 mini) (makeStandard exRand 3 20 30)).any (·.isSome))
-- two repeats
#guard exOutcome 2 true (exFinders 3 false) (makeStandard exRand 3 20 30) == some none
-- a finder that minimizes after one that does not
#guard exOutcome 1 true (exFinders 3 false ++ exFinders 3 true) (makeStandard exRand 3 20 30) == some none
-- leaves of one entry and equal monomials
#guard exOutcome 1 true [treeFinder (treeModel exLib 3 true true true 1 true false false false ⟨true, id, 1000⟩)]
  (makeStandard (fun _ => 5) 3 1 1) == none

/-- A finder that finds nothing after one that is correct is accused. -/
def exBlind (n : ℕ) : Finder (Mono n) where
  State := Unit
  init := some ()
  insert _ _ := some ([], ())
  findDivisor _ _ := some (none, ())
  findAllDivisors _ _ := some ([], ())

#guard exOutcome 1 true (exFinders 3 false ++ [exBlind 3]) (makeStandard exRand 3 20 30) == some none
#guard exOutcome 1 false (exFinders 3 false ++ [exBlind 3]) (makeStandard exRand 3 20 30) == some none
#guard exOutcome 1 false (exBlind 3 :: exFinders 3 false) (makeStandard exRand 3 20 30) == some none

/-- The hypotheses of `simulate_passes_partial` are met by finders of all kinds. -/
example (R : ℕ → ℕ) (inserts queries : ℕ) (findAll : Bool) :
    ∃ es, simulate 1 findAll (exFinders 3 true) (makeStandard R 3 inserts queries) = some (.ok es) := by
  refine simulate_passes_partial (mini := true) (by decide) R inserts queries findAll _ ?_
  intro F hF
  simp only [exFinders, List.mem_cons, List.not_mem_nil, or_false] at hF
  rcases hF with rfl | rfl | rfl | rfl
  · exact ⟨_, listModel_correct exLib_lawful 3 _ _ _ (fun _ => by decide) (fun _ => rfl), trivial⟩
  · exact ⟨_, treeModel_correct exLib_lawful 3 _ _ _ _ (fun _ => by decide) (fun _ => rfl) (by decide) (fun _ => rfl),
      .inl rfl⟩
  · exact ⟨_, treeModel_correct exLib_lawful 3 _ _ _ _ (fun _ => by decide) nofun (by decide) (fun _ => rfl), .inl rfl⟩
  · exact ⟨_, listModel_correct exLib_lawful 3 _ _ _ nofun nofun, trivial⟩

/-- The hypotheses of `simulate_accuses` are met. -/
example : simulate 1 true [listFinder (listModel exLib 2 true true false false true ⟨true, (· / 2), 3⟩), exBlind 2]
    (makeStandard (fun _ => 0) 2 0 2) = some .accused :=
  simulate_accuses (by decide) _ 0 2 true
    (listModel_correct exLib_lawful 2 _ _ _ (fun _ => by decide) (fun _ => rfl)) trivial (as := [.count 0, .count 0])
    (s := ()) (s' := ()) rfl rfl (by decide) []

/-- The hypotheses of `main_passes_partial` are met. -/
example : ∃ es, main exLib (fun i => if i % 10 = 0 then i / 10 / 1000 else i / 10 % 1000) = some (.ok es) := by
  refine main_passes_partial exLib_lawful ?_
  intro i hi j hj h
  have h0 := congrArg (fun m : Mono 10 => m.1.getD 0 0) h
  have h1 := congrArg (fun m : Mono 10 => m.1.getD 1 0) h
  simp [makeRandom, List.range_succ] at h0 h1
  omega

/-- The hypotheses of `repeats_refuted` and `repeats_minimize_refuted` are met. -/
example := repeats_refuted (n := 3) (by decide)
  (listModel_correct exLib_lawful 3 true false ⟨true, id, 5⟩ (udm := true) (front := true) (sortOnInsert := false)
    (fun _ => by decide) nofun) (fun _ _ => trivial)

example := repeats_minimize_refuted (n := 3) (by decide)
  (treeModel_correct exLib_lawful 3 true true true ⟨true, id, 5⟩ (udm := true) (utdm := true) (leafSize := 1)
    (fun _ => by decide) (fun _ => rfl) (by decide) (fun _ => rfl)) (fun _ _ => .inl rfl) true

end Verif.DivSim
