import Verif.PrintProofs
import Verif.PropNames
import Verif.PropHeap
import Verif.PropTourTree

/-!
# Property C100: what `print` of the priority queues shows
-/

namespace Verif.Print

open Verif.Text (decimal)

variable {E : Type} {sh : E → List Char}

/-! ## Heap -/

/-- `print` of a heap without fast indices: a row for each depth of the tree, in front of it the number of its first
node. What is missing for fast indices is in `labels_refuted`. -/
theorem heap_print_rows_partial (size : ℕ) (c : PQConf E) (t : List E) : heap sh false size c t =
    Name.heap false c ++ ": {".toList ++ table sh (fun k => 2 ^ k) t ++ "}\n}\n".toList := by
  unfold heap
  have := comTree_table (sh := sh) (j := 0) t
  rw [Nat.pow_zero] at this
  rw [if_neg (by decide), this]
  simp only [Nat.one_mul, List.append_assoc]
  rfl

/-- With fast indices, for entries whose size is a power of two as the code asserts (src/mathic/ComTree.h:295), the rows
are the same, with labels that are `size` times as large. -/
theorem heap_print_rows_fast (j : ℕ) (c : PQConf E) (t : List E) : heap sh true (2 ^ j) c t =
    Name.heap true c ++ ": {".toList ++ table sh (fun k => 2 ^ j * 2 ^ k) t ++ "}\n}\n".toList := by
  unfold heap
  rw [if_pos rfl, comTree_table]
  simp only [List.append_assoc]
  rfl

/-- The text tells the entries and their places. -/
theorem heap_print_inj (hs : Legible sh [' ', '\n', '}']) (fastIndex : Bool) (size : ℕ) (c : PQConf E) (t t' : List E) :
    heap sh fastIndex size c t = heap sh fastIndex size c t' ↔ t = t' := by
  refine ⟨fun h => ?_, fun h => by rw [h]⟩
  unfold heap comTree at h
  simp only [List.append_assoc] at h
  have h := List.append_cancel_left (List.append_cancel_left h)
  rw [lcb] at h
  exact treeLoop_inj hs (by decide) (by decide) (by decide) 1 t t' _ _ h

/-- The rows have all the entries in order. -/
theorem depth_flatten (t : List E) : (List.range (Nat.size t.length)).flatMap (depth t) = t := by
  have key : ∀ d k, k + d = Nat.size t.length → (List.range' k d).flatMap (depth t) = t.drop (2 ^ k - 1) := by
    intro d
    induction d with
    | zero =>
      intro k h
      have : t.length < 2 ^ k := Nat.size_le.1 (by omega)
      rw [List.drop_eq_nil_of_le (by omega)]
      rfl
    | succ d ih =>
      intro k h
      have hk : 0 < 2 ^ k := Nat.two_pow_pos k
      rw [List.range'_succ, List.flatMap_cons, ih (k + 1) (by omega)]
      unfold depth
      rw [show 2 ^ (k + 1) - 1 = 2 ^ k - 1 + 2 ^ k by rw [Nat.pow_succ]; omega, ← List.drop_drop, List.take_append_drop]
  have := key (Nat.size t.length) 0 (by omega)
  rwa [Nat.pow_zero, Nat.sub_self, List.drop_zero, ← List.range_eq_range'] at this

/-- Refuted for heaps and tournament trees: `print` should write as many opening as closing braces. There is always one
more closing brace, if there are none in what is written for the entries. -/
theorem heap_print_braces (hs : ∀ e, '{' ∉ sh e ∧ '}' ∉ sh e) (fastIndex : Bool) (size : ℕ) (c : PQConf E) (t : List E) :
    (heap sh fastIndex size c t).count '}' = (heap sh fastIndex size c t).count '{' + 1 := by
  have hn : ∀ f d : Bool, ("heap(".toList ++ (if f then "fi".toList else "si".toList) ++ Name.opt d " dedup".toList ++ [')'] ++
      ": {".toList).count '{' = 1 ∧ ("heap(".toList ++ (if f then "fi".toList else "si".toList) ++
      Name.opt d " dedup".toList ++ [')'] ++ ": {".toList).count '}' = 0 := by decide +kernel
  unfold heap comTree
  obtain ⟨h1, h2⟩ := hn fastIndex c.supportDedup
  have e : Name.heap fastIndex c = "heap(".toList ++ (if fastIndex then "fi".toList else "si".toList) ++
    Name.opt c.supportDedup " dedup".toList ++ [')'] := rfl
  rw [e, List.count_append, List.count_append, List.count_append (a := '{'), List.count_append (a := '{'), h1, h2,
    List.count_append, List.count_append, count_treeLoop (by decide) (by decide) (fun e => (hs e).1),
    count_treeLoop (by decide) (by decide) (fun e => (hs e).2)]
  decide

/-! ## Tournament tree -/

/-- The same for tournament trees. -/
theorem tourTree_print_braces {addr : ℕ → List Char} (hs : ∀ p, '{' ∉ addr p ∧ '}' ∉ addr p) (fastIndex : Bool)
    (s : TourTree.State E) :
    (tourTree addr fastIndex s).count '}' = (tourTree addr fastIndex s).count '{' + 1 := by
  have hn : ∀ f : Bool, (Name.tourTree f ++ ": {\n".toList).count '{' = 1 ∧ (Name.tourTree f ++ ": {\n".toList).count '}' = 0 := by
    decide +kernel
  unfold tourTree comTree
  obtain ⟨h1, h2⟩ := hn fastIndex
  rw [List.count_append, List.count_append, List.count_append (a := '{'), List.count_append (a := '{'), h1, h2,
    List.count_append, List.count_append, count_treeLoop (by decide) (by decide) (fun e => (hs e).1),
    count_treeLoop (by decide) (by decide) (fun e => (hs e).2)]
  decide

/-! ## Set -/

/-- The text of a set tells the entries in their order. -/
theorem stlSet_print_inj (hs : Legible sh [' ', '\n']) (s s' : List E) : stlSet sh s = stlSet sh s' ↔ s = s' := by
  refine ⟨fun h => ?_, fun h => by rw [h]⟩
  unfold stlSet at h
  simp only [List.append_assoc] at h
  exact (tokens_inj (x := '\n') hs (by decide) (by decide) (by decide) s s' _ _
    (List.append_cancel_left (List.append_cancel_left h))).1

/-! ## Geobucket -/

/-- `print` of a geobucket is defined in every state. -/
theorem geobucket_print_defined (sh : E → List Char) (c : Geobucket.Conf E) (s : Geobucket.State E) :
    ∃ l, geobucket sh c s = some l := by
  unfold geobucket
  rw [bucketLoop_lines]
  exact ⟨_, rfl⟩

/-- The text of a geobucket tells the number of buckets and of each the size, the capacity, and the entries, of large
buckets the first two and the last two entries. -/
theorem geobucket_print_iff (hs : Legible sh [' ', '[']) (c : Geobucket.Conf E) (s s' : Geobucket.State E) :
    geobucket sh c s = geobucket sh c s' ↔ List.Forall₂ Alike s.buckets s'.buckets := by
  unfold geobucket
  rw [bucketLoop_lines, bucketLoop_lines]
  constructor
  · intro h
    have h := Option.some.inj h
    simp only [List.append_assoc] at h
    exact lines_inj hs 0 _ _ _ _ (List.append_cancel_left (List.append_cancel_left h))
  · intro h
    rw [lines_eq 0 h]

/-- The braces of a geobucket are balanced. For heaps and tournament trees they are not, `braces_refuted`. -/
theorem geobucket_print_balanced_partial (hs : ∀ e, '{' ∉ sh e ∧ '}' ∉ sh e) (c : Geobucket.Conf E) (s : Geobucket.State E) :
    ∀ l, geobucket sh c s = some l → Balanced l := by
  intro l h
  unfold geobucket at h
  rw [bucketLoop_lines] at h
  rw [← Option.some.inj h]
  have hdec : ∀ x : Char, x.isDigit = false → ∀ n, (decimal n).count x = 0 := by
    intro x hx n
    rw [List.count_eq_zero]
    intro hm
    have := Verif.Text.decimal_digits _ _ hm
    rw [hx] at this
    exact absurd this (by decide)
  have hf : ∀ b f d p m, ∀ st ∈ Name.storages, (Name.geoFlags b f d p m st).count '{' = 0 ∧
      (Name.geoFlags b f d p m st).count '}' = 0 := by decide +kernel
  obtain ⟨f1, f2⟩ := hf c.binarySearch c.trackFront c.supportDedup c.premerge c.collectMax _ (Name.mem_storages c.storage)
  have l1 : (lines sh 0 s.buckets).count '{' = 0 :=
    List.count_eq_zero.2 (count_lines (by decide) (by decide) (fun e => (hs e).1) 0 _)
  have l2 : (lines sh 0 s.buckets).count '}' = 0 :=
    List.count_eq_zero.2 (count_lines (by decide) (by decide) (fun e => (hs e).2) 0 _)
  unfold Balanced Name.geobucket
  simp only [List.count_append, hdec _ (show '{'.isDigit = false by decide), hdec _ (show '}'.isDigit = false by decide),
    f1, f2, l1, l2]
  decide

/-! ## Refutations and concrete cases -/

/-- Integers. -/
def exConf : PQConf ℕ where
  lt a b := decide (a < b)
  eq a b := a == b
  supportDedup := false
  dedup a _ := a

/-- How integers are written. -/
theorem decimal_legible (bad : List Char) (h : ∀ ch ∈ bad, ch.isDigit = false) : Legible decimal bad where
  inj _ _ h := Verif.Text.decimal_inj h
  clean n ch hch hb := by
    have := Verif.Text.decimal_digits n ch hch
    rw [h ch hb] at this
    exact absurd this (by decide)

/-- C100, refuted: the braces in what a heap and a tournament tree print are never balanced, whatever integers are in
them. -/
theorem braces_refuted : (∀ (f : Bool) (size : ℕ) (t : List ℕ), ¬ Balanced (heap decimal f size exConf t)) ∧
    (∀ (f : Bool) (s : TourTree.State ℕ), ¬ Balanced (tourTree decimal f s)) := by
  have hd : ∀ n, '{' ∉ decimal n ∧ '}' ∉ decimal n := by
    intro n
    exact ⟨fun h => absurd (Verif.Text.decimal_digits _ _ h) (by decide), fun h => absurd (Verif.Text.decimal_digits _ _ h) (by decide)⟩
  constructor
  · intro f size t h
    have := heap_print_braces hd f size exConf t
    unfold Balanced at h
    omega
  · intro f s h
    have := tourTree_print_braces hd f s
    unfold Balanced at h
    omega

/-- C100, refuted: with fast indices and entries of 4 bytes the rows of a heap are not labelled with the numbers of
nodes. -/
theorem labels_refuted : ∃ t : List ℕ, heap decimal true 4 exConf t ≠
    Name.heap true exConf ++ ": {".toList ++ table decimal (fun k => 2 ^ k) t ++ "}\n}\n".toList := by
  exact ⟨[3, 2], by decide +kernel⟩

/-- C100, refuted: a tournament tree writes the addresses of its players. Two trees with different entries print the
same, however addresses are written, so the entries cannot be told from the text. -/
theorem tourTree_print_refuted : ∃ s s' : TourTree.State ℕ,
    TourTree.pushRange exConf TourTree.init [5, 7] = some s ∧ TourTree.pushRange exConf TourTree.init [6, 9] = some s' ∧
    TourTree.entries s ≠ TourTree.entries s' ∧ ∀ addr f, tourTree addr f s = tourTree addr f s' := by
  have h1 : (TourTree.pushRange exConf TourTree.init [5, 7]).map (fun s => (s.tree, TourTree.entries s)) =
      some ([1, 0, 1], [5, 7]) := by decide +kernel
  have h2 : (TourTree.pushRange exConf TourTree.init [6, 9]).map (fun s => (s.tree, TourTree.entries s)) =
      some ([1, 0, 1], [6, 9]) := by decide +kernel
  obtain ⟨s, a1, a2⟩ := Option.map_eq_some_iff.1 h1
  obtain ⟨s', b1, b2⟩ := Option.map_eq_some_iff.1 h2
  rw [Prod.mk.injEq] at a2 b2
  refine ⟨s, s', a1, b1, by rw [a2.2, b2.2]; decide, fun addr f => ?_⟩
  unfold tourTree
  rw [a2.1, b2.1]

/-- The first row of a heap is its top. -/
theorem heap_first_row (t : List E) : depth t 0 = (Heap.top t).toList := by
  cases t <;> rfl

#guard heap decimal false 4 exConf [9, 5, 8, 1] == "heap(si): {\n 1: 9\n 2: 5 8\n 4: 1}\n}\n".toList
#guard heap decimal true 4 exConf [9, 5, 8, 1] == "heap(fi): {\n 4: 9\n 8: 5 8\n 16: 1}\n}\n".toList
#guard heap decimal false 4 exConf [] == "heap(si): {}\n}\n".toList
#guard stlSet decimal [9, 8, 5] == "stlset:\n 9 8 5\n".toList
#guard geobucket decimal (Name.exGeo 4 32 true .plain) ⟨[⟨4, [1, 2], none⟩, ⟨8, [1, 2, 3, 4, 5, 6], none⟩], 8, ⟨none, [], 0, []⟩⟩ ==
  some "Geobucket(b4m32i1 tf dedup col): {\n 0: 1 2 [2/4]\n 1: 1 2 ... 5 6 [6/8]\n}\n".toList

/-- Heaps of integers can be told apart from their text. -/
example : heap decimal true 4 exConf [91] ≠ heap decimal true 4 exConf [9, 1] := by
  rw [Ne, heap_print_inj (decimal_legible _ (by decide))]
  decide

/-- A large bucket hides what is in its middle. -/
example : geobucket decimal (Name.exGeo 4 32 true .plain) ⟨[⟨8, [1, 2, 3, 4, 5], none⟩], 5, ⟨none, [], 0, []⟩⟩ =
    geobucket decimal (Name.exGeo 4 32 true .plain) ⟨[⟨8, [1, 2, 2, 4, 5], none⟩], 5, ⟨none, [], 0, []⟩⟩ :=
  (geobucket_print_iff (decimal_legible _ (by decide)) _ _ _).2 (.cons ⟨rfl, rfl, by decide⟩ .nil)

end Verif.Print
