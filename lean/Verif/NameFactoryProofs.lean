import Verif.NameFactorySpec
import Mathlib.Data.List.Sort
import Mathlib.Tactic.Common
import Mathlib.Order.Defs.LinearOrder
import Mathlib.Data.Char

namespace Verif.NameFactory

variable {P : Type}

theorem strLt_iff (s t : Str) : strLt s t = true ↔ LexLt s t := by
  induction s generalizing t with
  | nil =>
    cases t with
    | nil =>
      simp only [strLt, Bool.false_eq_true, false_iff]
      rintro (⟨c, r, h⟩ | ⟨pre, a, b, s', t', h, _⟩) <;> simp at h
    | cons b t => simp only [strLt, true_iff]; exact .inl ⟨b, t, rfl⟩
  | cons a s ih =>
    cases t with
    | nil =>
      simp only [strLt, Bool.false_eq_true, false_iff]
      rintro (⟨c, r, h⟩ | ⟨pre, a, b, s', t', _, h, _⟩) <;> simp at h
    | cons b t =>
      simp only [strLt, Bool.or_eq_true, decide_eq_true_eq, Bool.and_eq_true, beq_iff_eq, ih]
      constructor
      · rintro (h | ⟨rfl, (⟨c, r, rfl⟩ | ⟨pre, x, y, s', t', rfl, rfl, h⟩)⟩)
        · exact .inr ⟨[], a, b, s, t, rfl, rfl, h⟩
        · exact .inl ⟨c, r, rfl⟩
        · exact .inr ⟨a :: pre, x, y, s', t', rfl, rfl, h⟩
      · rintro (⟨c, r, h⟩ | ⟨pre, x, y, s', t', h1, h2, h⟩)
        · simp only [List.cons_append, List.cons.injEq] at h
          exact .inr ⟨h.1.symm, .inl ⟨c, r, h.2⟩⟩
        · cases pre with
          | nil =>
            simp only [List.nil_append, List.cons.injEq] at h1 h2
            left; rw [h1.1, h2.1]; exact h
          | cons z pre =>
            simp only [List.cons_append, List.cons.injEq] at h1 h2
            exact .inr ⟨h1.1.trans h2.1.symm, .inr ⟨pre, x, y, s', t', h1.2, h2.2, h⟩⟩

theorem strLt_irrefl (s : Str) : strLt s s = false := by
  induction s with
  | nil => rfl
  | cons a s ih => simp [strLt, ih]

theorem strLt_trans (r s t : Str) (h1 : strLt r s = true) (h2 : strLt s t = true) : strLt r t = true := by
  induction r generalizing s t with
  | nil => cases s <;> cases t <;> simp_all [strLt]
  | cons a r ih =>
    cases s with
    | nil => simp [strLt] at h1
    | cons b s =>
      cases t with
      | nil => simp [strLt] at h2
      | cons c t =>
        simp only [strLt, Bool.or_eq_true, decide_eq_true_eq, Bool.and_eq_true, beq_iff_eq] at *
        rcases h1 with h1 | ⟨rfl, h1⟩
        · rcases h2 with h2 | ⟨rfl, h2⟩
          · exact .inl (Std.lt_trans h1 h2)
          · exact .inl h1
        · rcases h2 with h2 | ⟨rfl, h2⟩
          · exact .inl h2
          · exact .inr ⟨rfl, ih _ _ h1 h2⟩

theorem strLt_total (s t : Str) (h : s ≠ t) : strLt s t = true ∨ strLt t s = true := by
  induction s generalizing t with
  | nil => cases t with
    | nil => exact absurd rfl h
    | cons b t => simp [strLt]
  | cons a s ih =>
    cases t with
    | nil => simp [strLt]
    | cons b t =>
      simp only [strLt, Bool.or_eq_true, decide_eq_true_eq, Bool.and_eq_true, beq_iff_eq]
      by_cases hab : a = b
      · subst hab
        rcases ih t (fun e => h (by rw [e])) with h | h
        · exact .inl (.inr ⟨rfl, h⟩)
        · exact .inr (.inr ⟨rfl, h⟩)
      · rcases lt_or_gt_of_ne hab with h | h
        · exact .inl (.inl h)
        · exact .inr (.inl h)

theorem lexLt_total {s t : Str} (h : s ≠ t) : LexLt s t ∨ LexLt t s := by
  simpa only [strLt_iff] using strLt_total s t h

theorem lexLt_irrefl (s : Str) : ¬ LexLt s s := by
  rw [← strLt_iff, strLt_irrefl]; simp

theorem lexLt_trans {r s t : Str} (h1 : LexLt r s) (h2 : LexLt s t) : LexLt r t := by
  rw [← strLt_iff] at *; exact strLt_trans r s t h1 h2

/-- The order in which `std::sort` leaves strings is unique. -/
theorem sorted_unique {a b : List Str} (h : a.Perm b) (ha : Increasing a) (hb : Increasing b) : a = b := by
  refine List.Perm.eq_of_pairwise (le := fun a b => ¬ LexLt b a) ?_ ha hb h
  intro x y _ _ h1 h2
  by_contra hne
  rcases lexLt_total hne with h | h
  · exact h2 h
  · exact h1 h

theorem hasPrefix_iff (p n : Str) : hasPrefix p n = true ↔ IsPrefixOf p n := by
  unfold hasPrefix IsPrefixOf
  rw [beq_iff_eq]
  constructor
  · intro h
    refine ⟨n.drop p.length, ?_⟩
    conv_lhs => rw [← List.take_append_drop p.length n, h]
  · rintro ⟨r, rfl⟩; simp

theorem pushNames_eq (p : Str) (l : List (Str × Option P)) (acc : List Str) :
    pushNames p l acc = acc ++ (l.map Prod.fst).filter (hasPrefix p) := by
  induction l generalizing acc with
  | nil => simp [pushNames]
  | cons x l ih =>
    obtain ⟨n, f⟩ := x
    rw [pushNames, ih, List.map_cons, List.filter_cons]
    cases hasPrefix p n <;> simp

theorem mergeSort_increasing (l : List Str) : Increasing (l.mergeSort fun a b => !strLt b a) := by
  have := List.pairwise_mergeSort (le := fun a b => !strLt b a) (l := l) ?_ ?_
  · refine this.imp ?_
    intro a b h
    rw [← strLt_iff]
    simpa using h
  · intro a b c h1 h2
    simp only [Bool.not_eq_eq_eq_not, Bool.not_true] at *
    by_contra h
    rw [Bool.not_eq_false] at h
    by_cases hac : b = c
    · subst hac; simp_all
    · rcases strLt_total b c hac with h3 | h3
      · by_cases hab : a = b
        · subst hab; simp_all
        · have := strLt_trans _ _ _ h3 h
          rw [this] at h1; cases h1
      · rw [h3] at h2; cases h2
  · intro a b
    simp only [Bool.or_eq_true, Bool.not_eq_eq_eq_not, Bool.not_true]
    by_contra h
    simp only [not_or, Bool.not_eq_false] at h
    exact absurd (strLt_trans _ _ _ h.1 h.2) (by rw [strLt_irrefl]; simp)

theorem namesWithPrefix_perm (f : Factory P) (p : Str) (v : List Str) :
    (namesWithPrefix f p v).Perm (v ++ (names f).filter (hasPrefix p)) := by
  unfold namesWithPrefix
  refine (List.mergeSort_perm _ _).trans ?_
  rw [pushNames_eq]; rfl

theorem mem_namesWithPrefix (f : Factory P) (p n : Str) :
    n ∈ namesWithPrefix f p [] ↔ n ∈ names f ∧ IsPrefixOf p n := by
  rw [(namesWithPrefix_perm f p []).mem_iff, List.nil_append, List.mem_filter, hasPrefix_iff]

theorem isPrefixOf_self (p : Str) : IsPrefixOf p p := ⟨[], by simp⟩

/-- The result of `uniqueNameWithPrefix` by the number of names found. -/
theorem unique_cases (f : Factory P) (p : Str) :
    (p ∈ names f ∧ uniqueNameWithPrefix f p = .ok p) ∨
    (p ∉ names f ∧ namesWithPrefix f p [] = [] ∧ ∃ msg, uniqueNameWithPrefix f p = .exn (.unknownName msg) ∧
      msg = throwMsg ("No ".toList ++ f.abstractName ++ " has the prefix \"".toList ++ p ++ "\".".toList)) ∨
    (p ∉ names f ∧ ∃ n, namesWithPrefix f p [] = [n] ∧ uniqueNameWithPrefix f p = .ok n) ∨
    (p ∉ names f ∧ 2 ≤ (namesWithPrefix f p []).length ∧
      uniqueNameWithPrefix f p = .exn (.ambiguousName (throwMsg (listNames (namesWithPrefix f p [])
        ("More than one ".toList ++ f.abstractName ++ " has prefix \"".toList ++ p ++ "\":\n ".toList))))) := by
  unfold uniqueNameWithPrefix
  by_cases hp : p ∈ names f
  · left
    have : (namesWithPrefix f p []).contains p = true := by
      rw [List.contains_iff_mem, mem_namesWithPrefix]; exact ⟨hp, isPrefixOf_self p⟩
    simp only [this, if_true]
    exact ⟨hp, rfl⟩
  · right
    have : (namesWithPrefix f p []).contains p = false := by
      rw [← Bool.not_eq_true, List.contains_iff_mem, mem_namesWithPrefix]; exact fun h => hp h.1
    simp only [this, Bool.false_eq_true, if_false]
    match hl : namesWithPrefix f p [] with
    | [] => exact .inl ⟨hp, rfl, _, rfl, rfl⟩
    | [n] => exact .inr (.inl ⟨hp, n, rfl, rfl⟩)
    | a :: b :: l => exact .inr (.inr ⟨hp, by simp, rfl⟩)

theorem listNames_eq (l : List Str) (msg : Str) : listNames l msg = msg ++ l.flatMap (' ' :: ·) := by
  induction l generalizing msg with
  | nil => simp [listNames]
  | cons n l ih => rw [listNames, ih]; simp

theorem contains_throwMsg (a p b : Str) : Contains (throwMsg (a ++ p ++ b)) p := by
  unfold throwMsg
  exact ⟨"ERROR: ".toList ++ a, b ++ ['\n'], by simp only [List.append_assoc]⟩

theorem contains_kind (a x b y d : Str) : Contains (throwMsg (a ++ x ++ b ++ y ++ d)) x := by
  rw [List.append_assoc (a ++ x ++ b), List.append_assoc (a ++ x)]
  exact contains_throwMsg _ _ _

theorem contains_listNames {l : List Str} {n : Str} (h : n ∈ l) (a : Str) :
    Contains (throwMsg (listNames l a)) n := by
  obtain ⟨u, v, rfl⟩ := List.append_of_mem h
  have : listNames (u ++ n :: v) a = (a ++ u.flatMap (' ' :: ·) ++ [' ']) ++ n ++ v.flatMap (' ' :: ·) := by
    rw [listNames_eq]; simp
  rw [this]
  exact contains_throwMsg _ _ _

theorem createLoop_registered {l : List (Str × Option P)} {n : Str} {x : Option P} (hd : (l.map Prod.fst).Nodup)
    (h : (n, x) ∈ l) : createLoop n l = x := by
  induction l with
  | nil => cases h
  | cons y l ih =>
    obtain ⟨m, z⟩ := y
    rw [List.map_cons, List.nodup_cons] at hd
    rw [createLoop]
    rcases List.mem_cons.mp h with h | h
    · cases h; rw [if_pos rfl]
    · rw [if_neg, ih hd.2 h]
      rintro rfl
      exact hd.1 (List.mem_map.mpr ⟨_, h, rfl⟩)

theorem createLoop_unknown {l : List (Str × Option P)} {n : Str} (h : n ∉ l.map Prod.fst) :
    createLoop n l = none := by
  induction l with
  | nil => rfl
  | cons y l ih =>
    obtain ⟨m, z⟩ := y
    rw [List.map_cons, List.mem_cons, not_or] at h
    rw [createLoop, if_neg (fun e => h.1 e.symm), ih h.2]

end Verif.NameFactory
