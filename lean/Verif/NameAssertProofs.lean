import Verif.NameAssert
import Verif.NameFactoryProofs

/-!
# Lemmas on debug builds of `NameFactory`
-/

namespace Verif.NameFactory

open Verif.Dbg

variable {P : Type}

theorem calledLoop_none {name : Str} {l : List (Str × Option P)} (h : name ∉ l.map Prod.fst) (i : ℕ) :
    calledLoop name i l = none := by
  induction l generalizing i with
  | nil => rfl
  | cons x l ih =>
    rw [List.map_cons, List.mem_cons, not_or] at h
    rw [calledLoop, if_neg (fun e => h.1 e.symm)]
    exact ih h.2 _

theorem createLoop_some {name : Str} {l : List (Str × Option P)} (h : name ∈ l.map Prod.fst)
    (hn : ∀ x ∈ l, x.2 ≠ none) : createLoop name l ≠ none := by
  induction l with
  | nil => cases h
  | cons x l ih =>
    rw [createLoop]
    split
    · exact hn x List.mem_cons_self
    · rename_i hne
      rw [List.map_cons, List.mem_cons] at h
      exact ih (h.resolve_left (fun e => hne e.symm)) (fun y hy => hn y (List.mem_cons_of_mem _ hy))

theorem registerProductD_new (f : Factory P) {name : Str} (x : Option P) (h : name ∉ names f) :
    registerProductD f name x = ok (none, registerProduct f name x) := by
  rw [registerProductD, createNullOnUnknown, createLoop_unknown h, calledLoop_none h]
  rfl

theorem registerProductD_twice (f : Factory P) {name : Str} (x : Option P) (h : name ∈ names f)
    (hn : ∀ y ∈ f.pairs, y.2 ≠ none) : registerProductD f name x = failed := by
  rw [registerProductD, createNullOnUnknown]
  obtain ⟨p, hp⟩ := Option.ne_none_iff_exists'.mp (createLoop_some h hn)
  rw [hp]
  rfl

theorem names_register (f : Factory P) (n : Str) (x : Option P) : names (registerProduct f n x) = names f ++ [n] := by
  simp [names, registerProduct]

theorem registerAll_eq (l : List (Str × Option P)) : ∀ f : Factory P,
    registerAll f l = ⟨f.pairs ++ l, f.abstractName⟩ := by
  induction l with
  | nil => intro f; simp [registerAll]
  | cons x l ih => intro f; rw [registerAll, ih]; simp [registerProduct]

theorem registerAllD_new (l : List (Str × Option P)) : ∀ f : Factory P,
    (names f ++ l.map Prod.fst).Nodup → registerAllD f l = ok ([], registerAll f l) := by
  induction l with
  | nil => intro f _; rfl
  | cons x l ih =>
    intro f h
    have hx : x.1 ∉ names f := by
      intro hm
      rw [List.map_cons] at h
      exact (List.nodup_append.mp h).2.2 _ hm _ List.mem_cons_self rfl
    rw [registerAllD, registerProductD_new f x.2 hx]
    simp only [ok_bind]
    rw [ih _ (by rw [names_register]; simpa using h)]
    rfl

theorem registerAllD_twice (l : List (Str × Option P)) : ∀ f : Factory P, (names f).Nodup →
    ¬ (names f ++ l.map Prod.fst).Nodup → (∀ y ∈ f.pairs, y.2 ≠ none) → (∀ y ∈ l, y.2 ≠ none) →
    registerAllD f l = failed := by
  induction l with
  | nil => intro f h1 h2; exact absurd (by simpa using h1) h2
  | cons x l ih =>
    intro f h1 h2 h3 h4
    by_cases hx : x.1 ∈ names f
    · rw [registerAllD, registerProductD_twice f x.2 hx h3]
      rfl
    · rw [registerAllD, registerProductD_new f x.2 hx]
      simp only [ok_bind]
      rw [ih (registerProduct f x.1 x.2)]
      · rfl
      · rw [names_register]
        refine List.nodup_append.mpr ⟨h1, List.nodup_singleton _, ?_⟩
        rintro a ha b hb rfl
        rw [List.mem_singleton] at hb
        subst hb
        exact hx ha
      · rw [names_register]
        simpa using h2
      · intro y hy
        rw [registerProduct, List.mem_append, List.mem_singleton] at hy
        rcases hy with hy | rfl
        · exact h3 y hy
        · exact h4 x List.mem_cons_self
      · exact fun y hy => h4 y (List.mem_cons_of_mem _ hy)

theorem uniqueNameWithPrefixD_eq (f : Factory P) (p : Str) :
    uniqueNameWithPrefixD f p = ok (uniqueNameWithPrefix f p) := by
  rw [uniqueNameWithPrefixD, uniqueNameWithPrefix]
  generalize (if (namesWithPrefix f p []).contains p then [p] else namesWithPrefix f p []) = l
  cases l with
  | nil => rfl
  | cons a l =>
    cases l with
    | nil => rfl
    | cons b l => simp

end Verif.NameFactory
