import Verif.NameAssertProofs
import Verif.PropNameFactory

/-!
# Debug builds of `mathic::NameFactory`: C93
-/

namespace Verif.NameFactory

open Verif.Dbg

variable {P : Type}

/-- C93 in full: registrations in a debug build fail an assertion if and only if a name is registered twice. -/
def CatchesDuplicates (abstractName : Str) (l : List (Str × Option P)) : Prop :=
  registerAllD (init abstractName) l = failed ↔ ¬ (l.map Prod.fst).Nodup

/-- C93: names that are all different are registered as in a release build, and no factory function is called for it. -/
theorem nameFactory_debug_register (abstractName : Str) (l : List (Str × Option P)) (h : (l.map Prod.fst).Nodup) :
    registerAllD (init abstractName) l = ok ([], registerAll (init abstractName) l) ∧
      names (registerAll (init abstractName : Factory P) l) = l.map Prod.fst ∧
      (registerAll (init abstractName : Factory P) l).abstractName = abstractName := by
  refine ⟨registerAllD_new l _ (by simpa [init, names] using h), ?_⟩
  rw [registerAll_eq]
  simp [names, init]

/-- C93, where it holds: if no factory function returns a null pointer.
Missing, and false: factory functions that return a null pointer. -/
theorem nameFactory_debug_duplicates_partial (abstractName : Str) (l : List (Str × Option P)) (hn : ∀ x ∈ l, x.2 ≠ none) :
    CatchesDuplicates abstractName l := by
  constructor
  · intro hf h
    rw [(nameFactory_debug_register abstractName l h).1] at hf
    cases hf
  · intro h
    exact registerAllD_twice l _ List.nodup_nil (by simpa [init, names] using h) nofun hn

/-- C93: looking for a name by a prefix fails no assertion, for any factory, with names registered twice or not. -/
theorem nameFactory_debug_unique (f : Factory P) (p : Str) :
    uniqueNameWithPrefixD f p = ok (uniqueNameWithPrefix f p) := uniqueNameWithPrefixD_eq f p

/-- C93 with what follows from it: if a debug build gets through the registrations, then every prefix stands for what the
documentation says. -/
theorem nameFactory_debug_lookup (abstractName : Str) (l : List (Str × Option P)) (hn : ∀ x ∈ l, x.2 ≠ none) (calls : List ℕ)
    (f : Factory P) (h : registerAllD (init abstractName) l = ok (calls, f)) (p n : Str) :
    calls = [] ∧ (uniqueNameWithPrefixD f p = ok (.ok n) ↔ StandsFor (l.map Prod.fst) p n) := by
  have hd : (l.map Prod.fst).Nodup := by
    by_contra hd
    rw [(nameFactory_debug_duplicates_partial abstractName l hn).mpr hd] at h
    cases h
  obtain ⟨h1, h2, _⟩ := nameFactory_debug_register abstractName l hd
  rw [h1] at h
  cases h
  refine ⟨rfl, ?_⟩
  rw [← h2, ← unique_ok_iff _ p n (by rw [h2]; exact hd), nameFactory_debug_unique]
  simp

/-- C93 is false: a name whose factory function returns a null pointer can be registered again, and the assertion calls that
function. The second product can never be made. -/
theorem nameFactory_debug_duplicates_refuted :
    ¬ CatchesDuplicates (P := ℕ) "thing".toList [("a".toList, none), ("a".toList, some 1)] ∧
    ∃ f : Factory ℕ, registerAllD (init "thing".toList) [("a".toList, none), ("a".toList, some 1)] = ok ([0], f) ∧
      createNullOnUnknown f "a".toList = none := by
  constructor
  · intro h
    exact nomatch h.mpr (by decide)
  · exact ⟨_, rfl, rfl⟩

/-- The hypotheses are met, also by names where one is the start of another. -/
example : ([("a".toList, some 1), ("ab".toList, some 2)].map Prod.fst).Nodup ∧
    ∀ x ∈ [("a".toList, some 1), ("ab".toList, some 2)], x.2 ≠ none := by
  constructor
  · decide
  · simp

/-- A name that is registered twice. -/
example : registerAllD (P := ℕ) (init []) [("a".toList, some 1), ("b".toList, some 2), ("a".toList, some 3)] = failed := rfl

end Verif.NameFactory
