import Mathlib.Algebra.BigOperators.Group.List.Basic
import Mathlib.Algebra.BigOperators.Group.Multiset.Basic
import Mathlib.Algebra.Order.Group.Multiset

/-!
# Shared vocabulary

What the queues' configurations have to provide, one-based array cells with checked access, and
additive weights of lists of entries. Nothing in here models a piece of the repository by itself
except the configuration structure.
-/

namespace Verif

/-- The part of a priority queue configuration that all queues share: `compare` together with
`cmpLessThan`, `cmpEqual`, `supportDeduplication` and `deduplicate`
(src/mathic/Heap.h:12-29, src/mathic/Geobucket.h:27-124, src/mathic/TourTree.h:12-30).
`lt a b` is `cmpLessThan(compare(a, b))`, `eq a b` is `cmpEqual(compare(a, b))`. -/
structure PQConf (E : Type*) where
  lt : E → E → Bool
  eq : E → E → Bool
  supportDedup : Bool
  dedup : E → E → E

/-- A strict weak order, which is what the documentation of the configurations asks of `compare`. -/
structure StrictWeak {E : Type*} (lt : E → E → Bool) : Prop where
  irrefl : ∀ a, lt a a = false
  trans : ∀ a b c, lt a b = true → lt b c = true → lt a c = true
  negTrans : ∀ a b c, lt a c = true → lt a b = true ∨ lt b c = true

namespace StrictWeak
variable {E : Type*} {lt : E → E → Bool}

theorem asymm (h : StrictWeak lt) {a b : E} (hab : lt a b = true) : lt b a = false := by
  cases hba : lt b a with
  | false => rfl
  | true => have := h.trans a b a hab hba; rw [h.irrefl] at this; exact this.symm

/-- `a` at least `b` and `b` at least `c` give `a` at least `c`. -/
theorem ge_trans (h : StrictWeak lt) {a b c : E}
    (hab : lt a b = false) (hbc : lt b c = false) : lt a c = false := by
  cases hac : lt a c with
  | false => rfl
  | true =>
    rcases h.negTrans a b c hac with h1 | h1
    · rw [hab] at h1; exact h1.symm
    · rw [hbc] at h1; exact h1.symm

theorem ge_of_gt (h : StrictWeak lt) {a b : E} (hab : lt b a = true) : lt a b = false :=
  h.asymm hab

end StrictWeak

/-- What a lawful configuration provides: a strict weak order, an equality test that is
incomparability, and a `deduplicate` that stays in the class of its (equal) arguments. -/
structure PQConf.Lawful {E : Type*} (c : PQConf E) : Prop where
  weak : StrictWeak c.lt
  eq_iff : ∀ a b, c.eq a b = (!c.lt a b && !c.lt b a)
  dedup_lt : ∀ a b x, c.eq a b = true → c.lt (c.dedup a b) x = c.lt a x
  lt_dedup : ∀ a b x, c.eq a b = true → c.lt x (c.dedup a b) = c.lt x a

/-- `w` is a weight for the configuration: `deduplicate` adds the weights of equal entries. -/
def PQConf.Weight {E M : Type*} [AddCommMonoid M] (c : PQConf E) (w : E → M) : Prop :=
  c.supportDedup = true → ∀ a b, c.eq a b = true → w (c.dedup a b) = w a + w b

/-- Total weight of a list of entries. -/
def wsum {E M : Type*} [AddCommMonoid M] (w : E → M) (l : List E) : M := (l.map w).sum

section wsum
variable {E M : Type*} [AddCommMonoid M] (w : E → M)

@[simp] theorem wsum_nil : wsum w [] = 0 := rfl
@[simp] theorem wsum_cons (a : E) (l : List E) : wsum w (a :: l) = w a + wsum w l := by
  simp [wsum]
@[simp] theorem wsum_append (l m : List E) : wsum w (l ++ m) = wsum w l + wsum w m := by
  simp [wsum]
@[simp] theorem wsum_reverse (l : List E) : wsum w l.reverse = wsum w l := by
  simp only [wsum, List.map_reverse, List.sum_reverse]
theorem wsum_perm {l m : List E} (h : l.Perm m) : wsum w l = wsum w m :=
  (h.map w).sum_eq

theorem wsum_set (l : List E) (i : ℕ) (a : E) (h : i < l.length) :
    wsum w (l.set i a) + w l[i] = wsum w l + w a := by
  induction l generalizing i with
  | nil => simp at h
  | cons b l ih =>
    cases i with
    | zero => simp [add_comm, add_left_comm]
    | succ i =>
      have h' : i < l.length := by simpa using h
      have := ih i h'
      simp only [List.set_cons_succ, wsum_cons, List.getElem_cons_succ]
      rw [add_assoc, this, add_assoc]

/-- The total without one entry, before and after that entry is replaced. -/
theorem wsum_split (l : List E) (i : ℕ) (a : E) (h : i < l.length) :
    ∃ r, wsum w l = w l[i] + r ∧ wsum w (l.set i a) = w a + r := by
  induction l generalizing i with
  | nil => simp at h
  | cons b l ih =>
    cases i with
    | zero => exact ⟨wsum w l, by simp, by simp⟩
    | succ i =>
      obtain ⟨r, h1, h2⟩ := ih i (by simpa using h)
      refine ⟨w b + r, ?_, ?_⟩
      · rw [wsum_cons, h1, List.getElem_cons_succ, add_left_comm]
      · rw [List.set_cons_succ, wsum_cons, h2, add_left_comm]

end wsum

/-- The weight for which equal sums mean equal multisets. -/
theorem wsum_singleton {E : Type*} (l : List E) :
    wsum (fun e => ({e} : Multiset E)) l = (l : Multiset E) := by
  induction l with
  | nil => rfl
  | cons a l ih => rw [wsum_cons, ih]; rfl

theorem perm_of_wsum {E : Type*} {l m : List E}
    (h : wsum (fun e => ({e} : Multiset E)) l = wsum (fun e => ({e} : Multiset E)) m) :
    l.Perm m := by
  rw [wsum_singleton, wsum_singleton] at h
  exact Multiset.coe_eq_coe.mp h

/-- Read cell `i` of a one-based array with cells `1 .. t.length`; `none` is undefined behaviour. -/
def rd {E : Type*} (t : List E) (i : ℕ) : Option E := if i = 0 then none else t[i - 1]?

/-- Write cell `i` of a one-based array; `none` is undefined behaviour. -/
def wr {E : Type*} (t : List E) (i : ℕ) (a : E) : Option (List E) :=
  if 1 ≤ i ∧ i ≤ t.length then some (t.set (i - 1) a) else none

section cells
variable {E : Type*} {t : List E}

theorem rd_some {i : ℕ} (h1 : 1 ≤ i) (h2 : i ≤ t.length) : rd t i = some (t[i - 1]'(by omega)) := by
  have : i ≠ 0 := by omega
  simp only [rd, this, if_false]
  exact List.getElem?_eq_getElem _

theorem rd_exists {i : ℕ} (h1 : 1 ≤ i) (h2 : i ≤ t.length) : ∃ a, rd t i = some a :=
  ⟨_, rd_some h1 h2⟩

theorem rd_bounds {i : ℕ} {a : E} (h : rd t i = some a) : 1 ≤ i ∧ i ≤ t.length := by
  unfold rd at h
  split at h
  · cases h
  · have := (List.getElem?_eq_some_iff.mp h).1
    omega

theorem rd_mem {i : ℕ} {a : E} (h : rd t i = some a) : a ∈ t := by
  unfold rd at h
  split at h
  · cases h
  · exact List.mem_of_getElem? h

theorem mem_rd {a : E} (h : a ∈ t) : ∃ i, rd t i = some a := by
  obtain ⟨i, hi, rfl⟩ := List.mem_iff_getElem.mp h
  exact ⟨i + 1, by simp [rd]⟩

theorem wr_some {i : ℕ} (a : E) (h1 : 1 ≤ i) (h2 : i ≤ t.length) :
    wr t i a = some (t.set (i - 1) a) := by
  simp [wr, h1, h2]

theorem wr_length {i : ℕ} {a : E} {t' : List E} (h : wr t i a = some t') :
    t'.length = t.length := by
  unfold wr at h
  split at h
  · cases h; simp
  · cases h

theorem wr_bounds {i : ℕ} {a : E} {t' : List E} (h : wr t i a = some t') :
    1 ≤ i ∧ i ≤ t.length := by
  unfold wr at h
  split at h
  · assumption
  · cases h

theorem rd_set {i j : ℕ} {a : E} (h1 : 1 ≤ i) (h2 : i ≤ t.length) :
    rd (t.set (i - 1) a) j = if j = i then some a else rd t j := by
  unfold rd
  by_cases hj : j = 0
  · subst hj
    have : (0 : ℕ) ≠ i := by omega
    simp [this]
  · simp only [hj, if_false]
    by_cases hji : j = i
    · subst hji
      have : j - 1 < t.length := by omega
      simp [this]
    · simp only [hji, if_false]
      rw [List.getElem?_set_ne]
      omega

theorem rd_wr {i j : ℕ} {a : E} {t' : List E} (h : wr t i a = some t') :
    rd t' j = if j = i then some a else rd t j := by
  have hb := wr_bounds h
  rw [wr_some a hb.1 hb.2] at h
  cases h
  exact rd_set hb.1 hb.2

theorem wsum_wr {M : Type*} [AddCommMonoid M] (w : E → M) {i : ℕ} {a b : E} {t' : List E}
    (h : wr t i a = some t') (hb : rd t i = some b) :
    wsum w t' + w b = wsum w t + w a := by
  have hbd := wr_bounds h
  rw [wr_some a hbd.1 hbd.2] at h
  cases h
  rw [rd_some hbd.1 hbd.2] at hb
  cases hb
  exact wsum_set w t (i - 1) a (by omega)

theorem rd_ext {s : List E} (h : ∀ i, rd t i = rd s i) : t = s := by
  apply List.ext_getElem?
  intro i
  have := h (i + 1)
  simpa [rd] using this

theorem rd_dropLast {i : ℕ} (h : i < t.length) : rd t.dropLast i = rd t i := by
  unfold rd
  split
  · rfl
  · rw [List.getElem?_dropLast]
    split
    · rfl
    · omega

theorem rd_append_left {s : List E} {i : ℕ} (h : i ≤ t.length) (h1 : 1 ≤ i) :
    rd (t ++ s) i = rd t i := by
  unfold rd
  split
  · rfl
  · rw [List.getElem?_append_left]
    omega

theorem rd_append_last {a : E} : rd (t ++ [a]) (t.length + 1) = some a := by
  simp [rd]

end cells

end Verif
