import Verif.ComTree

/-!
# Helper lemmas for the `ComTree` properties

What it means that a word represents a node number, and that a tree holds a list of entries.
-/

namespace Verif.ComTree

/-! ## Node arithmetic -/

/-- The requirement on `sizeof(Entry)` when `FastIndex` is on: a power of two (and twice
that fits in a word). -/
def NodeConf.Ok (c : NodeConf) : Prop := c.fi = true → ∃ k, k ≤ 62 ∧ c.S.toNat = 2 ^ k

/-- The unit by which indices are scaled. -/
def NodeConf.unit (c : NodeConf) : BitVec 64 := if c.fi then c.S else 1

/-- `x` represents node number `i`: the index itself, or the byte offset `i * sizeof(Entry)`. -/
def Reps (c : NodeConf) (i : ℕ) (x : Node) : Prop :=
  x.toNat = i * (if c.fi then c.S.toNat else 1)

theorem NodeConf.Ok.unit {c : NodeConf} (h : c.Ok) : ∃ k, k ≤ 62 ∧ c.unit.toNat = 2 ^ k := by
  unfold NodeConf.unit
  by_cases hf : c.fi = true
  · rw [if_pos hf]; exact h hf
  · rw [if_neg hf]; exact ⟨0, by omega, rfl⟩

theorem reps_iff (c : NodeConf) (i : ℕ) (x : Node) : Reps c i x ↔ x.toNat = i * c.unit.toNat := by
  unfold Reps NodeConf.unit
  cases c.fi <;> simp

theorem parent_eq (c : NodeConf) (x : Node) : c.parent x = x / (2 * c.unit) * c.unit := by
  unfold NodeConf.parent NodeConf.unit
  cases c.fi <;> simp
theorem right_eq (c : NodeConf) (x : Node) : c.right x = 2 * x + c.unit := by
  unfold NodeConf.right NodeConf.unit
  cases c.fi <;> simp
theorem sibling_eq (c : NodeConf) (x : Node) : c.sibling x = x ^^^ c.unit := by
  unfold NodeConf.sibling NodeConf.unit
  cases c.fi <;> simp
theorem leftSibling_eq (c : NodeConf) (x : Node) : c.leftSibling x = x &&& ~~~c.unit := by
  unfold NodeConf.leftSibling NodeConf.unit
  cases c.fi <;> simp
theorem next_eq (c : NodeConf) (x : Node) : c.next x = x + c.unit := by
  unfold NodeConf.next NodeConf.unit
  cases c.fi <;> simp
theorem nextBy_eq (c : NodeConf) (x : Node) (n : BitVec 64) : c.nextBy x n = x + c.unit * n := by
  unfold NodeConf.nextBy NodeConf.unit
  cases c.fi <;> simp
theorem prev_eq (c : NodeConf) (x : Node) : c.prev x = x - c.unit := by
  unfold NodeConf.prev NodeConf.unit
  cases c.fi <;> simp
theorem isLeft_eq (c : NodeConf) (x : Node) : c.isLeft x = (x &&& c.unit == 0) := by
  unfold NodeConf.isLeft NodeConf.unit
  cases c.fi <;> simp
theorem isRight_eq (c : NodeConf) (x : Node) : c.isRight x = (x &&& c.unit != 0) := by
  unfold NodeConf.isRight NodeConf.unit
  cases c.fi <;> simp
theorem normal_eq (c : NodeConf) (x : Node) : c.getNormalIndex x = x / c.unit := by
  unfold NodeConf.getNormalIndex NodeConf.unit
  cases c.fi <;> simp

theorem xor_one_even (i : ℕ) (h : i % 2 = 0) : i ^^^ 1 = i + 1 := by
  have h1 := Nat.xor_div_two (a := i) (b := 1)
  have h2 := Nat.xor_mod_two_eq_one (a := i) (b := 1)
  simp at h1
  omega

theorem xor_one_odd (i : ℕ) (h : i % 2 = 1) : i ^^^ 1 = i - 1 := by
  have h1 := Nat.xor_div_two (a := i) (b := 1)
  have h2 := Nat.xor_mod_two_eq_one (a := i) (b := 1)
  simp at h1
  omega

/-! ## The array behaves like a list -/

variable {E : Type*}

/-- The tree holds exactly the entries `l` in nodes `1 ..`, within its capacity. -/
structure Holds (t : Tree E) (l : List E) : Prop where
  last : t.last = l.length
  cap : t.last ≤ t.capEnd
  alloc : t.arr.length = t.capEnd
  cell : ∀ i (h : i < l.length), t.arr[i]? = some (some l[i])

theorem holds_mk (n : ℕ) : Holds (mk n : Tree E) [] :=
  ⟨rfl, Nat.zero_le _, by simp [mk], nofun⟩

/-- Reading a node is reading the list. -/
theorem holds_get {t : Tree E} {l : List E} (h : Holds t l) {i : ℕ} (hi : i ≤ l.length) :
    t.get i = rd l i := by
  unfold Tree.get rd
  split
  · rfl
  · rw [h.cell (i - 1) (by omega), List.getElem?_eq_getElem (by omega)]
    rfl

/-- Writing a node is writing the list; other entries stay. -/
theorem holds_put {t : Tree E} {l : List E} (h : Holds t l) {i : ℕ} (h1 : 1 ≤ i)
    (hi : i ≤ l.length) (a : E) : ∃ t', t.put i a = some t' ∧ Holds t' (l.set (i - 1) a) := by
  have hc := h.cap
  have hl := h.last
  have ha := h.alloc
  refine ⟨{ t with arr := t.arr.set (i - 1) (some a) }, by rw [Tree.put, if_pos ⟨h1, by omega⟩],
    ?_, h.cap, ?_, ?_⟩
  · simp [h.last]
  · simp [h.alloc]
  · intro j hj
    rw [List.length_set] at hj
    simp only [List.getElem?_set, List.getElem_set]
    split
    · rename_i he
      subst he
      rw [if_pos (by omega)]
    · exact h.cell j hj

theorem holds_pushBackWithCapacity {t : Tree E} {l : List E} (h : Holds t l)
    (hfree : t.last < t.capEnd) (a : E) :
    ∃ t', pushBackWithCapacity t a = some t' ∧ Holds t' (l ++ [a]) ∧ t'.capEnd = t.capEnd := by
  have hc := h.cap
  have hl := h.last
  have ha := h.alloc
  refine ⟨{ arr := t.arr.set t.last (some a), last := t.last + 1, capEnd := t.capEnd }, ?_,
    ⟨?_, ?_, ?_, ?_⟩, rfl⟩
  · rw [pushBackWithCapacity, Tree.put, if_pos ⟨by omega, by simp; omega⟩]
    rfl
  · simp [h.last]
  · simp; omega
  · simp [h.alloc]
  · intro j hj
    simp only [List.length_append, List.length_singleton] at hj
    simp only [List.getElem?_set]
    by_cases hjl : t.last = j
    · rw [if_pos hjl, if_pos (by omega)]
      subst hjl
      simp [hl]
    · rw [if_neg hjl, h.cell j (by omega), List.getElem_append_left (by omega)]

theorem copyLoop_holds {t : Tree E} {l : List E} (h : Holds t l) (n : ℕ) :
    ∀ (i : ℕ) (d : Tree E), i + n = l.length → Holds d (l.take i) → l.length < d.capEnd →
      ∃ d', copyLoop t d (i + 1) n = some d' ∧ Holds d' l ∧ d'.capEnd = d.capEnd := by
  induction n with
  | zero =>
    intro i d hi hd hcap
    refine ⟨d, rfl, ?_, rfl⟩
    rw [List.take_of_length_le (by omega)] at hd
    exact hd
  | succ n ih =>
    intro i d hi hd hcap
    have hlast : d.last = i := by rw [hd.last, List.length_take]; omega
    have hg : t.get (i + 1) = some l[i] := by
      rw [holds_get h (by omega), rd_some (by omega) (by omega)]
      simp
    obtain ⟨d', e1, e2, e3⟩ := holds_pushBackWithCapacity hd (by omega) l[i]
    have e4 : l.take i ++ [l[i]] = l.take (i + 1) := by
      rw [List.take_append_getElem]
    rw [e4] at e2
    obtain ⟨d'', f1, f2, f3⟩ := ih (i + 1) d' (by omega) e2 (by omega)
    refine ⟨d'', ?_, f2, by omega⟩
    rw [copyLoop, hg]
    simp only
    rw [if_neg (by omega), e1]
    exact f1

/-- C04: growing keeps every entry and gives room for at least one more. -/
theorem holds_increaseCapacity {t : Tree E} {l : List E} (h : Holds t l) :
    ∃ t', increaseCapacity t = some t' ∧ Holds t' l ∧ t'.last < t'.capEnd ∧
      t.capEnd < t'.capEnd := by
  have hc := h.cap
  have hl := h.last
  have hnew : l.length < (if t.capEnd = 0 then 16 else t.capEnd * 2) := by split <;> omega
  obtain ⟨d, e1, e2, e3⟩ := copyLoop_holds h l.length 0
    (mk (if t.capEnd = 0 then 16 else t.capEnd * 2)) (by omega) (by simpa using holds_mk _) hnew
  have e3' : d.capEnd = if t.capEnd = 0 then 16 else t.capEnd * 2 := e3
  refine ⟨{ t with arr := d.arr, capEnd := d.capEnd }, ?_, ⟨h.last, ?_, e2.alloc, e2.cell⟩, ?_, ?_⟩
  · rw [increaseCapacity, hl]
    rw [zero_add] at e1
    rw [e1]
  · simp only [e3']; omega
  · simp only [e3']; omega
  · simp only [e3']; split <;> omega

/-- C04: `pushBack` appends one entry and keeps the rest, growing or not. -/
theorem holds_pushBack {t : Tree E} {l : List E} (h : Holds t l) (a : E) :
    ∃ t', pushBack t a = some t' ∧ Holds t' (l ++ [a]) := by
  have hc := h.cap
  unfold pushBack
  split
  · obtain ⟨t₁, e1, e2, e3, _⟩ := holds_increaseCapacity h
    obtain ⟨t', f1, f2, _⟩ := holds_pushBackWithCapacity e2 e3 a
    exact ⟨t', by rw [e1]; exact f1, f2⟩
  · obtain ⟨t', f1, f2, _⟩ := holds_pushBackWithCapacity h (by omega) a
    exact ⟨t', f1, f2⟩

/-- C04: `popBack` removes exactly the last entry; it is undefined exactly on an empty tree. -/
theorem holds_popBack {t : Tree E} {l : List E} (h : Holds t l) :
    (l = [] → popBack t = none) ∧ (l ≠ [] → ∃ t', popBack t = some t' ∧ Holds t' l.dropLast) := by
  have hl := h.last
  constructor
  · intro he
    subst he
    rw [popBack, if_pos (by simpa using hl)]
  · intro he
    have : l.length ≠ 0 := fun h0 => he (List.length_eq_zero_iff.mp h0)
    refine ⟨{ t with last := t.last - 1 }, by rw [popBack, if_neg (by omega)], ?_, ?_, h.alloc, ?_⟩
    · simp [hl]
    · have := h.cap; simp; omega
    · intro i hi
      rw [List.length_dropLast] at hi
      rw [h.cell i (by omega), List.getElem_dropLast]

theorem holds_clear {t : Tree E} {l : List E} (h : Holds t l) : Holds (clear t) [] :=
  ⟨rfl, Nat.zero_le _, h.alloc, nofun⟩

/-- C04: `hasFreeCapacity` tells how many `pushBackWithCapacity` are safe. -/
theorem holds_pushAllWithCapacity {t : Tree E} {l : List E} (h : Holds t l) (m : List E)
    (hfree : hasFreeCapacity t m.length = true) :
    ∃ t', pushAllWithCapacity t m = some t' ∧ Holds t' (l ++ m) := by
  unfold hasFreeCapacity at hfree
  rw [decide_eq_true_eq] at hfree
  induction m generalizing t l with
  | nil => exact ⟨t, rfl, by simpa using h⟩
  | cons a m ih =>
    simp only [List.length_cons] at hfree
    have hc := h.cap
    obtain ⟨t₁, e1, e2, e3⟩ := holds_pushBackWithCapacity h (by omega) a
    have hl := h.last
    have hl' := e2.last
    simp at hl'
    obtain ⟨t₂, f1, f2⟩ := ih e2 (by omega)
    refine ⟨t₂, ?_, by simpa using f2⟩
    rw [pushAllWithCapacity, e1]
    exact f1

theorem assignLoop_holds {t : Tree E} {l : List E} (h : Holds t l) (n : ℕ) :
    ∀ (i : ℕ) (d : Tree E), i + n = l.length → l.length ≤ d.arr.length →
      (∀ j (_ : j < i) (hl : j < l.length), d.arr[j]? = some (some l[j])) →
      ∃ d', assignLoop t d (i + 1) n = some d' ∧ d'.last = d.last ∧ d'.capEnd = d.capEnd ∧
        d'.arr.length = d.arr.length ∧ ∀ j (hl : j < l.length), d'.arr[j]? = some (some l[j]) := by
  induction n with
  | zero =>
    intro i d hi hcap hd
    exact ⟨d, rfl, rfl, rfl, rfl, fun j hl => hd j (by omega) hl⟩
  | succ n ih =>
    intro i d hi hcap hd
    have hg : t.get (i + 1) = some l[i] := by
      rw [holds_get h (by omega), rd_some (by omega) (by omega)]
      simp
    have hp : d.put (i + 1) l[i] = some { d with arr := d.arr.set i (some l[i]) } := by
      rw [Tree.put, if_pos ⟨by omega, by omega⟩]
      simp
    obtain ⟨d', e1, e2, e3, e4, e5⟩ := ih (i + 1) { d with arr := d.arr.set i (some l[i]) }
      (by omega) (by simpa using hcap) (by
        intro j hj hl
        simp only [List.getElem?_set]
        by_cases hij : i = j
        · subst hij
          rw [if_pos rfl, if_pos (by omega)]
        · rw [if_neg hij]
          exact hd j (by omega) hl)
    refine ⟨d', ?_, e2, e3, by simpa using e4, e5⟩
    rw [assignLoop, hg]
    simp only
    rw [hp]
    exact e1

end Verif.ComTree
