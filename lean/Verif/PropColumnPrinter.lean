import Verif.ColumnPrinterProofs
import Mathlib.Data.List.GetD

/-!
# Properties of `mathic::ColumnPrinter`: C46, C47
-/

namespace Verif.ColumnPrinter

open Verif.Text

/-! ## C46 -/

/-- C46: `commafy` gives the decimal representation, in groups of three digits from the right. -/
theorem commafy_spec (n : ℕ) :
    Grouped (commafy n) ∧ IsDecimal ((commafy n).filter (· ≠ ',')) n := by
  rw [commafy_eq, comma_filter _ (decimal_digits n)]
  exact ⟨comma_grouped _ (decimal_ne_nil n) (decimal_digits n), decimal_isDecimal n⟩

/-- C46: there is no other such string. -/
theorem commafy_unique (n : ℕ) (s : List Char) (hg : Grouped s)
    (hd : IsDecimal (s.filter (· ≠ ',')) n) : s = commafy n := by
  rw [commafy_eq, ← hd.eq]
  exact hg.comma_eq.symm

/-- C46: different numbers look different. -/
theorem commafy_injective : Function.Injective commafy := by
  intro m n h
  have hm := (commafy_spec m).2.value
  rw [h, (commafy_spec n).2.value] at hm
  exact hm.symm

-- The example of the header.
#guard commafy 123456789 == "123,456,789".toList
#guard commafy 0 == "0".toList
#guard commafy 999 == "999".toList
#guard commafy 1000 == "1,000".toList
#guard commafy (2 ^ 64 - 1) == "18,446,744,073,709,551,615".toList

/-! ## C47 -/

/-- C47: every text is made of cells in exactly one way. -/
theorem table_exists_unique (s : State) : ∃! t, TableOf s t := by
  obtain ⟨t, h1, h2⟩ := table_exists s.cols
  refine ⟨t, ⟨h1, h2⟩, ?_⟩
  rintro t' ⟨h1', h2'⟩
  rw [h1] at h1'
  clear h1
  induction t generalizing t' with
  | nil => cases t' with | nil => rfl | cons a t' => cases h1'
  | cons a t ih =>
    cases t' with
    | nil => cases h1'
    | cons a' t' =>
      simp only [List.map_cons, List.cons.injEq] at h1'
      have e : a'.2 = a.2 := (h2' a' (by simp)).unique (by rw [← h1'.1]; exact h2 a (by simp))
      rw [ih (fun c hc => h2 c (by simp [hc])) t' h1'.2 (fun c hc => h2' c (by simp [hc])),
        Prod.ext h1'.1.symm e]

/-- C47: `print` prints the table row by row, each cell unchanged and padded to the width of its
column. -/
theorem print_table (s : State) (t : Table) (h : TableOf s t) : print s = some (rows s.pre t) := by
  obtain ⟨h1, h2⟩ := h
  unfold print
  rw [h1, measure_eq t h2]
  simp only
  rw [printRows_eq s.pre _ (inv_start t h2) rfl]
  simp only [rows, row, rowCount, List.map_map, List.flatMap_map]
  rfl

/-- C47: the constructor makes flush left columns with two spaces before each. -/
theorem init_columns (n : ℕ) :
    (init n).cols = List.replicate n ⟨[' ', ' '], [], [], true⟩ ∧ (init n).pre = [] := by
  induction n with
  | zero => exact ⟨rfl, rfl⟩
  | succ n ih =>
    rw [init, addColumn, ih.1, ih.2, List.replicate_succ']
    exact ⟨rfl, rfl⟩

/-- C47: printing is defined for every printer: no character outside of a text is read, no width
wraps around, and the loops end. -/
theorem print_defined (s : State) : ∃ out, print s = some out := by
  obtain ⟨t, ht, _⟩ := table_exists_unique s
  exact ⟨_, print_table s t ht⟩

/-- C47: all rows have the same length, so that columns line up. -/
theorem rows_line_up (pre : List Char) (t : Table) (r : ℕ) :
    (row pre t r).length =
      pre.length + (t.map (fun c => c.1.pre.length + colWidth c.2 + c.1.suf.length)).sum := by
  unfold row
  rw [List.length_append, List.length_flatMap]
  congr 3
  funext c
  have : (padded c.1.flushLeft (colWidth c.2) (c.2.getD r ([], ' '))).length = colWidth c.2 := by
    apply padded_length
    by_cases hr : r < c.2.length
    · rw [List.getD_eq_getElem _ _ hr]
      exact le_maxOf (List.mem_map.mpr ⟨_, List.getElem_mem hr, rfl⟩)
    · rw [List.getD_eq_default _ _ (by omega)]
      simp
  simp only [List.length_append, this]

/-- C47: column `k` starts at the same place in every row. -/
theorem cell_position (pre : List Char) (t u : Table) (c : Col × List (List Char × Char)) (r : ℕ) :
    (row pre (t ++ c :: u) r) = row pre t r ++ c.1.pre ++
      padded c.1.flushLeft (colWidth c.2) (c.2.getD r ([], ' ')) ++ c.1.suf ++ row [] u r := by
  simp [row, List.append_assoc]

/-- C47: a row is one line of the output, unless a prefix, a suffix or a padding has a newline. -/
theorem rows_are_lines (s : State) (t : Table) (h : TableOf s t) (hp : '\n' ∉ s.pre)
    (hc : ∀ c ∈ t, '\n' ∉ c.1.pre ∧ '\n' ∉ c.1.suf ∧ ∀ x ∈ c.2, x.2 ≠ '\n') (r : ℕ) :
    '\n' ∉ row s.pre t r := by
  have hplain : ∀ {text cs}, Cells text cs → ∀ x ∈ cs, '\n' ∉ x.1 := by
    intro text cs h
    induction h with
    | nil => simp
    | last _ ht => intro x hx; rw [List.mem_singleton] at hx; subst hx; exact fun hm => plain_newline (ht _ hm)
    | lastNul ht => intro x hx; rw [List.mem_singleton] at hx; subst hx; exact fun hm => plain_newline (ht _ hm)
    | newline ht _ ih =>
      intro x hx
      rcases List.mem_cons.mp hx with rfl | hx
      · exact fun hm => plain_newline (ht _ hm)
      · exact ih x hx
    | rep ht _ ih =>
      intro x hx
      rcases List.mem_cons.mp hx with rfl | hx
      · exact fun hm => plain_newline (ht _ hm)
      · exact ih x hx
  unfold row
  rw [List.mem_append, List.mem_flatMap]
  rintro (h' | ⟨c, hct, h'⟩)
  · exact hp h'
  · obtain ⟨h1, h2, h3⟩ := hc c hct
    have hcell : '\n' ∉ (c.2.getD r ([], ' ')).1 ∧ (c.2.getD r ([], ' ')).2 ≠ '\n' := by
      by_cases hr : r < c.2.length
      · rw [List.getD_eq_getElem _ _ hr]
        exact ⟨hplain (h.2 c hct) _ (List.getElem_mem hr), h3 _ (List.getElem_mem hr)⟩
      · rw [List.getD_eq_default _ _ (by omega)]
        exact ⟨by simp, by decide⟩
    simp only [List.mem_append] at h'
    rcases h' with (h' | h') | h'
    · exact h1 h'
    · unfold padded at h'
      have : '\n' ∉ List.replicate (colWidth c.2 - (c.2.getD r ([], ' ')).1.length) (c.2.getD r ([], ' ')).2 := by
        intro hm
        exact hcell.2 (List.eq_of_mem_replicate hm).symm
      split at h' <;> rcases List.mem_append.mp h' with h' | h'
      · exact hcell.1 h'
      · exact this h'
      · exact this h'
      · exact hcell.1 h'
    · exact h2 h'

/-- C47: the cells of a column that is written line by line are these lines. -/
theorem cells_of_lines (ls : List (List Char)) (h : ∀ l ∈ ls, ∀ c ∈ l, Plain c) :
    Cells (ls.flatMap (fun l => l ++ ['\n'])) (ls.map (fun l => (l, ' '))) := by
  induction ls with
  | nil => exact .nil
  | cons l ls ih =>
    simp only [List.flatMap_cons, List.map_cons, List.append_assoc, List.singleton_append]
    exact .newline (h l (by simp)) (ih (fun l hl => h l (by simp [hl])))

/-- C47: `repeatToEndOfLine` ends the line that is being written and sets its padding. -/
theorem cells_of_repeat {text : List Char} {cs : List (List Char × Char)} (h : Cells text cs)
    (hend : cs = [] ∨ text.getLast? = some '\n') (l : List Char) (hl : ∀ c ∈ l, Plain c) (q : Char) :
    Cells (text ++ (l ++ [nul, q])) (cs ++ [(l, q)]) := by
  induction h with
  | nil => exact .rep hl .nil
  | @last t hne ht =>
    rcases hend with h | h
    · cases h
    · exact absurd (ht _ (List.mem_of_getLast? h)) plain_newline
  | @lastNul t ht =>
    rcases hend with h | h
    · cases h
    · rw [List.getLast?_concat, Option.some.injEq] at h
      exact absurd h nul_ne_newline
  | @newline t rest cs ht h ih =>
    rw [List.append_assoc, List.cons_append, List.cons_append]
    refine .newline ht (ih ?_)
    by_cases h0 : rest = []
    · subst h0; exact .inl ((cells_nil_iff h).mpr rfl)
    · refine .inr ?_
      rcases hend with h | h
      · cases h
      · rw [List.getLast?_append_of_ne_nil _ (by simp), List.getLast?_cons_of_ne_nil h0] at h
        exact h
  | @rep t p rest cs ht h ih =>
    rw [List.append_assoc, List.cons_append, List.cons_append, List.cons_append]
    refine .rep ht (ih ?_)
    by_cases h0 : rest = []
    · subst h0; exact .inl ((cells_nil_iff h).mpr rfl)
    · refine .inr ?_
      rcases hend with h | h
      · cases h
      · rw [List.getLast?_append_of_ne_nil _ (by simp), List.getLast?_cons_of_ne_nil (by simp),
          List.getLast?_cons_of_ne_nil h0] at h
        exact h

/-- C47: on every history of calls that name existing columns, each column has the look it was added
with and holds what was written to it. -/
theorem run_columns (s : State) (ops : List Op) (h : Allowed s.cols.length ops) :
    ∃ s', run s ops = some s' ∧
      s'.cols.map Col.look = s.cols.map Col.look ++ ops.flatMap Op.adds ∧
      s'.pre = linePrefix s.pre ops ∧
      ∀ i, (s'.cols[i]?.map Col.text).getD [] =
        (s.cols[i]?.map Col.text).getD [] ++ written i s.cols.length ops := by
  induction ops generalizing s with
  | nil => exact ⟨s, rfl, by simp, rfl, by simp [written]⟩
  | cons op ops ih =>
    obtain ⟨hop, hops⟩ := h
    obtain ⟨s₁, h1, h2, h3, h4, h5⟩ := step_spec s op hop
    obtain ⟨s', g1, g3, g4, g5⟩ := ih s₁ (by rw [h2]; exact hops)
    refine ⟨s', by simp [run, h1, g1], by rw [g3, h3, List.flatMap_cons, List.append_assoc], ?_, ?_⟩
    · rw [g4, h4]; cases op <;> rfl
    · intro i
      rw [g5, h5, h2, written, List.append_assoc]

/-- C47: a call on a column that is not there, or the newline as a character to repeat in all
columns, is undefined. -/
theorem run_undefined (s : State) (ops : List Op) (h : ¬ Allowed s.cols.length ops) :
    run s ops = none := by
  induction ops generalizing s with
  | nil => exact absurd trivial h
  | cons op ops ih =>
    by_cases hop : op.Ok s.cols.length
    · obtain ⟨s₁, h1, h2, _⟩ := step_spec s op hop
      rw [run, h1]
      exact ih s₁ (by rw [h2]; exact fun h' => h ⟨hop, h'⟩)
    · rw [run, step_none s op hop]; rfl

/-- `print` to a `FILE*` writes the same, if no NUL is printed. -/
theorem printFile_eq (s : State) (out : List Char) (h : print s = some out) (hn : nul ∉ out) :
    printFile s = some out := by
  unfold printFile
  rw [h, Option.map_some, Option.some.injEq]
  have key : ∀ l : List Char, nul ∉ l → l.takeWhile (· ≠ nul) = l := by
    intro l
    induction l with
    | nil => intro _; rfl
    | cons c l ih =>
      intro hl
      simp only [List.mem_cons, not_or] at hl
      rw [List.takeWhile_cons, if_pos (by simpa using Ne.symm hl.1), ih hl.2]
  exact key out hn

/-- A column with a line that is padded with NUL. -/
def exNul : State := ⟨[⟨[], ['a', nul, nul, 'b', 'c', 'd', '\n'], [], true⟩], ['>', '>']⟩

/-- But it stops at a NUL: a table padded with NUL is cut off, while a stream gets all of it. -/
theorem printFile_cut :
    print exNul = some ['>', '>', 'a', nul, nul, '\n', '>', '>', 'b', 'c', 'd', '\n'] ∧
      printFile exNul = some ['>', '>', 'a'] := by
  have h : print exNul = some ['>', '>', 'a', nul, nul, '\n', '>', '>', 'b', 'c', 'd', '\n'] := by
    refine print_table exNul
      [(⟨[], ['a', nul, nul, 'b', 'c', 'd', '\n'], [], true⟩, [(['a'], nul), (['b', 'c', 'd'], ' ')])]
      ⟨rfl, ?_⟩
    intro c hc
    rw [List.mem_singleton] at hc
    subst hc
    exact .rep (t := ['a']) (by simp [Plain, nul])
      (.newline (t := ['b', 'c', 'd']) (by simp [Plain, nul]) .nil)
  refine ⟨h, ?_⟩
  rw [printFile, h]
  rfl

/-- A table: right and left column, a line of dashes, unequal numbers of lines. -/
def exOps : List Op :=
  [.addColumn false [' '] [], .addColumn true [' ', '-', ' '] ['|'], .setPrefix ['#'],
    .write 0 "a\nbcd\n".toList, .write 1 "first\n".toList, .repeatAll '-', .write 1 "x".toList]

/-- The hypotheses of `run_columns` are met. -/
example : Allowed (init 0).cols.length exOps := by
  simp [exOps, Allowed, Op.Ok, Op.adds, init]

#guard ((run (init 0) exOps).bind print).map String.ofList ==
  some "#   a - first|\n# bcd - -----|\n# --- - x    |\n"

-- Columns of the constructor.
#guard (run (init 2) [.write 0 ['a', '\n'], .write 1 ['b']]).bind print == some "  a  b\n".toList
#guard (run (init 2) [.write 2 ['a']]).isNone

end Verif.ColumnPrinter
