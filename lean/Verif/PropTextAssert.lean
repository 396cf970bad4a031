import Verif.TextAssertProofs
import Verif.PropBitTriangle
import Verif.PropColumnPrinter
import Verif.PropDisplay

/-!
# Debug builds of `BitTriangle`, `display` and `ColumnPrinter`: C94, C95
-/

/-! ## C94 -/

namespace Verif.BitTriangle

open Verif.Dbg

/-- C94: a debug build fails an assertion exactly in the histories that touch a pair that does not exist; nothing is undefined,
and all other histories end as in a release build. -/
theorem bitTriangle_debug (ops : List Op) :
    (AllValid [] ops → ∃ s, run [] ops = some s ∧ runD [] ops = ok s) ∧
    (¬ AllValid [] ops → runD [] ops = failed) := by
  rw [runD_eq ops shape_nil]
  refine ⟨fun h => ?_, fun h => ?_⟩
  · obtain ⟨s, hs, _⟩ := (bitTriangle_correct ops).1 h
    exact ⟨s, hs, by rw [hs]; rfl⟩
  · rw [(bitTriangle_correct ops).2 h]
    rfl

/-- C94: after a history, reading a bit that exists gives what was stored last, and reading any other fails an assertion. -/
theorem bitTriangle_debug_read (ops : List Op) (s : State) (h : runD [] ops = ok s) (x y : ℕ) :
    bitD s x y = (if y < x ∧ x < cols ops then ok (lastStored ops x y) else failed) ∧
    bitUnorderedD s x y = (if x ≠ y ∧ x < cols ops ∧ y < cols ops
      then ok (lastStored ops (max x y) (min x y)) else failed) := by
  have hv : AllValid [] ops := by
    by_contra hv
    rw [(bitTriangle_debug ops).2 hv] at h
    cases h
  obtain ⟨s', h1, _, _, h2, h3⟩ := (bitTriangle_correct ops).1 hv
  rw [runD_eq ops shape_nil, h1] at h
  cases h
  have hs := shape_run ops shape_nil h1
  rw [bitD_eq hs, bitUnorderedD_eq hs, h2, h3]
  constructor <;> split <;> rfl

/-- Histories of both kinds. -/
example : AllValid [] [.addColumn, .addColumn, .setBitUnordered 0 1 true] ∧
    ¬ AllValid [] [.addColumn, .addColumn, .setBit 0 1 true] := by
  simp [AllValid, Valid, cols]

#guard runD [] [.addColumn, .addColumn, .setBitUnordered 0 1 true] = ok [[], [true]]
#guard runD [] [.addColumn, .addColumn, .setBit 0 1 true] = failed
#guard runD [] [.addColumn, .addColumn, .setBitUnordered 1 1 true] = failed

end Verif.BitTriangle

namespace Verif.Display

open Verif.Dbg Verif.Text

/-- C94: no assertion of `display` fails, whatever the message: it prints what the specification says, or the message has a byte
on which `isspace` is undefined, which no assertion catches. -/
theorem display_debug (pre msg : Str) :
    (∀ out, Plain msg → (displayD msg pre = ok out ↔ Shows cut pre msg out)) ∧ (¬ Plain msg → displayD msg pre = ub) := by
  have h : displayD msg pre = lift (display msg pre) := by
    rw [displayD, display, printLoopD_eq _ _ _ rfl]
    cases printLoop pre msg ⟨0, []⟩ <;> rfl
  rw [h]
  refine ⟨fun out hp => ?_, fun hp => ?_⟩
  · rw [lift_ok, display_iff pre msg out hp]
  · rw [(display_undefined_iff pre msg).mpr hp]
    rfl

#guard displayD sample "> ".toList = ok (">   " ++ String.join (List.replicate 8 "sevenxx ") ++ "sevenxx\n" ++
  ">   sevenxx sevenxx sevenxx\n> \n> end\n").toList

example : Plain "ab cd".toList ∧ ¬ Plain [Char.ofNat 195] := by constructor <;> simp [Plain]

end Verif.Display

/-! ## C95 -/

namespace Verif.ColumnPrinter

open Verif.Dbg Verif.Text

/-- C95: a debug build fails an assertion exactly in the histories that name a column that does not exist, or pad all columns with
newlines; nothing is undefined. -/
theorem columnPrinter_debug (n : ℕ) (ops : List Op) :
    (Allowed n ops → ∃ s, run (init n) ops = some s ∧ runD (init n) ops = ok s) ∧
    (¬ Allowed n ops → runD (init n) ops = failed) := by
  have hn : (init n).cols.length = n := by rw [(init_columns n).1, List.length_replicate]
  rw [runD_eq]
  refine ⟨fun h => ?_, fun h => ?_⟩
  · obtain ⟨s, hs, _⟩ := run_columns (init n) ops (by rw [hn]; exact h)
    exact ⟨s, hs, by rw [hs]; rfl⟩
  · rw [run_undefined _ _ (by rw [hn]; exact h)]
    rfl

/-- C95: the assertion in `print` never fails, for any texts: the table is printed. -/
theorem columnPrinter_debug_print (s : State) (t : Table) (h : TableOf s t) : printD s = ok (rows s.pre t) :=
  printD_ok (print_table s t h)

/-- C95 in full: if a debug build gets through such calls, then each row that it prints is one line. -/
def RowsAreLines (n : ℕ) (ops : List Op) : Prop :=
  ∀ s t, (∀ op ∈ ops, op.Tame) → runD (init n) ops = ok s → TableOf s t → ∀ r, '\n' ∉ row s.pre t r

/-- C95, where it holds: if no single column is padded with newlines.
Missing, and false: `repeatToEndOfLine('\n', col)`. -/
theorem columnPrinter_debug_lines_partial (n : ℕ) (ops : List Op) (hr : ∀ col, Op.repeatOne '\n' col ∉ ops) :
    RowsAreLines n ops := by
  intro s t ht hs htab
  have hn : (init n).cols.length = n := by rw [(init_columns n).1, List.length_replicate]
  have ha : Allowed n ops := by
    by_contra ha
    rw [(columnPrinter_debug n ops).2 ha] at hs
    cases hs
  obtain ⟨s', h1, h2, h3, h4⟩ := run_columns (init n) ops (by rw [hn]; exact ha)
  rw [runD_eq, h1] at hs
  cases hs
  refine rows_are_lines s t htab ?_ ?_
  · rw [h3]
    exact linePrefix_tame ops _ (by rw [(init_columns n).2]; simp) ht
  · intro c hc
    have hcol : c.1 ∈ s.cols := by rw [htab.1]; exact List.mem_map_of_mem hc
    have hlook : c.1.look ∈ s.cols.map Col.look := List.mem_map_of_mem hcol
    have hps : '\n' ∉ c.1.pre ∧ '\n' ∉ c.1.suf := by
      rw [h2, List.mem_append] at hlook
      rcases hlook with hl | hl
      · rw [(init_columns n).1, List.map_replicate] at hl
        have := List.eq_of_mem_replicate hl
        simp only [Col.look, Prod.mk.injEq] at this
        rw [this.2.1, this.2.2]
        decide
      · obtain ⟨op, hop, hl⟩ := List.mem_flatMap.mp hl
        have := ht op hop
        cases op with
        | addColumn f p q =>
          rw [Op.adds, List.mem_singleton, Col.look] at hl
          simp only [Prod.mk.injEq] at hl
          rw [hl.2.1, hl.2.2]
          exact this
        | setPrefix p => cases hl
        | write col str => cases hl
        | repeatOne c col => cases hl
        | repeatAll c => cases hl
    refine ⟨hps.1, hps.2, Tok.pads (htab.2 c hc) ?_⟩
    obtain ⟨i, hi, he⟩ := List.getElem_of_mem hcol
    have h5 := h4 i
    rw [List.getElem?_eq_getElem hi, Option.map_some, Option.getD_some, he] at h5
    have h6 : ((init n).cols[i]?.map Col.text).getD [] = [] := by
      rw [(init_columns n).1]
      by_cases hin : i < n
      · simp [hin]
      · simp [hin]
    rw [h5, h6, List.nil_append, hn]
    exact written_tok i ops n ht ha hr

/-- The calls of the refutation. -/
def exBreak : List Op := [.write 0 "ab\na".toList, .repeatOne '\n' 0]

/-- C95 is false: `repeatToEndOfLine('\n', 0)` is not caught, and the padding breaks the second row in two. The same call for all
columns is caught. -/
theorem columnPrinter_debug_lines_refuted :
    ¬ RowsAreLines 1 exBreak ∧ runD (init 1) [.write 0 "ab\na".toList, .repeatAll '\n'] = failed ∧
    ∃ s, runD (init 1) exBreak = ok s ∧ printD s = ok "  ab\n  a\n\n".toList := by
  let c : Col := ⟨[' ', ' '], ['a', 'b', '\n', 'a', nul, '\n'], [], true⟩
  have htab : TableOf ⟨[c], []⟩ [(c, [(['a', 'b'], ' '), (['a'], '\n')])] := by
    refine ⟨rfl, ?_⟩
    intro x hx
    rw [List.mem_singleton] at hx
    subst hx
    exact .newline (t := ['a', 'b']) (by simp [Plain, nul]) (.rep (t := ['a']) (by simp [Plain, nul]) .nil)
  have hrun : runD (init 1) exBreak = ok ⟨[c], []⟩ := rfl
  refine ⟨fun h => ?_, (columnPrinter_debug 1 _).2 (by simp [Allowed, Op.Ok]), _, hrun, ?_⟩
  · refine h _ _ ?_ hrun htab 1 (by decide)
    simp [exBreak, Op.Tame, nul]
  · rw [columnPrinter_debug_print _ _ htab]
    decide

/-- The hypotheses are met by a table with two columns and a line of dashes. -/
example : (∀ op ∈ exOps, op.Tame) ∧ Allowed 0 exOps ∧ ∀ col, Op.repeatOne '\n' col ∉ exOps := by
  simp [exOps, Op.Tame, Allowed, Op.Ok, Op.adds, nul]

#guard (do printD (← runD (init 0) exOps)) = ok "#   a - first|\n# bcd - -----|\n# --- - x    |\n".toList
#guard runD (init 2) [.write 2 ['a']] = failed

end Verif.ColumnPrinter
