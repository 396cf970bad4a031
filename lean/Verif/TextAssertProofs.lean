import Verif.TextAssert
import Verif.TextAssertSpec
import Verif.BitTriangleProofs
import Verif.ColumnPrinterProofs
import Verif.DisplayProofs

/-!
# Lemmas on debug builds of `BitTriangle`, `ColumnPrinter` and `display`
-/

namespace Verif.BitTriangle

open Verif.Dbg

/-- Column `c` has `c` bits. -/
def Shape (s : State) : Prop := ∀ c (h : c < s.length), s[c].length = c

theorem bitD_eq {s : State} (h : Shape s) (c r : ℕ) : bitD s c r = caught (bit s c r) := by
  rw [bitD, bit, columnCount]
  by_cases hc : c < s.length
  · rw [List.getElem?_eq_getElem hc]
    have := h c hc
    by_cases hr : r < c
    · simp [hc, hr, List.getElem?_eq_getElem (show r < s[c].length by omega), caught]
    · simp [hc, hr, List.getElem?_eq_none (show s[c].length ≤ r by omega), caught]
  · simp [hc, caught]

theorem setBitD_eq {s : State} (h : Shape s) (c r : ℕ) (v : Bool) : setBitD s c r v = caught (setBit s c r v) := by
  rw [setBitD, setBit, columnCount]
  by_cases hc : c < s.length
  · rw [List.getElem?_eq_getElem hc]
    have := h c hc
    by_cases hr : r < c
    · simp [hc, hr, this, caught]
    · simp [hc, hr, this, caught]
  · simp [hc, caught]

theorem bit_none {s : State} (h : Shape s) {c r : ℕ} (hn : ¬ (r < c ∧ c < s.length)) : bit s c r = none := by
  rw [bit]
  by_cases hc : c < s.length
  · rw [List.getElem?_eq_getElem hc]
    have := h c hc
    exact List.getElem?_eq_none (by omega)
  · rw [List.getElem?_eq_none (by omega)]

theorem setBit_outside {s : State} (h : Shape s) {c r : ℕ} {v : Bool} (hn : ¬ (r < c ∧ c < s.length)) :
    setBit s c r v = none := by
  rw [setBit]
  by_cases hc : c < s.length
  · rw [List.getElem?_eq_getElem hc]
    have := h c hc
    exact if_neg (by omega)
  · rw [List.getElem?_eq_none (by omega)]

theorem bitUnorderedD_eq {s : State} (h : Shape s) (x y : ℕ) : bitUnorderedD s x y = caught (bitUnordered s x y) := by
  rw [bitUnorderedD, bitUnordered, columnCount]
  by_cases hv : x < s.length ∧ y < s.length ∧ x ≠ y
  · obtain ⟨h1, h2, h3⟩ := hv
    simp only [h1, h2, h3, decide_true, assert_true, ok_bind, ne_eq, not_false_eq_true, bitD_eq h]
    split <;> rfl
  · have hn : (if x < y then bit s y x else bit s x y) = none := by
      split
      · exact bit_none h (by omega)
      · exact bit_none h (by omega)
    rw [hn]
    by_cases h1 : x < s.length
    · by_cases h2 : y < s.length
      · have h3 : x = y := by omega
        subst h3
        simp [h1, caught]
      · simp [h1, h2, caught]
    · simp [h1, caught]

theorem setBitUnorderedD_eq {s : State} (h : Shape s) (x y : ℕ) (v : Bool) :
    setBitUnorderedD s x y v = caught (setBitUnordered s x y v) := by
  rw [setBitUnorderedD, setBitUnordered, columnCount]
  by_cases hv : x < s.length ∧ y < s.length ∧ x ≠ y
  · obtain ⟨h1, h2, h3⟩ := hv
    simp only [h1, h2, h3, decide_true, assert_true, ok_bind, ne_eq, not_false_eq_true, setBitD_eq h]
    split <;> rfl
  · have hn : (if x < y then setBit s y x v else setBit s x y v) = none := by
      split
      · exact setBit_outside h (by omega)
      · exact setBit_outside h (by omega)
    rw [hn]
    by_cases h1 : x < s.length
    · by_cases h2 : y < s.length
      · have h3 : x = y := by omega
        subst h3
        simp [h1, caught]
      · simp [h1, h2, caught]
    · simp [h1, caught]

theorem shape_setBit {s s' : State} (h : Shape s) {c r : ℕ} {v : Bool} (hs : setBit s c r v = some s') : Shape s' := by
  rw [setBit] at hs
  split at hs
  · cases hs
  · rename_i col hc
    split at hs
    · cases hs
      intro k hk
      rw [List.length_set] at hk
      have := h k hk
      rw [List.getElem_set]
      split
      · rename_i e
        subst e
        rw [List.getElem?_eq_getElem hk] at hc
        cases hc
        rw [List.length_set, this]
      · exact this
    · cases hs

theorem shape_step {s s' : State} (h : Shape s) {op : Op} (hs : step s op = some s') : Shape s' := by
  cases op with
  | addColumn =>
    cases hs
    intro k hk
    rw [addColumn, List.length_append, List.length_singleton] at hk
    simp only [addColumn]
    by_cases hl : k < s.length
    · rw [List.getElem_append_left hl]
      exact h k hl
    · have : k = s.length := by omega
      subst this
      simp
  | setBit c r v => exact shape_setBit h hs
  | setBitUnordered x y v =>
    rw [step, setBitUnordered] at hs
    split at hs
    · exact shape_setBit h hs
    · exact shape_setBit h hs

theorem stepD_eq {s : State} (h : Shape s) (op : Op) : stepD s op = caught (step s op) := by
  cases op with
  | addColumn => rfl
  | setBit c r v => exact setBitD_eq h c r v
  | setBitUnordered x y v => exact setBitUnorderedD_eq h x y v

theorem shape_run (ops : List Op) : ∀ {s s' : State}, Shape s → run s ops = some s' → Shape s' := by
  induction ops with
  | nil => intro s s' h hr; cases hr; exact h
  | cons op ops ih =>
    intro s s' h hr
    rw [run] at hr
    cases hs : step s op with
    | none => rw [hs] at hr; cases hr
    | some s₁ => rw [hs] at hr; exact ih (shape_step h hs) hr

theorem runD_eq (ops : List Op) : ∀ {s : State}, Shape s → runD s ops = caught (run s ops) := by
  induction ops with
  | nil => intro s _; rfl
  | cons op ops ih =>
    intro s h
    rw [runD, run, stepD_eq h]
    cases hs : step s op with
    | none => rfl
    | some s₁ => exact ih (shape_step h hs)

theorem shape_nil : Shape [] := fun _ h => nomatch h

end Verif.BitTriangle

namespace Verif.ColumnPrinter

open Verif.Dbg Verif.Text

theorem writeD_eq (s : State) (col : ℕ) (str : List Char) : writeD s col str = caught (write s col str) := by
  rw [writeD, write, getColumnCount]
  by_cases hc : col < s.cols.length
  · simp [hc, caught]
  · simp [hc, caught]

theorem repeatToEndOfLineD_eq (s : State) (c : Char) (col : ℕ) :
    repeatToEndOfLineD s c col = caught (repeatToEndOfLine s c col) := by
  rw [repeatToEndOfLineD, repeatToEndOfLine, writeD_eq, getColumnCount]
  by_cases hc : col < s.cols.length
  · simp [hc]
  · simp [hc, write, caught]

theorem write_count {s s' : State} {col : ℕ} {str : List Char} (h : write s col str = some s') :
    getColumnCount s' = getColumnCount s := by
  rw [write] at h
  split at h
  · cases h
  · cases h
    simp [getColumnCount]

theorem repeatLoopD_eq (c : Char) (n : ℕ) : ∀ (s : State) (col : ℕ), getColumnCount s - col = n →
    repeatLoopD s c col = caught (repeatLoop s c col) := by
  induction n with
  | zero =>
    intro s col hn
    rw [repeatLoopD, repeatLoop, if_neg (by omega), if_neg (by omega)]
    rfl
  | succ n ih =>
    intro s col hn
    rw [repeatLoopD, repeatLoop, if_pos (by omega), if_pos (by omega), repeatToEndOfLineD_eq]
    have hc : col < s.cols.length := by rw [getColumnCount] at hn; omega
    obtain ⟨s', hs⟩ : ∃ s', repeatToEndOfLine s c col = some s' := by
      rw [repeatToEndOfLine, write, List.getElem?_eq_getElem hc]
      exact ⟨_, rfl⟩
    have hcount := write_count hs
    split
    · rename_i e; rw [hs] at e; cases e
    · rename_i e; rw [hs] at e; cases e
    · rename_i s₁ e
      rw [hs] at e
      cases e
      rw [dif_pos hcount]
      split
      · rename_i e; rw [hs] at e; cases e
      · rename_i s₂ e
        rw [hs] at e
        cases e
        rw [dif_pos hcount]
        exact ih _ _ (by omega)

theorem stepD_eq (s : State) (op : Op) : stepD s op = caught (step s op) := by
  cases op with
  | setPrefix p => rfl
  | addColumn f p q => rfl
  | write c t => exact writeD_eq s c t
  | repeatOne c col => exact repeatToEndOfLineD_eq s c col
  | repeatAll c =>
    rw [stepD, step, repeatAllD, repeatAll]
    by_cases hc : c = '\n'
    · simp [hc, caught]
    · simp [hc, repeatLoopD_eq c _ s 0 rfl]

theorem runD_eq (ops : List Op) : ∀ s : State, runD s ops = caught (run s ops) := by
  induction ops with
  | nil => intro s; rfl
  | cons op ops ih =>
    intro s
    rw [runD, run, stepD_eq]
    cases step s op with
    | none => rfl
    | some s₁ => exact ih s₁

theorem cellLoopD_ok {text : List Char} {pos : ℕ} {pad : Char} {r : List Char × ℕ}
    (h : cellLoop text pos pad = some r) : cellLoopD text pos pad = ok r := by
  fun_induction cellLoop text pos pad generalizing r with
  | case1 pos h1 => cases h; rw [cellLoopD]; split <;> simp_all
  | case2 pos h1 => cases h; rw [cellLoopD]; split <;> simp_all
  | case3 pos h1 h2 h3 => cases h; rw [cellLoopD]; split <;> simp_all
  | case4 => cases h; rw [cellLoopD]; split <;> simp_all
  | case5 => cases h
  | case6 => cases h
  | case7 pos c h1 h2 h3 out pos' h4 ih => cases h; rw [cellLoopD]; split <;> simp_all

theorem printCellD_ok {c : Cur} {r : List Char × Cur} (h : printCell c = some r) : printCellD c = ok r := by
  rw [printCell] at h
  rw [printCellD]
  split at h
  · rename_i p out pos h1 h2
    cases h
    rw [h1, cellLoopD_ok h2]
    rfl
  · cases h

theorem printCellsD_ok {cs : List Cur} : ∀ {r : List Char × List Cur}, printCells cs = some r → printCellsD cs = ok r := by
  induction cs with
  | nil => intro r h; cases h; rfl
  | cons c cs ih =>
    intro r h
    rw [printCells] at h
    cases h1 : printCell c with
    | none => rw [h1] at h; cases h
    | some x =>
      cases h2 : printCells cs with
      | none => rw [h1, h2] at h; cases h
      | some y =>
        rw [h1, h2] at h
        cases h
        rw [printCellsD, printCellD_ok h1, ih h2]
        rfl

theorem printRowsD_ok {pre : List Char} {cs : List Cur} {out : List Char} (h : printRows pre cs = some out) :
    printRowsD pre cs = ok out := by
  fun_induction printRows pre cs generalizing out with
  | case1 cs h1 => cases h; rw [printRowsD, if_pos h1]
  | case2 => cases h
  | case3 => cases h
  | case4 cs h1 o cs' h2 h3 rest h4 ih =>
    cases h
    rw [printRowsD, if_neg h1, printCellsD_ok h2]
    simp only
    rw [dif_pos h3, ih h4]
  | case5 => cases h

theorem printD_ok {s : State} {out : List Char} (h : print s = some out) : printD s = ok out := by
  rw [print] at h
  rw [printD]
  cases h1 : measure s.cols with
  | none => rw [h1] at h; cases h
  | some cs =>
    rw [h1] at h
    exact printRowsD_ok h

/-- A text that is made of characters other than NUL, and of NUL with a character to pad with that is not a newline. -/
inductive Tok : List Char → Prop where
  | nil : Tok []
  | char {c l} (hc : c ≠ nul) (h : Tok l) : Tok (c :: l)
  | pair {p l} (hp : p ≠ '\n') (h : Tok l) : Tok (nul :: p :: l)

theorem Tok.append {a b : List Char} (ha : Tok a) (hb : Tok b) : Tok (a ++ b) := by
  induction ha with
  | nil => exact hb
  | char hc _ ih => exact .char hc ih
  | pair hp _ ih => exact .pair hp ih

theorem Tok.of_plain {a : List Char} (h : nul ∉ a) : Tok a := by
  induction a with
  | nil => exact .nil
  | cons c a ih =>
    rw [List.mem_cons, not_or] at h
    exact .char (fun e => h.1 e.symm) (ih h.2)

theorem Tok.drop {t r : List Char} (ht : ∀ c ∈ t, Plain c) (h : Tok (t ++ r)) : Tok r := by
  induction t with
  | nil => exact h
  | cons c t ih =>
    have hc := ht c List.mem_cons_self
    refine ih (fun d hd => ht d (List.mem_cons_of_mem _ hd)) ?_
    rw [List.cons_append] at h
    generalize t ++ r = l at h
    cases h with
    | char _ h => exact h
    | pair _ _ => exact absurd rfl hc.2

theorem pad_space : ' ' ≠ '\n' := by decide

theorem Tok.pads {text : List Char} {cs : List (List Char × Char)} (h : Cells text cs) (ht : Tok text) :
    ∀ x ∈ cs, x.2 ≠ '\n' := by
  induction h with
  | nil => simp
  | last _ _ => intro x hx; rw [List.mem_singleton] at hx; subst hx; exact pad_space
  | lastNul _ => intro x hx; rw [List.mem_singleton] at hx; subst hx; exact pad_space
  | newline hp _ ih =>
    intro x hx
    rcases List.mem_cons.mp hx with rfl | hx
    · exact pad_space
    · cases ht.drop hp with
      | char _ h => exact ih h x hx
  | rep hp _ ih =>
    cases ht.drop hp with
    | char h _ => exact absurd rfl h
    | pair h1 h2 =>
      intro x hx
      rcases List.mem_cons.mp hx with rfl | hx
      · exact h1
      · exact ih h2 x hx

/-- What is written to a column, if no column is padded with newlines on its own. -/
theorem written_tok (i : ℕ) (ops : List Op) : ∀ n, (∀ op ∈ ops, op.Tame) → Allowed n ops →
    (∀ col, Op.repeatOne '\n' col ∉ ops) → Tok (written i n ops) := by
  induction ops with
  | nil => intro n _ _ _; exact .nil
  | cons op ops ih =>
    intro n ht ha hr
    refine Tok.append ?_ (ih _ (fun o ho => ht o (List.mem_cons_of_mem _ ho)) ha.2
      (fun col hc => hr col (List.mem_cons_of_mem _ hc)))
    have h1 := ht op List.mem_cons_self
    have h2 := ha.1
    split
    · cases op with
      | setPrefix p => exact .nil
      | addColumn f p q => exact .nil
      | write col str =>
        rw [Op.writes]
        split
        · exact Tok.of_plain h1
        · exact .nil
      | repeatOne c col =>
        rw [Op.writes]
        split
        · refine .pair (fun e => hr col ?_) .nil
          rw [e]
          exact List.mem_cons_self
        · exact .nil
      | repeatAll c => exact .pair h2 .nil
    · exact .nil

theorem linePrefix_tame (ops : List Op) : ∀ pre : List Char, '\n' ∉ pre → (∀ op ∈ ops, op.Tame) →
    '\n' ∉ linePrefix pre ops := by
  induction ops with
  | nil => intro pre h _; exact h
  | cons op ops ih =>
    intro pre h ht
    have ht' : ∀ o ∈ ops, o.Tame := fun o ho => ht o (List.mem_cons_of_mem _ ho)
    cases op with
    | setPrefix p => exact ih p (ht _ List.mem_cons_self) ht'
    | addColumn f p q => exact ih pre h ht'
    | write col str => exact ih pre h ht'
    | repeatOne c col => exact ih pre h ht'
    | repeatAll c => exact ih pre h ht'

end Verif.ColumnPrinter

namespace Verif.Display

open Verif.Dbg Verif.Text

theorem wordD_eq (pre ind tail gap : Str) (o : Out) {c : Char} (hc : c ≠ '\n') (hs : isspace c = some false) :
    wordD pre ind (c :: tail) gap o = match readWord tail with
      | none => ub
      | some (w, r) => ok (r, printWord pre ind gap (c :: w) o) := by
  rw [wordD, beforeWordD, hs, readWord, if_neg hc, hs]
  cases readWord tail with
  | none => simp [hc]
  | some x => simp [hc, printWordD]

theorem lineLoopD_eq (pre ind rest gap : Str) (o : Out) :
    lineLoopD pre ind rest gap o = lift (lineLoop pre ind rest gap o) := by
  fun_induction lineLoop pre ind rest gap o with
  | case1 => rw [lineLoopD]; rfl
  | case2 => rw [lineLoopD]; simp
  | case3 gap o c rest hc hs => rw [lineLoopD, if_neg hc, hs]; rfl
  | case4 gap o c rest hc hs ih => rw [lineLoopD, if_neg hc, hs]; exact ih
  | case5 gap o c rest hc hs hw => rw [lineLoopD, if_neg hc, hs]; simp only; rw [wordD_eq _ _ _ _ _ hc hs, hw]; rfl
  | case6 gap o c rest hc hs w r' hw ih =>
    rw [lineLoopD, if_neg hc, hs]
    simp only
    rw [wordD_eq _ _ _ _ _ hc hs, hw]
    simp only
    rw [dif_pos (by have := readWord_le hw; omega)]
    exact ih

theorem printLoopD_eq (pre rest : Str) (o : Out) (h0 : o.lineSize = 0) :
    printLoopD pre rest o = lift (printLoop pre rest o) := by
  fun_induction printLoop pre rest o with
  | case1 => rw [printLoopD]; rfl
  | case2 o c tail h => rw [printLoopD]; simp [h0, h]
  | case3 o c tail ind h o' => rw [printLoopD]; simp [h0, h, o']
  | case4 o c tail ind o' tail' h _ ih =>
    have := readIndentation_le h
    simp only [List.length_cons] at this
    rw [printLoopD]
    simp only [h0, decide_true, assert_true, h, if_true]
    rw [dif_pos (by omega)]
    exact ih rfl
  | case5 o c tail ind o' d tail' h hd hl =>
    rw [printLoopD]
    simp only [h0, decide_true, assert_true, h, if_neg hd]
    rw [lineLoopD_eq, hl]
    rfl
  | case6 o c tail ind o' d tail' h hd rest'' o'' hl _ ih =>
    have h1 := readIndentation_le h
    have h2 := (lineLoop_le hl).2 (by simp)
    simp only [List.length_cons] at h1 h2
    rw [printLoopD]
    simp only [h0, decide_true, assert_true, h, if_neg hd]
    rw [lineLoopD_eq, hl]
    simp only [lift_some]
    rw [dif_pos (by omega)]
    exact ih rfl

end Verif.Display
