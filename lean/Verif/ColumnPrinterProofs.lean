import Verif.ColumnPrinterSpec
import Verif.TextProofs
import Mathlib.Data.List.Forall2

namespace Verif.ColumnPrinter

open Verif.Text

/-! ## `commafy` -/

/-- The loop of `commafy` on what is left of the digits. -/
def comma : List Char → List Char
  | [] => []
  | c :: s => c :: ((if s ≠ [] ∧ s.length % 3 = 0 then [','] else []) ++ comma s)

theorem commafyLoop_eq (p s : List Char) : commafyLoop (p ++ s) p.length = comma s := by
  induction s generalizing p with
  | nil => rw [commafyLoop]; split <;> simp_all [comma]
  | cons c s ih =>
    rw [commafyLoop]
    have hg : (p ++ c :: s)[p.length]? = some c := by simp
    split
    · rename_i h; rw [hg] at h; cases h
    · rename_i c' h
      rw [hg] at h
      cases h
      have h1 := ih (p ++ [c])
      rw [List.append_assoc, List.length_append, List.length_singleton] at h1
      simp only [List.singleton_append] at h1
      rw [h1, comma]
      congr 2
      have : (p.length ≠ (p ++ c :: s).length - 1 ∧ ((p ++ c :: s).length - p.length) % 3 = 1) ↔
          (s ≠ [] ∧ s.length % 3 = 0) := by
        rw [List.length_append, List.length_cons, ← List.length_pos_iff]
        omega
      by_cases hc : s ≠ [] ∧ s.length % 3 = 0
      · rw [if_pos hc, if_pos (this.mpr hc)]
      · rw [if_neg hc, if_neg (fun h => hc (this.mp h))]

theorem commafy_eq (n : ℕ) : commafy n = comma (decimal n) := commafyLoop_eq [] _

theorem not_comma {c : Char} (h : c.isDigit = true) : c ≠ ',' := by
  rintro rfl; revert h; decide

theorem comma_filter (s : List Char) (h : ∀ c ∈ s, c.isDigit = true) :
    (comma s).filter (· ≠ ',') = s := by
  induction s with
  | nil => rfl
  | cons c s ih =>
    have hc : decide (c ≠ ',') = true := by simpa using not_comma (h c (by simp))
    rw [comma, List.filter_cons, if_pos hc, List.filter_append, ih (fun c hc => h c (by simp [hc]))]
    split <;> rfl

theorem comma_groups (k : ℕ) (s : List Char) (hl : s.length = 3 * (k + 1))
    (h : ∀ c ∈ s, c.isDigit = true) : Groups (',' :: comma s) := by
  induction k generalizing s with
  | zero =>
    match s, hl with
    | [a, b, c], _ =>
      simp only [List.mem_cons, List.not_mem_nil, or_false, forall_eq_or_imp, forall_eq] at h
      simpa [comma] using Groups.cons h.1 h.2.1 h.2.2 .nil
  | succ k ih =>
    match s, hl with
    | a :: b :: c :: s, hl =>
      simp only [List.length_cons] at hl
      simp only [List.mem_cons, forall_eq_or_imp] at h
      have hs := ih s (by omega) h.2.2.2
      have hn : s ≠ [] := by rintro rfl; simp at hl
      have h3 : s.length % 3 = 0 := by omega
      simp only [comma, List.length_cons]
      rw [if_neg (by omega), if_neg (by omega), if_pos ⟨hn, h3⟩]
      exact Groups.cons h.1 h.2.1 h.2.2.1 hs

theorem comma_rest (s : List Char) (h3 : s.length % 3 = 0) (h : ∀ c ∈ s, c.isDigit = true) :
    Groups ((if s ≠ [] ∧ s.length % 3 = 0 then [','] else []) ++ comma s) := by
  by_cases hs : s = []
  · subst hs; exact .nil
  · rw [if_pos ⟨hs, h3⟩]
    have : 0 < s.length := List.length_pos_iff.mpr hs
    exact comma_groups (s.length / 3 - 1) s (by omega) h

theorem comma_grouped (s : List Char) (hne : s ≠ []) (h : ∀ c ∈ s, c.isDigit = true) :
    Grouped (comma s) := by
  match s, hne with
  | a :: s, _ =>
    simp only [List.mem_cons, forall_eq_or_imp] at h
    by_cases h0 : s.length % 3 = 0
    · refine ⟨[a], _, ?_, by simp, by simpa using h.1, comma_rest s h0 h.2⟩
      rfl
    · match s with
      | [] => simp at h0
      | b :: s =>
        simp only [List.mem_cons, forall_eq_or_imp] at h
        simp only [List.length_cons] at h0
        by_cases h1 : s.length % 3 = 0
        · refine ⟨[a, b], _, ?_, by simp, by simpa using ⟨h.1, h.2.1⟩, comma_rest s h1 h.2.2⟩
          rw [comma, if_neg (by simp only [List.length_cons]; omega)]
          rfl
        · match s with
          | [] => simp at h1
          | c :: s =>
            simp only [List.mem_cons, forall_eq_or_imp] at h
            simp only [List.length_cons] at h0 h1
            have h2 : s.length % 3 = 0 := by omega
            refine ⟨[a, b, c], _, ?_, by simp, by simpa using ⟨h.1, h.2.1, h.2.2.1⟩,
              comma_rest s h2 h.2.2.2⟩
            rw [comma, if_neg (by simp only [List.length_cons]; omega), comma,
              if_neg (by simp only [List.length_cons]; omega)]
            rfl

theorem Groups.filter_length {s : List Char} (h : Groups s) :
    (s.filter (· ≠ ',')).length % 3 = 0 := by
  induction h with
  | nil => rfl
  | cons ha hb hc _ ih =>
    simp only [List.filter_cons, ne_eq, decide_not, not_comma ha, not_comma hb,
      not_comma hc, decide_true, decide_false, Bool.not_true, Bool.not_false,
      if_true, if_false, List.length_cons, Bool.false_eq_true] at *
    omega

theorem Groups.comma_eq {s : List Char} (h : Groups s) :
    (if s.filter (· ≠ ',') ≠ [] ∧ (s.filter (· ≠ ',')).length % 3 = 0 then [','] else []) ++
      comma (s.filter (· ≠ ',')) = s := by
  induction h with
  | nil => rfl
  | @cons a b c s ha hb hc hs ih =>
    have h3 := hs.filter_length
    have e : (',' :: a :: b :: c :: s).filter (· ≠ ',') = a :: b :: c :: s.filter (· ≠ ',') := by
      simp [not_comma ha, not_comma hb, not_comma hc]
    rw [e, if_pos ⟨by simp, by simp only [List.length_cons]; omega⟩]
    simp only [comma]
    rw [if_neg (by simp only [List.length_cons]; omega), if_neg (by simp only [List.length_cons]; omega), ih]
    rfl

theorem filter_digits {s : List Char} (h : ∀ c ∈ s, c.isDigit = true) : s.filter (· ≠ ',') = s := by
  rw [List.filter_eq_self]
  intro c hc
  simpa using not_comma (h c hc)

theorem Grouped.comma_eq {s : List Char} (h : Grouped s) : comma (s.filter (· ≠ ',')) = s := by
  obtain ⟨first, rest, rfl, ⟨h1, h2⟩, hd, hg⟩ := h
  rw [List.filter_append, filter_digits hd]
  have h3 := hg.filter_length
  have he := hg.comma_eq
  match first, h1, h2 with
  | [a], _, _ => simp only [List.singleton_append, comma]; rw [he]
  | [a, b], _, _ =>
    simp only [List.cons_append, List.nil_append, comma]
    rw [if_neg (by simp only [List.length_cons]; omega), he]; rfl
  | [a, b, c], _, _ =>
    simp only [List.cons_append, List.nil_append, comma]
    rw [if_neg (by simp only [List.length_cons]; omega), if_neg (by simp only [List.length_cons]; omega), he]
    rfl

/-! ## Cells -/

theorem plain_newline : ¬ Plain '\n' := fun h => h.1 rfl
theorem plain_nul : ¬ Plain nul := fun h => h.2 rfl

instance (c : Char) : Decidable (Plain c) := inferInstanceAs (Decidable (_ ∧ _))

theorem cells_exist (text : List Char) : ∃ cs, Cells text cs := by
  induction hn : text.length using Nat.strong_induction_on generalizing text with
  | _ n ih =>
    have hspan := List.takeWhile_append_dropWhile (p := fun c => decide (Plain c)) (l := text)
    have ht : ∀ c ∈ text.takeWhile (fun c => decide (Plain c)), Plain c := by
      intro c hc
      have := List.all_takeWhile (l := text) (p := fun c => decide (Plain c))
      rw [List.all_eq_true] at this
      simpa using this c hc
    generalize text.takeWhile (fun c => decide (Plain c)) = t at *
    have hd : ∀ c r, text.dropWhile (fun c => decide (Plain c)) = c :: r → ¬ Plain c := by
      intro c r h hp
      have := List.head?_dropWhile_not (fun c => decide (Plain c)) text
      rw [h] at this
      simp [hp] at this
    generalize text.dropWhile (fun c => decide (Plain c)) = r at *
    subst hspan
    match r with
    | [] =>
      rw [List.append_nil]
      by_cases h0 : t = []
      · subst h0; exact ⟨_, .nil⟩
      · exact ⟨_, .last h0 ht⟩
    | c :: r =>
      have hc := hd c r rfl
      simp only [List.length_append, List.length_cons] at hn
      by_cases hcn : c = '\n'
      · subst hcn
        obtain ⟨cs, h⟩ := ih r.length (by omega) r rfl
        exact ⟨_, .newline ht h⟩
      · have : c = nul := by
          by_contra h
          exact hc ⟨hcn, h⟩
        subst this
        match r with
        | [] => exact ⟨_, .lastNul ht⟩
        | p :: r =>
          obtain ⟨cs, h⟩ := ih r.length (by simp only [List.length_cons] at hn; omega) r rfl
          exact ⟨_, .rep ht h⟩

/-- The first cell of a text: its characters, its padding, and what is left after it. -/
inductive First : List Char → List Char → Char → List Char → Prop where
  | nil : First [] [] ' ' []
  | last {t} (hne : t ≠ []) (ht : ∀ c ∈ t, Plain c) : First t t ' ' []
  | lastNul {t} (ht : ∀ c ∈ t, Plain c) : First (t ++ [nul]) t ' ' []
  | newline {t rest} (ht : ∀ c ∈ t, Plain c) : First (t ++ '\n' :: rest) t ' ' rest
  | rep {t p rest} (ht : ∀ c ∈ t, Plain c) : First (t ++ nul :: p :: rest) t p rest

theorem Cells.first {r : List Char} {cs : List (List Char × Char)} (h : Cells r cs) :
    ∃ r', First r (cs.headD ([], ' ')).1 (cs.headD ([], ' ')).2 r' ∧ Cells r' cs.tail := by
  cases h with
  | nil => exact ⟨_, .nil, .nil⟩
  | last hne ht => exact ⟨_, .last hne ht, .nil⟩
  | lastNul ht => exact ⟨_, .lastNul ht, .nil⟩
  | newline ht h => exact ⟨_, .newline ht, h⟩
  | rep ht h => exact ⟨_, .rep ht, h⟩

/-- What the end of a cell looks like. -/
theorem First.split {r t : List Char} {q : Char} {r' : List Char} (h : First r t q r') :
    ∃ e, r = t ++ e ∧ (∀ c ∈ t, Plain c) ∧ (∀ c ∈ e.head?, ¬ Plain c) ∧
      ((e = [] ∧ q = ' ' ∧ r' = []) ∨ (e = [nul] ∧ q = ' ' ∧ r' = []) ∨
        (e = '\n' :: r' ∧ q = ' ') ∨ e = nul :: q :: r') := by
  cases h with
  | nil => exact ⟨[], rfl, by simp, by simp, .inl ⟨rfl, rfl, rfl⟩⟩
  | last hne ht => exact ⟨[], by simp, ht, by simp, .inl ⟨rfl, rfl, rfl⟩⟩
  | lastNul ht => exact ⟨_, rfl, ht, by simpa using plain_nul, .inr (.inl ⟨rfl, rfl, rfl⟩)⟩
  | newline ht => exact ⟨_, rfl, ht, by simpa using plain_newline, .inr (.inr (.inl ⟨rfl, rfl⟩))⟩
  | rep ht => exact ⟨_, rfl, ht, by simpa using plain_nul, .inr (.inr (.inr rfl))⟩

theorem First.length_lt {r t : List Char} {q : Char} {r' : List Char} (h : First r t q r') (hr : r ≠ []) :
    r'.length < r.length := by
  cases h with
  | nil => exact absurd rfl hr
  | last hne ht => exact List.length_pos_iff.mpr hne
  | lastNul ht => simp
  | newline ht => simp only [List.length_append, List.length_cons]; omega
  | rep ht => simp only [List.length_append, List.length_cons]; omega

theorem split_unique {t t' e e' : List Char} (h : t ++ e = t' ++ e') (ht : ∀ c ∈ t, Plain c)
    (ht' : ∀ c ∈ t', Plain c) (he : ∀ c ∈ e.head?, ¬ Plain c) (he' : ∀ c ∈ e'.head?, ¬ Plain c) :
    t = t' ∧ e = e' := by
  induction t generalizing t' with
  | nil =>
    cases t' with
    | nil => exact ⟨rfl, h⟩
    | cons c t' =>
      simp only [List.nil_append] at h
      subst h
      exact absurd (ht' c (by simp)) (he c (by simp))
  | cons c t ih =>
    cases t' with
    | nil =>
      simp only [List.nil_append] at h
      subst h
      exact absurd (ht c (by simp)) (he' c (by simp))
    | cons c' t' =>
      simp only [List.cons_append, List.cons.injEq] at h
      obtain ⟨rfl, h⟩ := h
      have := ih h (fun c hc => ht c (by simp [hc])) (fun c hc => ht' c (by simp [hc]))
      exact ⟨by rw [this.1], this.2⟩

theorem nul_ne_newline : nul ≠ '\n' := by decide

theorem First.unique {r t t' : List Char} {q q' : Char} {r' r'' : List Char} (h : First r t q r')
    (h' : First r t' q' r'') : t = t' ∧ q = q' ∧ r' = r'' := by
  obtain ⟨e, he, ht, hh, hc⟩ := h.split
  obtain ⟨e', he', ht', hh', hc'⟩ := h'.split
  obtain ⟨rfl, rfl⟩ := split_unique (he.symm.trans he') ht ht' hh hh'
  have hnn := nul_ne_newline
  refine ⟨rfl, ?_⟩
  rcases hc with ⟨rfl, rfl, rfl⟩ | ⟨rfl, rfl, rfl⟩ | ⟨rfl, rfl⟩ | rfl <;>
  rcases hc' with ⟨h1, rfl, rfl⟩ | ⟨h1, rfl, rfl⟩ | ⟨h1, rfl⟩ | h1 <;>
  simp only [List.cons.injEq, hnn, Ne.symm hnn, true_and, false_and, List.nil_eq,
    List.cons_ne_nil, and_false] at h1 <;>
  simp [h1]

theorem Cells.unique {text : List Char} {cs cs' : List (List Char × Char)} (h : Cells text cs)
    (h' : Cells text cs') : cs = cs' := by
  induction hn : text.length using Nat.strong_induction_on generalizing text cs cs' with
  | _ n ih =>
    by_cases h0 : text = []
    · subst h0
      have aux : ∀ cs, Cells [] cs → cs = [] := by
        intro cs h
        generalize hx : ([] : List Char) = x at h
        cases h with
        | nil => rfl
        | last hne _ => exact absurd hx.symm hne
        | lastNul _ => simp at hx
        | newline _ _ => simp at hx
        | rep _ _ => simp at hx
      rw [aux _ h, aux _ h']
    · obtain ⟨r, hf, hr⟩ := h.first
      obtain ⟨r', hf', hr'⟩ := h'.first
      obtain ⟨e1, e2, rfl⟩ := hf.unique hf'
      have := ih r.length (by have := hf.length_lt h0; omega) hr hr' rfl
      have aux : ∀ cs, Cells text cs → ∃ c l, cs = c :: l := by
        intro cs h
        cases h with
        | nil => exact absurd rfl h0
        | last _ _ => exact ⟨_, _, rfl⟩
        | lastNul _ => exact ⟨_, _, rfl⟩
        | newline _ _ => exact ⟨_, _, rfl⟩
        | rep _ _ => exact ⟨_, _, rfl⟩
      obtain ⟨c, l, rfl⟩ := aux _ h
      obtain ⟨c', l', rfl⟩ := aux _ h'
      simp only [List.headD_cons, List.tail_cons] at *
      rw [this, Prod.ext e1 e2]

theorem cells_nil_iff {text : List Char} {cs : List (List Char × Char)} (h : Cells text cs) :
    cs = [] ↔ text = [] := by
  constructor
  · rintro rfl
    generalize hx : ([] : List (List Char × Char)) = x at h
    cases h with
    | nil => rfl
    | last _ _ => cases hx
    | lastNul _ => cases hx
    | newline _ _ => cases hx
    | rep _ _ => cases hx
  · rintro rfl
    exact h.unique .nil

/-! ## The loops on one column -/

theorem getElem?_at (p r : List Char) (i : ℕ) : (p ++ r)[p.length + i]? = r[i]? := by
  rw [List.getElem?_append_right (by omega)]
  congr 1; omega

theorem getElem?_at0 (p r : List Char) : (p ++ r)[p.length]? = r.head? := by
  have := getElem?_at p r 0
  rw [Nat.add_zero] at this
  rw [this, List.head?_eq_getElem?]

theorem lineEnd_eq (p t e : List Char) (ht : ∀ c ∈ t, Plain c) (he : ∀ c ∈ e.head?, ¬ Plain c) :
    lineEnd (p ++ (t ++ e)) p.length = p.length + t.length := by
  induction t generalizing p with
  | nil =>
    rw [lineEnd]
    have hg := getElem?_at0 p ([] ++ e)
    split
    · rfl
    · rename_i c h
      rw [hg] at h
      rw [if_neg (show ¬ (c ≠ '\n' ∧ c ≠ nul) from he c h)]
      rfl
  | cons c t ih =>
    rw [lineEnd]
    have hg := getElem?_at0 p (c :: t ++ e)
    split
    · rename_i h; rw [hg] at h; cases h
    · rename_i c' h
      rw [hg] at h
      cases h
      rw [if_pos (show c ≠ '\n' ∧ c ≠ nul from ht c (by simp))]
      have := ih (p ++ [c]) (fun c hc => ht c (by simp [hc]))
      simp only [List.append_assoc, List.singleton_append, List.length_append, List.length_singleton] at this
      simp only [List.cons_append, List.length_cons]
      rw [this]; omega

theorem getLineWidth_eq (p t e : List Char) (ht : ∀ c ∈ t, Plain c) (he : ∀ c ∈ e.head?, ¬ Plain c) :
    getLineWidth (p ++ (t ++ e)) p.length = t.length := by
  rw [getLineWidth, lineEnd_eq p t e ht he]; omega

theorem maxOf_cons (a : ℕ) (l : List ℕ) : maxOf (a :: l) = max a (maxOf l) := rfl

theorem widthLoop_eq {r : List Char} {cs : List (List Char × Char)} (h : Cells r cs) (p : List Char)
    (m : ℕ) : widthLoop (p ++ r) m p.length = some (max m (colWidth cs)) := by
  have hmax : ∀ a b : ℕ, (if a > b then a else b) = max b a := by intro a b; split <;> omega
  induction h generalizing p m with
  | nil => rw [widthLoop, if_neg (by simp)]; simp [colWidth, maxOf]
  | @last t hne ht =>
    have hw := getLineWidth_eq p t [] ht (by simp)
    rw [List.append_nil] at hw
    have := List.length_pos_iff.mpr hne
    rw [widthLoop, if_pos (by rw [List.length_append]; omega)]
    simp only [hw]
    rw [if_pos (by rw [List.length_append]), hmax]
    simp [colWidth, maxOf]
  | @lastNul t ht =>
    have hw := getLineWidth_eq p t [nul] ht (by simpa using plain_nul)
    rw [widthLoop, if_pos (by simp)]
    simp only [hw]
    rw [if_neg (by simp)]
    have hg : (p ++ (t ++ [nul]))[p.length + t.length]? = some nul := by
      rw [getElem?_at]; simp
    simp only [hg]
    rw [if_pos trivial, if_pos (by simp; omega), hmax]
    simp [colWidth, maxOf]
  | @newline t rest cs ht h ih =>
    have hw := getLineWidth_eq p t ('\n' :: rest) ht (by simpa using plain_newline)
    rw [widthLoop, if_pos (by simp)]
    simp only [hw]
    rw [if_neg (by simp)]
    have hg : (p ++ (t ++ '\n' :: rest))[p.length + t.length]? = some '\n' := by
      rw [getElem?_at]; simp
    simp only [hg]
    rw [if_neg (Ne.symm nul_ne_newline), if_pos trivial]
    have := ih (p ++ t ++ ['\n']) (max m t.length)
    simp only [List.append_assoc, List.length_append, List.length_singleton, List.singleton_append] at this
    rw [hmax, Nat.add_assoc, this]
    simp only [colWidth, List.map_cons, maxOf_cons]
    rw [Nat.max_assoc]
  | @rep t q rest cs ht h ih =>
    have hw := getLineWidth_eq p t (nul :: q :: rest) ht (by simpa using plain_nul)
    rw [widthLoop, if_pos (by simp)]
    simp only [hw]
    rw [if_neg (by simp)]
    have hg : (p ++ (t ++ nul :: q :: rest))[p.length + t.length]? = some nul := by
      rw [getElem?_at]; simp
    simp only [hg]
    rw [if_pos trivial, if_neg (by simp; omega)]
    have := ih (p ++ t ++ [nul, q]) (max m t.length)
    simp only [List.append_assoc, List.length_append, List.length_cons, List.length_nil, List.cons_append,
      List.nil_append] at this
    rw [hmax, show p.length + t.length + 1 + 1 = p.length + (t.length + (0 + 1 + 1)) from by omega, this]
    simp only [colWidth, List.map_cons, maxOf_cons]
    rw [Nat.max_assoc]

theorem padChar_eq {p r t : List Char} {q : Char} {r' : List Char} (h : First r t q r') :
    padChar (p ++ r) p.length t.length = q := by
  obtain ⟨e, rfl, ht, he, hc⟩ := h.split
  have hg : (p ++ (t ++ e))[p.length + t.length]? = e.head? := by
    rw [getElem?_at, getElem?_at0]
  have hg' : (p ++ (t ++ e))[p.length + t.length + 1]? = e[1]? := by
    rw [Nat.add_assoc, getElem?_at, getElem?_at]
  unfold padChar
  rw [hg, hg']
  rcases hc with ⟨rfl, rfl, rfl⟩ | ⟨rfl, rfl, rfl⟩ | ⟨rfl, rfl⟩ | rfl
  · rfl
  · simp
  · simp [Ne.symm nul_ne_newline]
  · simp

theorem cellLoop_eq {p r t : List Char} {q : Char} {r' : List Char} (h : First r t q r') :
    ∃ p', p ++ r = p' ++ r' ∧ cellLoop (p ++ r) p.length q = some (t, p'.length) := by
  obtain ⟨e, rfl, ht, he, hc⟩ := h.split
  clear h
  have key : ∀ (t p : List Char), (∀ c ∈ t, Plain c) →
      ∃ p', p ++ (t ++ e) = p' ++ r' ∧ cellLoop (p ++ (t ++ e)) p.length q = some (t, p'.length) := by
    intro t
    induction t with
    | nil =>
      intro p _
      have hg := getElem?_at0 p ([] ++ e)
      have hg' : (p ++ ([] ++ e))[p.length + 1]? = e[1]? := getElem?_at p _ 1
      rw [cellLoop]
      rcases hc with ⟨rfl, rfl, rfl⟩ | ⟨rfl, rfl, rfl⟩ | ⟨rfl, rfl⟩ | rfl
      · refine ⟨p, rfl, ?_⟩
        split
        · rfl
        · rename_i c h; rw [hg] at h; cases h
      · refine ⟨p ++ [nul], by simp, ?_⟩
        split
        · rename_i h; rw [hg] at h; cases h
        · rename_i c h
          rw [hg] at h; cases h
          rw [if_neg nul_ne_newline, if_pos rfl, hg']
          simp
      · refine ⟨p ++ ['\n'], by simp, ?_⟩
        split
        · rename_i h; rw [hg] at h; cases h
        · rename_i c h
          rw [hg] at h; cases h
          rw [if_pos rfl]
          simp
      · refine ⟨p ++ [nul, q], by simp, ?_⟩
        split
        · rename_i h; rw [hg] at h; cases h
        · rename_i c h
          rw [hg] at h; cases h
          rw [if_neg nul_ne_newline, if_pos rfl, hg']
          simp
    | cons c t ih =>
      intro p ht
      have hg := getElem?_at0 p (c :: t ++ e)
      obtain ⟨p', h1, h2⟩ := ih (p ++ [c]) (fun c hc => ht c (by simp [hc]))
      simp only [List.append_assoc, List.singleton_append, List.length_append, List.length_singleton] at h1 h2
      refine ⟨p', h1, ?_⟩
      have hp := ht c (by simp)
      rw [cellLoop]
      split
      · rename_i h; rw [hg] at h; cases h
      · rename_i c' h
        rw [hg] at h; cases h
        rw [if_neg hp.1, if_neg hp.2]
        simp only [List.cons_append]
        rw [h2]
  exact key t p ht

/-! ## Rows -/

/-- A column while rows are printed: the column, its width, the cells that are left. -/
abbrev Todo := (Col × ℕ) × List (List Char × Char)

/-- What is printed of a column for the `r`-th of the rows that are left. -/
def colOut (r : ℕ) (e : Todo) : List Char :=
  e.1.1.pre ++ padded e.1.1.flushLeft e.1.2 (e.2.getD r ([], ' ')) ++ e.1.1.suf

/-- The position of a column stands before the cells that are left. -/
def Inv (c : Cur) (e : Todo) : Prop :=
  c.col = e.1.1 ∧ c.width = e.1.2 ∧ (∀ x ∈ e.2, x.1.length ≤ e.1.2) ∧
    ∃ p r, c.col.text = p ++ r ∧ c.pos = p.length ∧ Cells r e.2

theorem getD_zero {α : Type} (l : List α) (d : α) : l.getD 0 d = l.headD d := by cases l <;> rfl

theorem printCell_eq {c : Cur} {e : Todo} (h : Inv c e) :
    ∃ c', printCell c = some (colOut 0 e, c') ∧ Inv c' (e.1, e.2.tail) ∧
      c'.col.text.length - c'.pos ≤ c.col.text.length - c.pos ∧
      (c.pos < c.col.text.length → c'.col.text.length - c'.pos < c.col.text.length - c.pos) := by
  obtain ⟨hcol, hw, hle, p, r, htext, hpos, hcells⟩ := h
  obtain ⟨r', hf, hr'⟩ := hcells.first
  obtain ⟨p', hp', hloop⟩ := cellLoop_eq (p := p) hf
  have hpad := padChar_eq (p := p) hf
  have hwid : getLineWidth c.col.text c.pos = (e.2.headD ([], ' ')).1.length := by
    obtain ⟨ee, hr, ht, he, _⟩ := hf.split
    rw [htext, hpos]
    conv_lhs => rw [hr]
    exact getLineWidth_eq p _ ee ht he
  have hlen : (e.2.headD ([], ' ')).1.length ≤ c.width := by
    rw [hw]
    cases h2 : e.2 with
    | nil => simp
    | cons x l => exact hle x (by rw [h2]; simp)
  refine ⟨{ c with pos := p'.length }, ?_, ⟨hcol, hw, fun x hx => hle x (List.mem_of_mem_tail hx), p', r',
    by rw [← hp']; exact htext, rfl, hr'⟩, ?_, ?_⟩
  · unfold printCell
    simp only
    rw [hwid, htext, hpos, hpad, hloop, printPad, if_pos hlen]
    simp only [colOut, padded, getD_zero, hw, hcol]
  · have h1 := congrArg List.length hp'
    simp only [List.length_append] at h1
    by_cases h0 : r = []
    · subst h0
      have : r' = [] := by
        cases hf.split with
        | intro ee h =>
          obtain ⟨h1, _, _, h4⟩ := h
          have : ee = [] := (List.append_eq_nil_iff.mp h1.symm).2
          subst this
          rcases h4 with h | h | h | h
          · exact h.2.2
          · exact h.2.2
          · cases h.1
          · cases h
      subst this
      simp only [htext, hpos, List.length_append]; omega
    · have := hf.length_lt h0
      simp only [htext, hpos, List.length_append]; omega
  · intro hlt
    have h1 := congrArg List.length hp'
    simp only [List.length_append] at h1
    have h0 : r ≠ [] := by
      rintro rfl
      simp [htext, hpos] at hlt
    have := hf.length_lt h0
    simp only [htext, hpos, List.length_append]; omega

theorem printCells_eq {cs : List Cur} {es : List Todo} (h : List.Forall₂ Inv cs es) :
    ∃ cs', printCells cs = some (es.flatMap (colOut 0), cs') ∧
      List.Forall₂ Inv cs' (es.map (fun e => (e.1, e.2.tail))) ∧ left cs' ≤ left cs ∧
      (done cs = false → left cs' < left cs) := by
  induction h with
  | nil => exact ⟨[], rfl, .nil, le_refl _, by simp [done]⟩
  | @cons c e cs es hc hcs ih =>
    obtain ⟨cs', h1, h2, h3, h4⟩ := ih
    obtain ⟨c', g1, g2, g3, g4⟩ := printCell_eq hc
    refine ⟨c' :: cs', by simp [printCells, h1, g1], .cons g2 h2, ?_, ?_⟩
    · simp only [left, List.map_cons, List.sum_cons] at *; omega
    · intro hd
      simp only [done, List.all_cons, Bool.and_eq_false_iff, Bool.not_eq_false', decide_eq_true_eq] at hd h4
      simp only [left, List.map_cons, List.sum_cons] at *
      rcases hd with hd | hd
      · have := g4 hd; omega
      · have := h4 hd; omega

theorem inv_done {c : Cur} {e : Todo} (h : Inv c e) : ¬ c.pos < c.col.text.length ↔ e.2 = [] := by
  obtain ⟨_, _, _, p, r, h1, h2, h3⟩ := h
  rw [cells_nil_iff h3, h1, h2, List.length_append, ← List.length_eq_zero_iff]
  omega

theorem done_iff {cs : List Cur} {es : List Todo} (h : List.Forall₂ Inv cs es) :
    done cs = true ↔ maxOf (es.map (fun e => e.2.length)) = 0 := by
  induction h with
  | nil => simp [done, maxOf]
  | cons hc hcs ih =>
    have := inv_done hc
    simp only [done, List.all_cons, Bool.and_eq_true, Bool.not_eq_true', decide_eq_false_iff_not,
      List.map_cons, maxOf_cons] at ih ⊢
    rw [ih, this, ← List.length_eq_zero_iff]
    omega

theorem maxOf_tail (es : List Todo) :
    maxOf ((es.map (fun e => (e.1, e.2.tail))).map (fun e => e.2.length)) =
      maxOf (es.map (fun e => e.2.length)) - 1 := by
  induction es with
  | nil => rfl
  | cons e es ih => simp only [List.map_cons, maxOf_cons, ih, List.length_tail]; omega

theorem printRows_eq (pre : List Char) (n : ℕ) {cs : List Cur} {es : List Todo}
    (h : List.Forall₂ Inv cs es) (hn : maxOf (es.map (fun e => e.2.length)) = n) :
    printRows pre cs =
      some ((List.range n).flatMap (fun r => pre ++ es.flatMap (colOut r) ++ ['\n'])) := by
  induction n generalizing cs es with
  | zero =>
    rw [printRows, if_pos ((done_iff h).mpr hn)]
    rfl
  | succ n ih =>
    have hd : done cs = false := by
      rw [← Bool.not_eq_true]
      intro h0
      rw [(done_iff h).mp h0] at hn
      omega
    obtain ⟨cs', h1, h2, _, h4⟩ := printCells_eq h
    have := ih h2 (by rw [maxOf_tail]; omega)
    rw [printRows, if_neg (by simp [hd])]
    simp only [h1]
    rw [dif_pos (h4 hd), this]
    simp only [Option.some.injEq]
    rw [List.range_succ_eq_map, List.flatMap_cons, List.flatMap_map]
    congr 1
    apply List.flatMap_congr
    intro r _
    rw [List.flatMap_map]
    congr 2
    apply List.flatMap_congr
    intro e _
    simp only [colOut]
    cases e.2 <;> rfl

theorem le_maxOf {l : List ℕ} {a : ℕ} (h : a ∈ l) : a ≤ maxOf l := by
  induction l with
  | nil => cases h
  | cons b l ih =>
    rw [maxOf_cons]
    rcases List.mem_cons.mp h with rfl | h
    · omega
    · have := ih h; omega

theorem measure_eq (t : Table) (h : ∀ c ∈ t, Cells c.1.text c.2) :
    measure (t.map Prod.fst) = some (t.map (fun c => ⟨c.1, colWidth c.2, 0⟩)) := by
  induction t with
  | nil => rfl
  | cons c t ih =>
    have hw := widthLoop_eq (h c (by simp)) [] 0
    simp only [List.nil_append, List.length_nil, Nat.zero_max] at hw
    simp only [List.map_cons, measure, hw, ih (fun c hc => h c (by simp [hc]))]

theorem inv_start (t : Table) (h : ∀ c ∈ t, Cells c.1.text c.2) :
    List.Forall₂ Inv (t.map (fun c => ⟨c.1, colWidth c.2, 0⟩))
      (t.map (fun c => ((c.1, colWidth c.2), c.2))) := by
  induction t with
  | nil => exact .nil
  | cons c t ih =>
    refine .cons ⟨rfl, rfl, ?_, [], c.1.text, rfl, rfl, h c (by simp)⟩ (ih (fun c hc => h c (by simp [hc])))
    intro x hx
    exact le_maxOf (List.mem_map.mpr ⟨x, hx, rfl⟩)

theorem table_exists (cols : List Col) :
    ∃ t : Table, cols = t.map Prod.fst ∧ ∀ c ∈ t, Cells c.1.text c.2 := by
  induction cols with
  | nil => exact ⟨[], rfl, by simp⟩
  | cons c cols ih =>
    obtain ⟨t, rfl, h⟩ := ih
    obtain ⟨cs, hc⟩ := cells_exist c.text
    refine ⟨(c, cs) :: t, rfl, ?_⟩
    intro x hx
    rcases List.mem_cons.mp hx with rfl | hx
    · exact hc
    · exact h x hx

theorem padded_length {f : Bool} {w : ℕ} {c : List Char × Char} (h : c.1.length ≤ w) :
    (padded f w c).length = w := by
  unfold padded
  cases f <;> simp <;> omega

/-! ## Calls -/

theorem repeatLoop_eq (s : State) (c : Char) (k : ℕ) (hk : k ≤ s.cols.length) :
    repeatLoop s c (s.cols.length - k) = some ⟨(s.cols.take (s.cols.length - k) ++
        (s.cols.drop (s.cols.length - k)).map (fun x => { x with text := x.text ++ [nul, c] })), s.pre⟩ := by
  induction k generalizing s with
  | zero =>
    rw [repeatLoop, if_neg (by simp [getColumnCount])]
    simp
  | succ k ih =>
    rw [repeatLoop, if_pos (by simp only [getColumnCount]; omega)]
    have hlt : s.cols.length - (k + 1) < s.cols.length := by omega
    have hx : s.cols[s.cols.length - (k + 1)]? = some s.cols[s.cols.length - (k + 1)] :=
      List.getElem?_eq_getElem hlt
    have hr : repeatToEndOfLine s c (s.cols.length - (k + 1)) = some { s with
        cols := s.cols.set (s.cols.length - (k + 1)) { s.cols[s.cols.length - (k + 1)] with
          text := s.cols[s.cols.length - (k + 1)].text ++ [nul, c] } } := by
      unfold repeatToEndOfLine write
      simp only [hx]
    split
    · rename_i h; rw [hr] at h; cases h
    · rename_i s' h
      rw [hr] at h
      cases h
      rw [dif_pos (by simp [getColumnCount])]
      have h1 := ih { s with
        cols := s.cols.set (s.cols.length - (k + 1)) { s.cols[s.cols.length - (k + 1)] with
          text := s.cols[s.cols.length - (k + 1)].text ++ [nul, c] } } (by simp only [List.length_set]; omega)
      simp only [List.length_set] at h1
      have e : s.cols.length - (k + 1) + 1 = s.cols.length - k := by omega
      rw [e, h1]
      simp only [Option.some.injEq, State.mk.injEq, and_true]
      generalize hi : s.cols.length - (k + 1) = i at *
      rw [← e]
      apply List.ext_getElem?
      intro j
      by_cases hj : j < i
      · rw [List.getElem?_append_left (by simp; omega), List.getElem?_append_left (by simp; omega),
          List.getElem?_take, List.getElem?_take, if_pos (by omega), if_pos hj, List.getElem?_set_ne (by omega)]
      · by_cases hj' : j = i
        · subst hj'
          rw [List.getElem?_append_left (by simp; omega), List.getElem?_append_right (by simp),
            List.getElem?_take, if_pos (by omega), List.getElem?_set_self (by omega), List.getElem?_map,
            List.getElem?_drop]
          simp only [List.length_take]
          rw [show j + (j - min j s.cols.length) = j from by omega, hx]
          rfl
        · rw [List.getElem?_append_right (by simp; omega), List.getElem?_append_right (by simp; omega),
            List.getElem?_map, List.getElem?_map, List.getElem?_drop, List.getElem?_drop]
          simp only [List.length_take, List.length_set]
          rw [List.getElem?_set_ne (by omega)]
          congr 2
          omega

theorem repeatAll_eq (s : State) (c : Char) (hc : c ≠ '\n') :
    repeatAll s c = some { s with cols := s.cols.map (fun x => { x with text := x.text ++ [nul, c] }) } := by
  unfold repeatAll
  rw [if_neg hc]
  have := repeatLoop_eq s c s.cols.length (le_refl _)
  rw [Nat.sub_self] at this
  rw [this]
  simp

/-- One call. -/
theorem step_spec (s : State) (op : Op) (h : op.Ok s.cols.length) :
    ∃ s', step s op = some s' ∧ s'.cols.length = s.cols.length + op.adds.length ∧
      s'.cols.map Col.look = s.cols.map Col.look ++ op.adds ∧
      s'.pre = linePrefix s.pre [op] ∧
      ∀ i, (s'.cols[i]?.map Col.text).getD [] =
        (s.cols[i]?.map Col.text).getD [] ++ (if i < s.cols.length then op.writes i else []) := by
  have hw : ∀ col str, col < s.cols.length → ∃ s', write s col str = some s' ∧
      s'.cols.length = s.cols.length ∧ s'.cols.map Col.look = s.cols.map Col.look ∧ s'.pre = s.pre ∧
      ∀ i, (s'.cols[i]?.map Col.text).getD [] =
        (s.cols[i]?.map Col.text).getD [] ++ (if i < s.cols.length then if col = i then str else [] else []) := by
    intro col str hc
    have hx : s.cols[col]? = some s.cols[col] := List.getElem?_eq_getElem hc
    refine ⟨{ s with cols := s.cols.set col { s.cols[col] with text := s.cols[col].text ++ str } },
      by simp only [write, hx], by simp, ?_, rfl, ?_⟩
    · apply List.ext_getElem?
      intro j
      simp only [List.getElem?_map]
      by_cases hj : col = j
      · subst hj
        rw [List.getElem?_set_self hc, hx]
        rfl
      · rw [List.getElem?_set_ne hj]
    · intro i
      simp only
      by_cases hj : col = i
      · subst hj
        rw [List.getElem?_set_self hc, hx, if_pos hc, if_pos rfl]
        rfl
      · rw [List.getElem?_set_ne hj]
        simp [hj]
  cases op with
  | setPrefix p => exact ⟨_, rfl, rfl, by simp [setPrefix, Op.adds], rfl, by simp [setPrefix, Op.writes]⟩
  | addColumn f p q =>
    refine ⟨_, rfl, by simp [addColumn, Op.adds], by simp [addColumn, Op.adds, Col.look], rfl, ?_⟩
    intro i
    simp only [addColumn, Op.writes, ite_self, List.append_nil]
    by_cases hi : i < s.cols.length
    · rw [List.getElem?_append_left hi]
    · rw [List.getElem?_append_right (by omega), List.getElem?_eq_none (by omega : s.cols.length ≤ i)]
      by_cases h0 : i - s.cols.length = 0
      · rw [h0]; rfl
      · rw [List.getElem?_eq_none (by simp; omega)]
  | write col str =>
    obtain ⟨s', h1, h2, h3, h4, h5⟩ := hw col str h
    exact ⟨s', h1, h2, by simpa [Op.adds] using h3, h4, h5⟩
  | repeatOne c col =>
    obtain ⟨s', h1, h2, h3, h4, h5⟩ := hw col [nul, c] h
    exact ⟨s', h1, h2, by simpa [Op.adds] using h3, h4, h5⟩
  | repeatAll c =>
    refine ⟨_, repeatAll_eq s c h, by simp [Op.adds], ?_, rfl, ?_⟩
    · simp only [List.map_map, Op.adds, List.append_nil]; rfl
    · intro i
      simp only [List.getElem?_map, Op.writes]
      by_cases hi : i < s.cols.length
      · rw [if_pos hi, List.getElem?_eq_getElem hi]; rfl
      · rw [if_neg hi, List.getElem?_eq_none (by omega : s.cols.length ≤ i)]; rfl

theorem step_none (s : State) (op : Op) (h : ¬ op.Ok s.cols.length) : step s op = none := by
  have hw : ∀ col str, ¬ col < s.cols.length → write s col str = none := by
    intro col str hc
    simp only [write, List.getElem?_eq_none (by omega : s.cols.length ≤ col)]
  cases op with
  | setPrefix p => exact absurd trivial h
  | addColumn f p q => exact absurd trivial h
  | write col str => exact hw _ _ h
  | repeatOne c col => exact hw _ _ h
  | repeatAll c =>
    simp only [Op.Ok, ne_eq, not_not] at h
    simp only [step, repeatAll, if_pos h]

end Verif.ColumnPrinter
