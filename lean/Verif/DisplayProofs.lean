import Verif.DisplaySpec
import Mathlib.Data.List.Chain
import Mathlib.Data.List.TakeDrop

namespace Verif.Display

open Verif.Text

theorem isspace_plain {c : Char} (h : c.toNat < 128 ∨ c.toNat = 255) : isspace c = some (isSpace c) := by
  unfold isspace
  rcases h with h | h
  · rw [if_pos h]
  · rw [if_neg (by omega), if_pos h]
    congr 1
    unfold isSpace
    have : c ≠ ' ' := by rintro rfl; revert h; decide
    simp [this, h]

theorem isSpace_newline : isSpace '\n' = true := by decide

theorem cstr_eq_cut (s : Str) : cstr s = cut s := by
  induction s with
  | nil => rfl
  | cons c s ih =>
    unfold cstr at *
    rw [List.takeWhile_cons, cut]
    by_cases h : c = nul
    · simp [h]
    · simp [h, ih]

theorem cut_eq {s : Str} (h : nul ∉ s) : cut s = s := by
  induction s with
  | nil => rfl
  | cons c s ih =>
    rw [List.mem_cons, not_or] at h
    rw [cut, if_neg (fun e => h.1 e.symm), ih h.2]

theorem cut_length (s : Str) : (cut s).length ≤ s.length := by
  induction s with
  | nil => simp [cut]
  | cons c s ih =>
    rw [cut]
    split
    · simp
    · simpa using ih

theorem Plain.append_left {a b : Str} (h : Plain (a ++ b)) : Plain a := fun c hc => h c (by simp [hc])
theorem Plain.append_right {a b : Str} (h : Plain (a ++ b)) : Plain b := fun c hc => h c (by simp [hc])

/-! ## Reading -/

/-- What follows white space. -/
def AfterGap (r : Str) : Prop := ∀ c, r.head? = some c → c = '\n' ∨ isSpace c = false

/-- What follows a word. -/
def AfterWord (r : Str) : Prop := ∀ c, r.head? = some c → isSpace c = true

theorem readIndentation_eq (g r : Str) (hg : IsGap g) (hr : AfterGap r) (hp : Plain (g ++ r)) :
    readIndentation (g ++ r) = some (g, r) := by
  induction g with
  | nil =>
    cases r with
    | nil => rfl
    | cons c r =>
      rw [List.nil_append, readIndentation]
      by_cases hc : c = '\n'
      · rw [if_pos hc]
      · rw [if_neg hc, isspace_plain (hp c (by simp)), (hr c rfl).resolve_left hc]
  | cons c g ih =>
    obtain ⟨h1, h2⟩ := hg c (by simp)
    rw [List.cons_append, readIndentation, if_neg h2, isspace_plain (hp c (by simp)), h1]
    simp only
    rw [ih (fun x hx => hg x (by simp [hx])) (fun x hx => hp x (by
      rw [List.cons_append]; exact List.mem_cons_of_mem _ hx))]

theorem readWord_eq (w r : Str) (hw : ∀ c ∈ w, isSpace c = false) (hr : AfterWord r) (hp : Plain (w ++ r)) :
    readWord (w ++ r) = some (w, r) := by
  induction w with
  | nil =>
    cases r with
    | nil => rfl
    | cons c r =>
      rw [List.nil_append, readWord]
      by_cases hc : c = '\n'
      · rw [if_pos hc]
      · rw [if_neg hc, isspace_plain (hp c (by simp)), hr c rfl]
  | cons c w ih =>
    have h1 := hw c (by simp)
    have h2 : c ≠ '\n' := by rintro rfl; rw [isSpace_newline] at h1; cases h1
    rw [List.cons_append, readWord, if_neg h2, isspace_plain (hp c (by simp)), h1]
    simp only
    rw [ih (fun x hx => hw x (by simp [hx])) (fun x hx => hp x (by
      rw [List.cons_append]; exact List.mem_cons_of_mem _ hx))]

theorem lineLoop_gap (pre ind g r gap : Str) (o : Out) (hg : IsGap g) (hp : Plain (g ++ r)) :
    lineLoop pre ind (g ++ r) gap o = lineLoop pre ind r (gap ++ g) o := by
  induction g generalizing gap with
  | nil => simp
  | cons c g ih =>
    obtain ⟨h1, h2⟩ := hg c (by simp)
    rw [List.cons_append, lineLoop, if_neg h2, isspace_plain (hp c (by simp)), h1]
    simp only
    rw [ih _ (fun x hx => hg x (by simp [hx])) (fun x hx => hp x (by
      rw [List.cons_append]; exact List.mem_cons_of_mem _ hx))]
    simp

theorem lineLoop_word (pre ind w r gap : Str) (o : Out) (hw : IsWord w) (hr : AfterWord r) (hp : Plain (w ++ r)) :
    lineLoop pre ind (w ++ r) gap o = lineLoop pre ind r [] (printWord pre ind gap w o) := by
  obtain ⟨hne, hw⟩ := hw
  cases w with
  | nil => exact absurd rfl hne
  | cons c w =>
    have h1 := hw c (by simp)
    have h2 : c ≠ '\n' := by rintro rfl; rw [isSpace_newline] at h1; cases h1
    have h3 := readWord_eq w r (fun x hx => hw x (by simp [hx])) hr (fun x hx => hp x (by
      rw [List.cons_append]; exact List.mem_cons_of_mem _ hx))
    rw [List.cons_append, lineLoop, if_neg h2, isspace_plain (hp c (by simp)), h1]
    simp only
    split
    · rename_i h; rw [h3] at h; cases h
    · rename_i h; rw [h3] at h; cases h; rfl

/-! ## Filling lines -/

/-- The size of a line as it is counted. -/
def size (pre ind : Str) (g : List Item) : ℕ := (lineOf id pre ind g).length

/-- The groups that the code makes: `cur` is the current one. -/
def fill (pre ind : Str) : List Item → List Item → List (List Item)
  | cur, [] => [cur]
  | cur, i :: is =>
    if size pre ind cur ≠ 0 ∧ size pre ind cur + (i.1.length + i.2.length) > 79 then
      cur :: fill pre ind [i] is
    else fill pre ind (cur ++ [i]) is

/-- Lines with line ends between them. -/
def joinLines (f : Str → Str) (pre ind : Str) : List (List Item) → Str
  | [] => []
  | [g] => lineOf f pre ind g
  | g :: h :: gs => lineOf f pre ind g ++ ['\n'] ++ joinLines f pre ind (h :: gs)

theorem fill_ne (pre ind : Str) (cur is : List Item) : fill pre ind cur is ≠ [] := by
  induction is generalizing cur with
  | nil => simp [fill]
  | cons i is ih =>
    rw [fill]
    split
    · simp
    · exact ih _

theorem textOf_append (f : Str → Str) (cur : List Item) (i : Item) (h : cur = [] → f i.1 = []) :
    textOf f (cur ++ [i]) = textOf f cur ++ f i.1 ++ f i.2 := by
  cases cur with
  | nil => simp [textOf, h rfl]
  | cons j cur => simp [textOf]

theorem size_append (pre ind : Str) (cur : List Item) (i : Item) (h : cur = [] → i.1 = []) :
    size pre ind (cur ++ [i]) = size pre ind cur + (i.1.length + i.2.length) := by
  unfold size lineOf
  rw [textOf_append id cur i h]
  simp
  omega

theorem size_single (pre ind : Str) (i : Item) : size pre ind [i] = pre.length + ind.length + i.2.length := by
  simp [size, lineOf, textOf]
  omega

theorem size_nil (pre ind : Str) : size pre ind [] = pre.length + ind.length := by
  simp [size, lineOf, textOf]

theorem cut_gap {g : Str} (h : IsGap g) : cut g = g := by
  apply cut_eq
  intro hn
  have := (h nul hn).1
  revert this
  decide

/-- The inner loop fills lines. -/
theorem lineLoop_fill (pre ind : Str) (items : List Item) (trail tail base : Str) (cur : List Item)
    (hg : ∀ i ∈ items, IsGap i.1) (hw : ∀ i ∈ items, IsWord i.2)
    (hfirst : cur = [] → ∀ i, items.head? = some i → i.1 = [])
    (hrest : (cur = [] → ∀ i ∈ items.tail, i.1 ≠ []) ∧ (cur ≠ [] → ∀ i ∈ items, i.1 ≠ []))
    (ht : IsGap trail) (htail : ∀ c, tail.head? = some c → c = '\n')
    (hp : Plain (items.flatMap (fun i => i.1 ++ i.2) ++ trail ++ tail)) :
    ∃ n, lineLoop pre ind (items.flatMap (fun i => i.1 ++ i.2) ++ trail ++ tail) []
        ⟨size pre ind cur, base ++ lineOf cut pre ind cur⟩ =
      some (tail.tail, ⟨n, base ++ joinLines cut pre ind (fill pre ind cur items)⟩) := by
  induction items generalizing cur base with
  | nil =>
    rw [List.flatMap_nil, List.nil_append] at hp ⊢
    rw [lineLoop_gap _ _ _ _ _ _ ht hp]
    refine ⟨size pre ind cur, ?_⟩
    rw [fill, joinLines]
    cases tail with
    | nil => rw [lineLoop]; rfl
    | cons c tail =>
      rw [htail c rfl, lineLoop]
      simp
  | cons i items ih =>
    have hgi := hg i (by simp)
    have hwi := hw i (by simp)
    rw [List.flatMap_cons, List.append_assoc, List.append_assoc, List.append_assoc] at hp ⊢
    rw [lineLoop_gap _ _ _ _ _ _ hgi hp]
    have hp' := hp.append_right
    rw [lineLoop_word _ _ _ _ _ _ hwi _ hp', List.nil_append]
    · have hp'' := hp'.append_right
      rw [← List.append_assoc] at hp'' ⊢
      have hneq : ∀ j ∈ items, j.1 ≠ [] := by
        intro j hj
        by_cases hc : cur = []
        · exact hrest.1 hc j hj
        · exact hrest.2 hc j (by simp [hj])
      rw [fill]
      unfold printWord consoleWidth
      simp only
      by_cases hb : size pre ind cur ≠ 0 ∧ size pre ind cur + (i.1.length + i.2.length) > 79
      · rw [if_pos hb, if_pos (by omega)]
        obtain ⟨n, hn⟩ := ih (base ++ lineOf cut pre ind cur ++ ['\n']) [i]
          (fun j hj => hg j (by simp [hj])) (fun j hj => hw j (by simp [hj])) (by simp)
          ⟨by simp, fun _ => hneq⟩ hp''
        refine ⟨n, ?_⟩
        have e1 : printRaw i.2 (printRaw ind (printRaw pre (newLine
            ⟨size pre ind cur, base ++ lineOf cut pre ind cur⟩))) =
            ⟨size pre ind [i], base ++ lineOf cut pre ind cur ++ ['\n'] ++ lineOf cut pre ind [i]⟩ := by
          simp [printRaw, newLine, size_single, cstr_eq_cut, lineOf, textOf]
        rw [e1, hn]
        congr 3
        cases hf : fill pre ind [i] items with
        | nil => exact absurd hf (fill_ne _ _ _ _)
        | cons h gs => simp [joinLines]
      · rw [if_neg hb, if_neg (by omega)]
        have hcur : cur = [] → i.1 = [] := fun hc => hfirst hc i rfl
        obtain ⟨n, hn⟩ := ih base (cur ++ [i])
          (fun j hj => hg j (by simp [hj])) (fun j hj => hw j (by simp [hj])) (by simp)
          ⟨by simp, fun _ => hneq⟩ hp''
        refine ⟨n, ?_⟩
        have e1 : printRaw i.2 (printRaw i.1 ⟨size pre ind cur, base ++ lineOf cut pre ind cur⟩) =
            ⟨size pre ind (cur ++ [i]), base ++ lineOf cut pre ind (cur ++ [i])⟩ := by
          rw [size_append pre ind cur i hcur]
          have := textOf_append cut cur i (fun h => by rw [hcur h]; rfl)
          simp only [printRaw, cstr_eq_cut, lineOf, this]
          simp
          omega
        rw [e1, hn]
    · intro c hc
      cases items with
      | nil =>
        simp only [List.flatMap_nil, List.nil_append] at hc
        cases trail with
        | nil => rw [htail c hc]; exact isSpace_newline
        | cons d trail => simp at hc; rw [← hc]; exact (ht d (by simp)).1
      | cons j items =>
        have hj : j.1 ≠ [] := by
          by_cases hc : cur = []
          · exact hrest.1 hc j (by simp)
          · exact hrest.2 hc j (by simp)
        obtain ⟨d, s, hds⟩ := List.exists_cons_of_ne_nil hj
        simp only [List.flatMap_cons, hds, List.cons_append, List.head?_cons, Option.some.injEq] at hc
        rw [← hc]
        exact (hg j (by simp) d (by rw [hds]; simp)).1

theorem joinLines_end (f : Str → Str) (pre ind : Str) (gs : List (List Item)) (h : gs ≠ []) :
    joinLines f pre ind gs ++ ['\n'] = linesOf f pre ind gs := by
  induction gs with
  | nil => exact absurd rfl h
  | cons g gs ih =>
    cases gs with
    | nil => simp [joinLines, linesOf]
    | cons h gs =>
      have ih := ih (by simp)
      rw [joinLines, List.append_assoc, ih]
      simp [linesOf]

/-! ## Broken lines are those that are filled -/

theorem fill_flatten (pre ind : Str) (cur is : List Item) : (fill pre ind cur is).flatten = cur ++ is := by
  induction is generalizing cur with
  | nil => simp [fill]
  | cons i is ih =>
    rw [fill]
    split
    · simp [ih]
    · simp [ih]

theorem fill_head (pre ind : Str) (cur is : List Item) : ∃ more gs, fill pre ind cur is = (cur ++ more) :: gs := by
  induction is generalizing cur with
  | nil => exact ⟨[], [], by simp [fill]⟩
  | cons i is ih =>
    rw [fill]
    split
    · exact ⟨[], _, by simp; rfl⟩
    · obtain ⟨m, gs, h⟩ := ih (cur ++ [i])
      exact ⟨i :: m, gs, by rw [h]; simp⟩

theorem fill_tail (pre ind : Str) (cur is : List Item) : ∀ g ∈ (fill pre ind cur is).tail, g ≠ [] := by
  induction is generalizing cur with
  | nil => simp [fill]
  | cons i is ih =>
    rw [fill]
    split
    · intro g hg
      rw [List.tail_cons] at hg
      obtain ⟨m, gs, h⟩ := fill_head pre ind [i] is
      rw [h] at hg
      rcases List.mem_cons.mp hg with rfl | hg
      · simp
      · exact ih [i] g (by rw [h]; exact hg)
    · exact ih _

theorem size_ne (pre ind : Str) (g : List Item) (hg : g ≠ []) (hw : ∀ i ∈ g, IsWord i.2) : size pre ind g ≠ 0 := by
  cases g with
  | nil => exact absurd rfl hg
  | cons i g =>
    have := List.length_pos_of_ne_nil (hw i (by simp)).1
    simp [size, lineOf, textOf]
    intro _ _ h
    exact absurd h (hw i (by simp)).1

theorem fill_fits (pre ind : Str) (cur is : List Item) (hf : cur = [] → ∀ i, is.head? = some i → i.1 = [])
    (hw : ∀ i ∈ cur ++ is, IsWord i.2) (hc : cur.length ≤ 1 ∨ size pre ind cur ≤ 79) :
    ∀ g ∈ fill pre ind cur is, g.length ≤ 1 ∨ size pre ind g ≤ 79 := by
  induction is generalizing cur with
  | nil => intro g hg; simp [fill] at hg; rw [hg]; exact hc
  | cons i is ih =>
    rw [fill]
    split
    · intro g hg
      rcases List.mem_cons.mp hg with rfl | hg
      · exact hc
      · exact ih [i] (by simp) (fun j hj => hw j (by simp at hj ⊢; tauto)) (by simp) g hg
    · rename_i hb
      refine ih (cur ++ [i]) (by simp) (by simpa using hw) ?_
      by_cases h0 : cur = []
      · left; simp [h0]
      · right
        rw [size_append _ _ _ _ (fun h => hf h i rfl)]
        have hs := size_ne pre ind cur h0 (fun j hj => hw j (by simp [hj]))
        omega

theorem fill_first (pre ind : Str) (cur is : List Item) (hf : cur = [] → ∀ i, is.head? = some i → i.1 = [])
    (hc : cur ≠ [] → pre ++ ind ≠ [] → size pre ind cur ≤ 79) :
    ∀ g, (fill pre ind cur is).head? = some g → g ≠ [] → pre ++ ind ≠ [] → size pre ind g ≤ 79 := by
  induction is generalizing cur with
  | nil => intro g hg; simp [fill] at hg; rw [← hg]; exact hc
  | cons i is ih =>
    rw [fill]
    split
    · intro g hg; simp at hg; rw [← hg]; exact hc
    · rename_i hb
      refine ih (cur ++ [i]) (by simp) ?_
      intro _ hne
      rw [size_append _ _ _ _ (fun h => hf h i rfl)]
      have hpos := List.length_pos_of_ne_nil hne
      have : size pre ind cur ≠ 0 := by
        unfold size lineOf
        simp at hpos ⊢
        intro h1 h2
        simp [h1, h2] at hpos
      omega

theorem fill_full (pre ind : Str) (cur is : List Item) :
    (fill pre ind cur is).IsChain fun g h => ∀ i, h.head? = some i →
      lineOf id pre ind g ≠ [] ∧ 79 < (lineOf id pre ind g).length + (i.1.length + i.2.length) := by
  induction is generalizing cur with
  | nil => simp [fill]
  | cons i is ih =>
    rw [fill]
    split
    · rename_i hb
      obtain ⟨m, gs, h⟩ := fill_head pre ind [i] is
      have := ih [i]
      rw [h] at this ⊢
      refine List.isChain_cons_cons.mpr ⟨?_, this⟩
      intro j hj
      simp at hj
      subst hj
      refine ⟨?_, hb.2⟩
      intro h0
      exact hb.1 (by unfold size; rw [h0]; rfl)
    · exact ih _

theorem fill_broken (pre ind : Str) (items : List Item) (hf : ∀ i, items.head? = some i → i.1 = [])
    (hw : ∀ i ∈ items, IsWord i.2) : Broken pre ind items (fill pre ind [] items) where
  all := by rw [fill_flatten]; rfl
  nonempty := fill_ne _ _ _ _
  words := fill_tail _ _ _ _
  fits := fill_fits pre ind [] items (fun _ => hf) hw (by simp)
  firstFits := fill_first pre ind [] items (fun _ => hf) (by simp)
  full := fill_full _ _ _ _

theorem size_mono (pre ind : Str) (a b : List Item) (h : a = [] → ∀ i, b.head? = some i → i.1 = []) :
    size pre ind a ≤ size pre ind (a ++ b) := by
  cases a with
  | nil => rw [size_nil]; simp [size, lineOf]
  | cons x a => simp [size, lineOf, textOf]

theorem fill_eq (pre ind : Str) (cur items more : List Item) (gs : List (List Item))
    (hall : ((cur ++ more) :: gs).flatten = cur ++ items)
    (hf : cur = [] → ∀ i, items.head? = some i → i.1 = [])
    (hwords : ∀ g ∈ gs, g ≠ [])
    (hfits : ∀ g ∈ (cur ++ more) :: gs, g.length ≤ 1 ∨ size pre ind g ≤ 79)
    (hfirst : cur = [] → cur ++ more ≠ [] → pre ++ ind ≠ [] → size pre ind (cur ++ more) ≤ 79)
    (hfull : ((cur ++ more) :: gs).IsChain fun g h => ∀ i, h.head? = some i →
      lineOf id pre ind g ≠ [] ∧ 79 < (lineOf id pre ind g).length + (i.1.length + i.2.length)) :
    fill pre ind cur items = (cur ++ more) :: gs := by
  induction items generalizing cur more gs with
  | nil =>
    rw [fill]
    have h1 : more = [] ∧ gs.flatten = [] := by
      have : cur ++ (more ++ gs.flatten) = cur ++ [] := by simpa using hall
      have := List.append_cancel_left this
      exact List.append_eq_nil_iff.mp this
    rw [h1.1, List.append_nil]
    cases gs with
    | nil => rfl
    | cons g gs =>
      have := h1.2
      rw [List.flatten_cons, List.append_eq_nil_iff] at this
      exact absurd this.1 (hwords g (by simp))
  | cons i is ih =>
    have h1 : more ++ gs.flatten = i :: is := by
      have : cur ++ (more ++ gs.flatten) = cur ++ (i :: is) := by simpa using hall
      exact List.append_cancel_left this
    rw [fill]
    cases more with
    | cons j more =>
      rw [List.cons_append, List.cons.injEq] at h1
      obtain ⟨rfl, h1⟩ := h1
      have hsz : size pre ind cur + (j.1.length + j.2.length) ≤ size pre ind (cur ++ j :: more) := by
        rw [← size_append pre ind cur j (fun h => hf h j rfl)]
        have := size_mono pre ind (cur ++ [j]) more (by simp)
        simpa using this
      rw [if_neg]
      · have := ih (cur ++ [j]) more gs (by simp [h1]) (by simp) hwords (by simpa using hfits) (by simp)
          (by simpa using hfull)
        simpa using this
      · rintro ⟨h2, h3⟩
        by_cases hc : cur = []
        · by_cases hp : pre ++ ind = []
          · rw [hc, size_nil] at h2
            rw [List.append_eq_nil_iff] at hp
            simp [hp.1, hp.2] at h2
          · have := hfirst hc (by simp) hp
            omega
        · rcases hfits (cur ++ j :: more) (by simp) with h | h
          · have := List.length_pos_of_ne_nil hc
            simp at h
            omega
          · omega
    | nil =>
      rw [List.nil_append] at h1
      cases gs with
      | nil => simp at h1
      | cons g gs =>
        have hg := hwords g (by simp)
        obtain ⟨j, g', rfl⟩ := List.exists_cons_of_ne_nil hg
        rw [List.flatten_cons, List.cons_append, List.cons.injEq] at h1
        obtain ⟨rfl, h1⟩ := h1
        rw [List.append_nil] at hfull ⊢
        obtain ⟨h2, h3⟩ := List.isChain_cons_cons.mp hfull
        obtain ⟨h4, h5⟩ := h2 j rfl
        rw [if_pos ⟨fun h => h4 (List.eq_nil_of_length_eq_zero h), h5⟩]
        have := ih [j] g' gs (by simp [h1]) (by simp) (fun g hg => hwords g (by simp [hg]))
          (fun g hg => hfits g (by simp at hg ⊢; tauto)) (by simp) (by simpa using h3)
        rw [this]
        rfl

theorem broken_eq {pre ind : Str} {items : List Item} {groups : List (List Item)}
    (h : Broken pre ind items groups) (hf : ∀ i, items.head? = some i → i.1 = []) :
    groups = fill pre ind [] items := by
  cases groups with
  | nil => exact absurd rfl h.nonempty
  | cons g gs =>
    have := fill_eq pre ind [] items g gs h.all (fun _ => hf) h.words h.fits
      (fun _ => h.firstFits g rfl) h.full
    rw [this]
    rfl

/-! ## Reading lines -/

theorem exists_items (n : ℕ) : ∀ s : Str, s.length ≤ n → '\n' ∉ s → AfterWord s →
    ∃ (items : List Item) (trail : Str), s = items.flatMap (fun i => i.1 ++ i.2) ++ trail ∧ (∀ i ∈ items, IsGap i.1) ∧
      (∀ i ∈ items, IsWord i.2) ∧ (∀ i ∈ items, i.1 ≠ []) ∧ IsGap trail := by
  induction n with
  | zero =>
    intro s hs _ _
    have : s = [] := List.eq_nil_of_length_eq_zero (by omega)
    subst this
    exact ⟨[], [], by simp, by simp, by simp, by simp, by simp [IsGap]⟩
  | succ n ih =>
    intro s hs hn ha
    have hgap : IsGap (s.takeWhile isSpace) := by
      intro c hc
      refine ⟨?_, fun h => hn (h ▸ List.takeWhile_subset _ hc)⟩
      have := List.all_takeWhile (p := isSpace) (l := s)
      rw [List.all_eq_true] at this
      exact this c hc
    cases hd : s.dropWhile isSpace with
    | nil =>
      have := List.takeWhile_append_dropWhile (p := isSpace) (l := s)
      rw [hd, List.append_nil] at this
      exact ⟨[], s.takeWhile isSpace, by simp [this], by simp, by simp, by simp, hgap⟩
    | cons c t =>
      have hc : isSpace c = false := by
        have := List.head?_dropWhile_not isSpace s
        rw [hd] at this
        simpa using this
      set w := (c :: t).takeWhile (fun c => !isSpace c) with hw
      set r := (c :: t).dropWhile (fun c => !isSpace c) with hr
      have hwr : w ++ r = c :: t := List.takeWhile_append_dropWhile
      have hsplit : s = s.takeWhile isSpace ++ (w ++ r) := by
        rw [hwr, ← hd, List.takeWhile_append_dropWhile]
      have hword : IsWord w := by
        constructor
        · rw [hw, List.takeWhile_cons]; simp [hc]
        · intro x hx
          have := List.all_takeWhile (p := fun c => !isSpace c) (l := c :: t)
          rw [List.all_eq_true] at this
          simpa using this x hx
      have hne : s.takeWhile isSpace ≠ [] := by
        intro h0
        rw [h0, List.nil_append, hwr] at hsplit
        have := ha c (by rw [hsplit]; rfl)
        rw [hc] at this; cases this
      have hlen : r.length ≤ n := by
        have h1 := congrArg List.length hsplit
        have h2 := List.length_pos_of_ne_nil hne
        simp at h1
        omega
      have hafter : AfterWord r := by
        intro x hx
        have := List.head?_dropWhile_not (fun c => !isSpace c) (c :: t)
        rw [← hr, hx] at this
        simpa using this
      have hnr : '\n' ∉ r := fun h => hn (by rw [hsplit]; simp [h])
      obtain ⟨items, trail, h1, h2, h3, h4, h5⟩ := ih r hlen hnr hafter
      refine ⟨(s.takeWhile isSpace, w) :: items, trail, ?_, ?_, ?_, ?_, h5⟩
      · rw [List.flatMap_cons, List.append_assoc, ← h1, List.append_assoc]; exact hsplit
      · intro i hi
        rcases List.mem_cons.mp hi with rfl | hi
        · exact hgap
        · exact h2 i hi
      · intro i hi
        rcases List.mem_cons.mp hi with rfl | hi
        · exact hword
        · exact h3 i hi
      · intro i hi
        rcases List.mem_cons.mp hi with rfl | hi
        · exact hne
        · exact h4 i hi

theorem line_exists (line : Str) (hn : '\n' ∉ line) : ∃ indent items trail, Line line indent items trail := by
  have hgap : IsGap (line.takeWhile isSpace) := by
    intro c hc
    refine ⟨?_, fun h => hn (h ▸ List.takeWhile_subset _ hc)⟩
    have := List.all_takeWhile (p := isSpace) (l := line)
    rw [List.all_eq_true] at this
    exact this c hc
  have hall := List.takeWhile_append_dropWhile (p := isSpace) (l := line)
  cases hd : line.dropWhile isSpace with
  | nil =>
    rw [hd, List.append_nil] at hall
    exact ⟨line, [], [], by simp, by rw [hall] at hgap; exact hgap, by simp, by simp, by simp, by simp, by simp [IsGap],
      by simp⟩
  | cons c t =>
    have hc : isSpace c = false := by
      have := List.head?_dropWhile_not isSpace line
      rw [hd] at this
      simpa using this
    set w := (c :: t).takeWhile (fun c => !isSpace c) with hw
    set r := (c :: t).dropWhile (fun c => !isSpace c) with hr
    have hwr : w ++ r = c :: t := List.takeWhile_append_dropWhile
    have hword : IsWord w := by
      constructor
      · rw [hw, List.takeWhile_cons]; simp [hc]
      · intro x hx
        have := List.all_takeWhile (p := fun c => !isSpace c) (l := c :: t)
        rw [List.all_eq_true] at this
        simpa using this x hx
    have hafter : AfterWord r := by
      intro x hx
      have := List.head?_dropWhile_not (fun c => !isSpace c) (c :: t)
      rw [← hr, hx] at this
      simpa using this
    have hsplit : line = line.takeWhile isSpace ++ (w ++ r) := by rw [hwr, ← hd, hall]
    have hnr : '\n' ∉ r := fun h => hn (by rw [hsplit]; simp [h])
    obtain ⟨items, trail, h1, h2, h3, h4, h5⟩ := exists_items r.length r (le_refl _) hnr hafter
    refine ⟨line.takeWhile isSpace, ([], w) :: items, trail, ?_, hgap, ?_, ?_, by simp, ?_, h5, by simp⟩
    · rw [List.flatMap_cons, List.nil_append, List.append_assoc, List.append_assoc, ← h1]; exact hsplit
    · intro i hi
      rcases List.mem_cons.mp hi with rfl | hi
      · simp [IsGap]
      · exact h2 i hi
    · intro i hi
      rcases List.mem_cons.mp hi with rfl | hi
      · exact hword
      · exact h3 i hi
    · exact h4

theorem split_first {s : Str} (h : '\n' ∈ s) : ∃ a b, s = a ++ '\n' :: b ∧ '\n' ∉ a := by
  induction s with
  | nil => cases h
  | cons c s ih =>
    by_cases hc : c = '\n'
    · exact ⟨[], s, by rw [hc]; rfl, by simp⟩
    · obtain ⟨a, b, h1, h2⟩ := ih (by simpa [Ne.symm hc] using h)
      exact ⟨c :: a, b, by rw [h1]; rfl, by simp [Ne.symm hc, h2]⟩

theorem shows_exists (f : Str → Str) (pre : Str) (n : ℕ) : ∀ msg : Str, msg.length ≤ n → ∃ out, Shows f pre msg out := by
  induction n with
  | zero =>
    intro msg h
    have : msg = [] := List.eq_nil_of_length_eq_zero (by omega)
    subst this
    exact ⟨[], .nil⟩
  | succ n ih =>
    intro msg hm
    by_cases h0 : msg = []
    · subst h0; exact ⟨[], .nil⟩
    · by_cases hn : '\n' ∈ msg
      · obtain ⟨line, rest, hsplit, hnl⟩ := split_first hn
        obtain ⟨indent, items, trail, hl⟩ := line_exists line hnl
        obtain ⟨out, ho⟩ := ih rest (by rw [hsplit] at hm; simp at hm; omega)
        rw [hsplit]
        exact ⟨_, .line line rest indent trail items _ out hnl hl (fill_broken pre indent items hl.first hl.words) ho⟩
      · obtain ⟨indent, items, trail, hl⟩ := line_exists msg hn
        by_cases hi : items = []
        · subst hi
          have htr := hl.blank rfl
          have := hl.all
          simp [htr] at this
          exact ⟨_, .blank msg h0 (this ▸ hl.indentGap)⟩
        · exact ⟨_, .last msg indent trail items _ hn hl hi (fill_broken pre indent items hl.first hl.words)⟩

/-! ## The code prints what the specification says -/

theorem items_head {line indent trail : Str} {items : List Item} (hl : Line line indent items trail) (hi : items ≠ []) :
    ∃ d s, items.flatMap (fun i => i.1 ++ i.2) = d :: s ∧ isSpace d = false := by
  obtain ⟨i, is, rfl⟩ := List.exists_cons_of_ne_nil hi
  have h1 := hl.first i rfl
  obtain ⟨h2, h3⟩ := hl.words i (by simp)
  obtain ⟨d, s, h4⟩ := List.exists_cons_of_ne_nil h2
  refine ⟨d, s ++ is.flatMap (fun i => i.1 ++ i.2), ?_, h3 d (by rw [h4]; simp)⟩
  rw [List.flatMap_cons, h1, h4]
  rfl

theorem printLoop_line (pre line indent trail : Str) (items : List Item) (groups : List (List Item)) (tail base : Str)
    (hl : Line line indent items trail) (hi : items ≠ []) (hb : Broken pre indent items groups)
    (ht : ∀ c, tail.head? = some c → c = '\n') (hp : Plain (line ++ tail)) :
    printLoop pre (line ++ tail) ⟨0, base⟩ = printLoop pre tail.tail ⟨0, base ++ linesOf cut pre indent groups⟩ := by
  obtain ⟨d, s, hd, hds⟩ := items_head hl hi
  have hbk := broken_eq hb hl.first
  have hall := hl.all
  rw [List.append_assoc] at hall
  have hsplit : line ++ tail = indent ++ (items.flatMap (fun i => i.1 ++ i.2) ++ trail ++ tail) := by
    rw [hall]; simp
  rw [hsplit] at hp
  have h1 := readIndentation_eq indent (items.flatMap (fun i => i.1 ++ i.2) ++ trail ++ tail) hl.indentGap
    (by intro c hc; rw [hd] at hc; simp at hc; rw [← hc]; exact Or.inr hds) hp
  obtain ⟨n, h2⟩ := lineLoop_fill pre indent items trail tail base [] hl.gaps hl.words
    (fun _ => hl.first) ⟨fun _ => hl.apart, by simp⟩ hl.trailGap ht hp.append_right
  have h3 : printRaw indent (printRaw pre ⟨0, base⟩) = ⟨size pre indent [], base ++ lineOf cut pre indent []⟩ := by
    simp [printRaw, size_nil, lineOf, textOf, cstr_eq_cut]
  rw [hsplit]
  rw [hd] at h1 h2 ⊢
  have hne : d ≠ '\n' := by rintro rfl; rw [isSpace_newline] at hds; cases hds
  generalize hm : indent ++ (d :: s ++ trail ++ tail) = msg at h1
  cases msg with
  | nil => simp at hm
  | cons c msg =>
    rw [printLoop]
    split
    · rename_i h; rw [h1] at h; cases h
    · rename_i ind' rest' h
      rw [h1] at h
      simp only [Option.some.injEq, Prod.mk.injEq] at h
      obtain ⟨rfl, rfl⟩ := h
      simp only [List.cons_append]
      rw [if_neg hne]
      simp only [List.cons_append] at h2
      split
      · rename_i h; rw [h3, h2] at h; cases h
      · rename_i h
        rw [h3, h2] at h
        simp only [Option.some.injEq, Prod.mk.injEq] at h
        obtain ⟨rfl, rfl⟩ := h
        rw [newLine]
        simp only
        rw [List.append_assoc, joinLines_end _ _ _ _ (fill_ne _ _ _ _), ← hbk]

theorem printLoop_blank (pre indent rest base : Str) (hg : IsGap indent) (hp : Plain (indent ++ '\n' :: rest)) :
    printLoop pre (indent ++ '\n' :: rest) ⟨0, base⟩ =
      printLoop pre rest ⟨0, base ++ (cut pre ++ cut indent ++ ['\n'])⟩ := by
  have h1 := readIndentation_eq indent ('\n' :: rest) hg (by intro c hc; simp at hc; exact Or.inl hc.symm) hp
  generalize hm : indent ++ '\n' :: rest = msg at h1
  cases msg with
  | nil => simp at hm
  | cons c msg =>
    rw [printLoop]
    split
    · rename_i h; rw [h1] at h; cases h
    · rename_i h
      rw [h1] at h
      simp only [Option.some.injEq, Prod.mk.injEq] at h
      obtain ⟨rfl, rfl⟩ := h
      simp [printRaw, newLine, cstr_eq_cut]

theorem shows_printLoop {pre msg out : Str} (h : Shows cut pre msg out) (hp : Plain msg) :
    ∀ base, ∃ n, printLoop pre msg ⟨0, base⟩ = some ⟨n, base ++ out⟩ := by
  induction h with
  | nil => intro base; exact ⟨0, by rw [printLoop]; simp⟩
  | line line rest indent trail items groups out hn hl hb hs ih =>
    intro base
    have hpr : Plain rest := fun c hc => hp c (by simp [hc])
    by_cases hi : items = []
    · subst hi
      have htr := hl.blank rfl
      have hall := hl.all
      simp only [List.flatMap_nil, List.append_nil, htr] at hall
      rw [hall] at hp ⊢
      rw [printLoop_blank pre indent rest base hl.indentGap hp]
      obtain ⟨n, h⟩ := ih hpr (base ++ (cut pre ++ cut indent ++ ['\n']))
      refine ⟨n, ?_⟩
      rw [h, broken_eq hb hl.first, fill]
      simp [linesOf, lineOf, textOf]
    · rw [printLoop_line pre line indent trail items groups ('\n' :: rest) base hl hi hb (by simp [eq_comm]) hp]
      obtain ⟨n, h⟩ := ih hpr (base ++ linesOf cut pre indent groups)
      exact ⟨n, by rw [List.tail_cons, h]; simp⟩
  | last line indent trail items groups hn hl hi hb =>
    intro base
    have := printLoop_line pre line indent trail items groups [] base hl hi hb (by simp) (by simpa using hp)
    rw [List.append_nil] at this
    rw [this]
    exact ⟨0, by rw [List.tail_nil, printLoop]⟩
  | blank line hne hg =>
    intro base
    have h1 := readIndentation_eq line [] hg (by simp [AfterGap]) (by simpa using hp)
    rw [List.append_nil] at h1
    cases line with
    | nil => exact absurd rfl hne
    | cons c line =>
      rw [printLoop]
      split
      · rename_i h; rw [h1] at h; cases h
      · rename_i h
        rw [h1] at h
        simp only [Option.some.injEq, Prod.mk.injEq] at h
        obtain ⟨rfl, rfl⟩ := h
        exact ⟨(printRaw (c :: line) (printRaw pre ⟨0, base⟩)).lineSize, by simp [printRaw, cstr_eq_cut]⟩

theorem display_shows {pre msg out : Str} (h : Shows cut pre msg out) (hp : Plain msg) :
    display msg pre = some out := by
  obtain ⟨n, hn⟩ := shows_printLoop h hp []
  rw [display, hn]
  rfl

/-! ## Words -/

theorem wordsOf_space (c : Char) (s : Str) (h : isSpace c = true) : wordsOf (c :: s) = wordsOf s := by
  cases s <;> simp [wordsOf, h]

theorem wordsOf_gap (g r : Str) (h : ∀ c ∈ g, isSpace c = true) : wordsOf (g ++ r) = wordsOf r := by
  induction g with
  | nil => rfl
  | cons c g ih =>
    rw [List.cons_append, wordsOf_space _ _ (h c (by simp)), ih (fun x hx => h x (by simp [hx]))]

theorem wordsOf_word (w r : Str) (hw : IsWord w) (hr : AfterWord r) : wordsOf (w ++ r) = w :: wordsOf r := by
  obtain ⟨hne, hw⟩ := hw
  induction w with
  | nil => exact absurd rfl hne
  | cons c w ih =>
    have hc := hw c (by simp)
    cases w with
    | nil =>
      cases r with
      | nil => simp [wordsOf, hc]
      | cons d r =>
        have := hr d rfl
        rw [List.cons_append, List.nil_append, wordsOf, if_neg (by simp [hc])]
        simp [this]
    | cons d w =>
      have hd := hw d (by simp)
      have := ih (by simp) (fun x hx => hw x (by simp at hx ⊢; tauto))
      rw [List.cons_append, List.cons_append, wordsOf, if_neg (by simp [hc])]
      rw [List.cons_append] at this
      simp [hd, this]

theorem afterWord_items (items : List Item) (trail tail : Str) (hg : ∀ i ∈ items, IsGap i.1)
    (hne : ∀ i ∈ items, i.1 ≠ []) (ht : IsGap trail) (htail : AfterWord tail) :
    AfterWord (items.flatMap (fun i => i.1 ++ i.2) ++ trail ++ tail) := by
  intro c hc
  cases items with
  | nil =>
    cases trail with
    | nil => exact htail c (by simpa using hc)
    | cons d trail => simp at hc; rw [← hc]; exact (ht d (by simp)).1
  | cons j items =>
    obtain ⟨d, s, hds⟩ := List.exists_cons_of_ne_nil (hne j (by simp))
    simp only [List.flatMap_cons, hds, List.cons_append, List.head?_cons, Option.some.injEq] at hc
    rw [← hc]
    exact (hg j (by simp) d (by rw [hds]; simp)).1

theorem wordsOf_items (items : List Item) (trail tail : Str) (hg : ∀ i ∈ items, IsGap i.1)
    (hw : ∀ i ∈ items, IsWord i.2) (hne : ∀ i ∈ items.tail, i.1 ≠ []) (ht : IsGap trail) (htail : AfterWord tail) :
    wordsOf (items.flatMap (fun i => i.1 ++ i.2) ++ trail ++ tail) = items.map Prod.snd ++ wordsOf tail := by
  induction items with
  | nil => simp [wordsOf_gap _ _ (fun c hc => (ht c hc).1)]
  | cons i items ih =>
    have hg' : ∀ i ∈ items, IsGap i.1 := fun j hj => hg j (by simp [hj])
    rw [List.flatMap_cons, List.append_assoc, List.append_assoc, List.append_assoc,
      wordsOf_gap _ _ (fun c hc => (hg i (by simp) c hc).1), ← List.append_assoc (items.flatMap _),
      wordsOf_word _ _ (hw i (by simp)) (afterWord_items _ _ _ hg' hne ht htail),
      ih hg' (fun j hj => hw j (by simp [hj])) (fun j hj => hne j (List.mem_of_mem_tail hj))]
    simp

/-- The words of a line of the message. -/
theorem wordsOf_line {line indent trail : Str} {items : List Item} (hl : Line line indent items trail) (tail : Str)
    (htail : AfterWord tail) : wordsOf (line ++ tail) = items.map Prod.snd ++ wordsOf tail := by
  rw [hl.all, List.append_assoc, List.append_assoc, wordsOf_gap _ _ (fun c hc => (hl.indentGap c hc).1),
    ← List.append_assoc]
  exact wordsOf_items _ _ _ hl.gaps hl.words hl.apart hl.trailGap htail

/-- The words of a printed line. -/
theorem wordsOf_group {indent : Str} (g : List Item) (hi : IsGap indent)
    (hg : ∀ i ∈ g, IsGap i.1) (hw : ∀ i ∈ g, IsWord i.2) (hne : ∀ i ∈ g.tail, i.1 ≠ []) :
    wordsOf (indent ++ textOf id g) = g.map Prod.snd := by
  rw [wordsOf_gap _ _ (fun c hc => (hi c hc).1)]
  cases g with
  | nil => rfl
  | cons i g =>
    obtain ⟨a, b⟩ := i
    have := wordsOf_items (([], b) :: g) [] [] (by
        intro i hi
        rcases List.mem_cons.mp hi with rfl | hi
        · simp [IsGap]
        · exact hg i (by simp [hi])) (by
        intro i hi
        rcases List.mem_cons.mp hi with rfl | hi
        · exact hw (a, b) (by simp)
        · exact hw i (by simp [hi])) hne (by simp [IsGap]) (by simp [AfterWord])
    simpa [textOf, wordsOf] using this

theorem mem_group {groups : List (List Item)} {items g : List Item} (h : groups.flatten = items) (hg : g ∈ groups)
    (i : Item) (hi : i ∈ g) : i ∈ items := by
  rw [← h]; exact List.mem_flatten.mpr ⟨g, hg, hi⟩

theorem tail_group {groups : List (List Item)} {items : List Item} (h : groups.flatten = items)
    (hn : ∀ i ∈ items.tail, i.1 ≠ []) : ∀ g ∈ groups, ∀ i ∈ g.tail, i.1 ≠ [] := by
  subst h
  induction groups with
  | nil => simp
  | cons g gs ih =>
    intro g' hg' i hi
    rcases List.mem_cons.mp hg' with rfl | hg'
    · refine hn i ?_
      cases g' with
      | nil => simp at hi
      | cons x g' => simp at hi ⊢; exact Or.inl hi
    · refine ih ?_ g' hg' i hi
      intro j hj
      refine hn j ?_
      cases g with
      | nil => simpa using hj
      | cons x g => rw [List.flatten_cons, List.cons_append, List.tail_cons]; exact List.mem_append_right _ (List.mem_of_mem_tail hj)

/-- What is printed for one line of the message. -/
theorem line_words {pre line indent trail : Str} {items : List Item} {groups : List (List Item)}
    (hl : Line line indent items trail) (hb : Broken pre indent items groups) (f : Str → Str) (hf : ∀ w ∈ wordsOf line, f w = w)
    (hgap : ∀ g, IsGap g → f g = g) :
    ∃ ls : List Str, linesOf f pre indent groups = ls.flatMap (fun l => f pre ++ l ++ ['\n']) ∧
      ls.flatMap wordsOf = wordsOf line ∧ (∀ l ∈ ls, '\n' ∉ l) ∧
      ∀ l ∈ ls, 79 < pre.length + l.length → (wordsOf l).length ≤ 1 := by
  have hwl : wordsOf line = items.map Prod.snd := by
    have := wordsOf_line hl [] (by simp [AfterWord])
    simpa [wordsOf] using this
  have hgw : ∀ g ∈ groups, wordsOf (indent ++ textOf id g) = g.map Prod.snd := fun g hg =>
    wordsOf_group g hl.indentGap (fun i hi => hl.gaps i (mem_group hb.all hg i hi))
      (fun i hi => hl.words i (mem_group hb.all hg i hi)) (tail_group hb.all hl.apart g hg)
  have htext : ∀ g ∈ groups, textOf f g = textOf id g := by
    intro g hg
    cases hgi : g with
    | nil => rfl
    | cons i rest =>
      obtain ⟨a, b⟩ := i
      have hmem : ∀ i ∈ g, f i.1 = i.1 ∧ f i.2 = i.2 := by
        intro i hi
        have := mem_group hb.all hg i hi
        refine ⟨hgap _ (hl.gaps i this), hf _ ?_⟩
        rw [hwl]
        exact List.mem_map_of_mem this
      rw [hgi] at hmem
      rw [textOf, textOf, (hmem (a, b) (by simp)).2]
      congr 1
      rw [List.flatMap_def, List.flatMap_def]
      congr 1
      apply List.map_congr_left
      intro i hi
      rw [(hmem i (by simp [hi])).1, (hmem i (by simp [hi])).2]
      rfl
  refine ⟨groups.map (fun g => indent ++ textOf id g), ?_, ?_, ?_, ?_⟩
  · unfold linesOf
    rw [List.flatMap_map, List.flatMap_def, List.flatMap_def]
    congr 1
    apply List.map_congr_left
    intro g hg
    rw [lineOf, htext g hg, hgap _ hl.indentGap]
    simp
  · rw [List.flatMap_map, hwl, ← hb.all, List.map_flatten, List.flatMap_def]
    congr 1
    exact List.map_congr_left hgw
  · intro l hm
    obtain ⟨g, hg, rfl⟩ := List.mem_map.mp hm
    rw [List.mem_append, not_or]
    refine ⟨fun h => (hl.indentGap _ h).2 rfl, ?_⟩
    have hmem : ∀ i ∈ g, '\n' ∉ i.1 ∧ '\n' ∉ i.2 := by
      intro i hi
      have := mem_group hb.all hg i hi
      refine ⟨fun h => (hl.gaps i this _ h).2 rfl, fun h => ?_⟩
      have := (hl.words i this).2 _ h
      rw [isSpace_newline] at this
      cases this
    cases g with
    | nil => simp [textOf]
    | cons i rest =>
      obtain ⟨a, b⟩ := i
      rw [textOf, List.mem_append, not_or]
      refine ⟨(hmem (a, b) (by simp)).2, ?_⟩
      simp only [List.mem_flatMap, not_exists, not_and, List.mem_append, not_or]
      exact fun i hi => hmem i (by simp [hi])
  · intro l hm hlen
    obtain ⟨g, hg, rfl⟩ := List.mem_map.mp hm
    rw [hgw g hg, List.length_map]
    rcases hb.fits g hg with h | h
    · exact h
    · exfalso
      unfold lineOf at h
      simp at h hlen
      omega

theorem shows_words {pre msg out : Str} {f : Str → Str} (h : Shows f pre msg out)
    (hf : ∀ w ∈ wordsOf msg, f w = w) (hgap : ∀ g, IsGap g → f g = g) :
    ∃ (ls : List Str) (last : Str),
      out = ls.flatMap (fun l => f pre ++ l ++ ['\n']) ++ last ∧
      (last = [] ∨ ∃ g, IsGap g ∧ last = f pre ++ g) ∧
      ls.flatMap wordsOf = wordsOf msg ∧ (∀ l ∈ ls, '\n' ∉ l) ∧
      ∀ l ∈ ls, 79 < pre.length + l.length → (wordsOf l).length ≤ 1 := by
  induction h with
  | nil => exact ⟨[], [], by simp, by simp, by simp [wordsOf], by simp, by simp⟩
  | line line rest indent trail items groups out hn hl hb hs ih =>
    have hw : wordsOf (line ++ '\n' :: rest) = wordsOf line ++ wordsOf rest := by
      have h1 := wordsOf_line hl [] (by simp [AfterWord])
      rw [wordsOf_line hl ('\n' :: rest) (by intro c hc; simp at hc; rw [← hc]; exact isSpace_newline),
        wordsOf_space _ _ isSpace_newline]
      rw [List.append_nil] at h1
      rw [h1]
      simp [wordsOf]
    rw [hw] at hf ⊢
    obtain ⟨ls, last, h1, h2, h3, h4, h5⟩ := ih (fun w hw => hf w (by simp [hw]))
    obtain ⟨ls', h1', h3', h4', h5'⟩ := line_words hl hb f (fun w hw => hf w (by simp [hw])) hgap
    refine ⟨ls' ++ ls, last, ?_, h2, ?_, ?_, ?_⟩
    · rw [h1', h1]; simp
    · rw [List.flatMap_append, h3, h3']
    · intro l hl; rcases List.mem_append.mp hl with hl | hl
      · exact h4' l hl
      · exact h4 l hl
    · intro l hl; rcases List.mem_append.mp hl with hl | hl
      · exact h5' l hl
      · exact h5 l hl
  | last line indent trail items groups hn hl hi hb =>
    obtain ⟨ls', h1', h3', h4', h5'⟩ := line_words hl hb f hf hgap
    exact ⟨ls', [], by rw [h1']; simp, by simp, h3', h4', h5'⟩
  | blank line hne hg =>
    refine ⟨[], f pre ++ f line, by simp, Or.inr ⟨line, hg, by rw [hgap _ hg]⟩, ?_, by simp, by simp⟩
    have := wordsOf_gap line [] (fun c hc => (hg c hc).1)
    rw [List.append_nil] at this
    rw [this]
    simp [wordsOf]

theorem wordsOf_word_cons (c d : Char) (s : Str) (hc : isSpace c = false) (hd : isSpace d = false) :
    ∃ w ws, wordsOf (d :: s) = w :: ws ∧ wordsOf (c :: d :: s) = (c :: w) :: ws := by
  induction s generalizing c d with
  | nil => exact ⟨[d], [], by simp [wordsOf, hd], by simp [wordsOf, hd, hc]⟩
  | cons e s ih =>
    by_cases he : isSpace e = true
    · exact ⟨[d], wordsOf (e :: s), by rw [wordsOf]; simp [hd, he], by rw [wordsOf]; simp [hd, hc]; rw [wordsOf]; simp [hd, he]⟩
    · obtain ⟨w, ws, h1, h2⟩ := ih d e hd (by simpa using he)
      refine ⟨d :: w, ws, h2, ?_⟩
      rw [wordsOf]
      simp [hc, hd, h2]

theorem wordsOf_append (a b : Str) (hb : AfterWord b) : wordsOf (a ++ b) = wordsOf a ++ wordsOf b := by
  induction a with
  | nil => simp [wordsOf]
  | cons c a ih =>
    by_cases hc : isSpace c = true
    · rw [List.cons_append, wordsOf_space _ _ hc, wordsOf_space _ _ hc, ih]
    · rw [Bool.not_eq_true] at hc
      cases a with
      | nil =>
        have := wordsOf_word [c] b ⟨by simp, by simpa using hc⟩ hb
        rw [this]
        simp [wordsOf, hc]
      | cons d a =>
        by_cases hd : isSpace d = true
        · rw [List.cons_append, List.cons_append, wordsOf]
          rw [List.cons_append] at ih
          simp only [hc, hd]
          rw [ih, wordsOf]
          simp [hc, hd]
        · rw [Bool.not_eq_true] at hd
          obtain ⟨w, ws, h1, h2⟩ := wordsOf_word_cons c d a hc hd
          obtain ⟨w', ws', h1', h2'⟩ := wordsOf_word_cons c d (a ++ b) hc hd
          rw [List.cons_append, List.cons_append, h2, h2']
          rw [List.cons_append, h1, h1'] at ih
          simp at ih
          simp [ih]

theorem wordsOf_mem {s : Str} (w : Str) (h : w ∈ wordsOf s) (x : Char) (hx : x ∈ w) : x ∈ s := by
  induction s generalizing w with
  | nil => simp [wordsOf] at h
  | cons c s ih =>
    by_cases hc : isSpace c = true
    · rw [wordsOf_space _ _ hc] at h
      exact List.mem_cons_of_mem _ (ih w h hx)
    · rw [Bool.not_eq_true] at hc
      cases s with
      | nil =>
        simp [wordsOf, hc] at h
        rw [h] at hx
        exact hx
      | cons d s =>
        by_cases hd : isSpace d = true
        · rw [wordsOf] at h
          simp [hc, hd] at h
          rcases h with rfl | h
          · simp at hx; simp [hx]
          · exact List.mem_cons_of_mem _ (ih w h hx)
        · rw [Bool.not_eq_true] at hd
          obtain ⟨w', ws, h1, h2⟩ := wordsOf_word_cons c d s hc hd
          rw [h2] at h
          rcases List.mem_cons.mp h with rfl | h
          · rcases List.mem_cons.mp hx with rfl | hx
            · simp
            · exact List.mem_cons_of_mem _ (ih w' (by rw [h1]; simp) hx)
          · exact List.mem_cons_of_mem _ (ih w (by rw [h1]; simp [h]) hx)

/-! ## Lengths -/

theorem cut_subset (s : Str) : ∀ c ∈ cut s, c ∈ s := by
  induction s with
  | nil => simp [cut]
  | cons c s ih =>
    rw [cut]
    split
    · simp
    · intro x hx
      rcases List.mem_cons.mp hx with rfl | hx
      · simp
      · exact List.mem_cons_of_mem _ (ih x hx)

theorem wordsOf_solid (s : Str) (h : ∀ c ∈ s, isSpace c = false) : (wordsOf s).length ≤ 1 := by
  by_cases h0 : s = []
  · simp [h0, wordsOf]
  · have := wordsOf_word s [] ⟨h0, h⟩ (by simp [AfterWord])
    rw [List.append_nil] at this
    simp [this, wordsOf]

theorem textOf_cut_length (g : List Item) : (textOf cut g).length ≤ (textOf id g).length := by
  cases g with
  | nil => simp [textOf]
  | cons i g =>
    obtain ⟨a, b⟩ := i
    have h1 := cut_length b
    have h2 : (g.flatMap (fun i => cut i.1 ++ cut i.2)).length ≤ (g.flatMap (fun i => id i.1 ++ id i.2)).length := by
      induction g with
      | nil => simp
      | cons j g ih =>
        have h3 := cut_length j.1
        have h4 := cut_length j.2
        simp only [List.flatMap_cons, List.length_append, id] at ih ⊢
        omega
    rw [textOf, textOf, List.length_append, List.length_append]
    exact Nat.add_le_add h1 h2

theorem textOf_cut_mem (g : List Item) : ∀ c ∈ textOf cut g, ∃ i ∈ g, c ∈ i.1 ∨ c ∈ i.2 := by
  cases g with
  | nil => simp [textOf]
  | cons i g =>
    obtain ⟨a, b⟩ := i
    intro c hc
    rw [textOf] at hc
    rcases List.mem_append.mp hc with h | h
    · exact ⟨(a, b), by simp, Or.inr (cut_subset _ _ h)⟩
    · obtain ⟨j, hj, h⟩ := List.mem_flatMap.mp h
      refine ⟨j, by simp [hj], ?_⟩
      rcases List.mem_append.mp h with h | h
      · exact Or.inl (cut_subset _ _ h)
      · exact Or.inr (cut_subset _ _ h)

theorem line_fits {pre line indent trail : Str} {items : List Item} {groups : List (List Item)}
    (hl : Line line indent items trail) (hb : Broken pre indent items groups) :
    ∃ ls : List Str, linesOf cut pre indent groups = ls.flatMap (fun l => cut pre ++ l ++ ['\n']) ∧
      (∀ l ∈ ls, '\n' ∉ l) ∧ ∀ l ∈ ls, 79 < (cut pre).length + l.length → (wordsOf l).length ≤ 1 := by
  refine ⟨groups.map (fun g => indent ++ textOf cut g), ?_, ?_, ?_⟩
  · unfold linesOf
    rw [List.flatMap_map]
    congr 1
    funext g
    rw [lineOf, cut_gap hl.indentGap]
    simp
  · intro l hm
    obtain ⟨g, hg, rfl⟩ := List.mem_map.mp hm
    rw [List.mem_append, not_or]
    refine ⟨fun h => (hl.indentGap _ h).2 rfl, fun h => ?_⟩
    obtain ⟨i, hi, h⟩ := textOf_cut_mem _ _ h
    have := mem_group hb.all hg i hi
    rcases h with h | h
    · exact (hl.gaps i this _ h).2 rfl
    · have := (hl.words i this).2 _ h
      rw [isSpace_newline] at this
      cases this
  · intro l hm hlen
    obtain ⟨g, hg, rfl⟩ := List.mem_map.mp hm
    rw [wordsOf_gap _ _ (fun c hc => (hl.indentGap c hc).1)]
    rcases hb.fits g hg with h | h
    · cases g with
      | nil => simp [textOf, wordsOf]
      | cons i g =>
        have : g = [] := List.eq_nil_of_length_eq_zero (by simpa using h)
        subst this
        obtain ⟨a, b⟩ := i
        rw [textOf, List.flatMap_nil, List.append_nil]
        exact wordsOf_solid _ (fun c hc => (hl.words (a, b) (mem_group hb.all hg _ (by simp))).2 c (cut_subset _ _ hc))
    · exfalso
      unfold lineOf at h
      have h1 := textOf_cut_length g
      have h2 := cut_length pre
      simp at h hlen
      omega

theorem shows_fits {pre msg out : Str} (h : Shows cut pre msg out) :
    ∃ (ls : List Str) (last : Str),
      out = ls.flatMap (fun l => cut pre ++ l ++ ['\n']) ++ last ∧
      (last = [] ∨ ∃ g, IsGap g ∧ last = cut pre ++ g) ∧ (∀ l ∈ ls, '\n' ∉ l) ∧
      ∀ l ∈ ls, 79 < (cut pre).length + l.length → (wordsOf l).length ≤ 1 := by
  induction h with
  | nil => exact ⟨[], [], by simp, by simp, by simp, by simp⟩
  | line line rest indent trail items groups out hn hl hb hs ih =>
    obtain ⟨ls, last, h1, h2, h4, h5⟩ := ih
    obtain ⟨ls', h1', h4', h5'⟩ := line_fits hl hb
    refine ⟨ls' ++ ls, last, ?_, h2, ?_, ?_⟩
    · rw [h1', h1]; simp
    · intro l hl; rcases List.mem_append.mp hl with hl | hl
      · exact h4' l hl
      · exact h4 l hl
    · intro l hl; rcases List.mem_append.mp hl with hl | hl
      · exact h5' l hl
      · exact h5 l hl
  | last line indent trail items groups hn hl hi hb =>
    obtain ⟨ls', h1', h4', h5'⟩ := line_fits hl hb
    exact ⟨ls', [], by rw [h1']; simp, by simp, h4', h5'⟩
  | blank line hne hg =>
    exact ⟨[], cut pre ++ cut line, by simp, Or.inr ⟨line, hg, by rw [cut_gap hg]⟩, by simp, by simp⟩

theorem display_word (w : Str) (hw : IsWord w) (hp : Plain w) : display w [] = some (cut w ++ ['\n']) := by
  have hn : '\n' ∉ w := by
    intro h
    have := hw.2 _ h
    rw [isSpace_newline] at this
    cases this
  have hl : Line w [] [([], w)] [] :=
    ⟨by simp, by simp [IsGap], by simp [IsGap], by simpa using hw, by simp, by simp, by simp [IsGap], by simp⟩
  have := display_shows (pre := []) (Shows.last w [] [] [([], w)] _ hn hl (by simp)
    (fill_broken [] [] _ hl.first hl.words)) hp
  rw [this]
  simp [fill, linesOf, lineOf, textOf, size, cut]

/-! ## When it is defined -/

theorem isspace_some {c : Char} {b : Bool} (h : isspace c = some b) : c.toNat < 128 ∨ c.toNat = 255 := by
  unfold isspace at h
  split at h
  · left; assumption
  · split at h
    · right; assumption
    · cases h

theorem newline_plain : ('\n' : Char).toNat < 128 ∨ ('\n' : Char).toNat = 255 := by decide

theorem plain_cons {c : Char} {s : Str} : Plain (c :: s) ↔ (c.toNat < 128 ∨ c.toNat = 255) ∧ Plain s := by
  simp [Plain]

theorem readIndentation_plain {l i r : Str} (h : readIndentation l = some (i, r)) (hr : Plain r) : Plain l := by
  induction l generalizing i r with
  | nil => simp [Plain]
  | cons c l ih =>
    rw [readIndentation] at h
    split at h
    · simp at h; rw [h.2]; exact hr
    · split at h
      · cases h
      · simp at h; rw [h.2]; exact hr
      · rename_i hc
        split at h
        · cases h
        · rename_i hw
          simp at h
          exact plain_cons.mpr ⟨isspace_some hc, ih hw (h.2 ▸ hr)⟩

theorem readWord_plain {l i r : Str} (h : readWord l = some (i, r)) (hr : Plain r) : Plain l := by
  induction l generalizing i r with
  | nil => simp [Plain]
  | cons c l ih =>
    rw [readWord] at h
    split at h
    · simp at h; rw [h.2]; exact hr
    · split at h
      · cases h
      · simp at h; rw [h.2]; exact hr
      · rename_i hc
        split at h
        · cases h
        · rename_i hw
          simp at h
          exact plain_cons.mpr ⟨isspace_some hc, ih hw (h.2 ▸ hr)⟩

theorem lineLoop_plain {pre ind rest gap : Str} {o o' : Out} {r : Str}
    (h : lineLoop pre ind rest gap o = some (r, o')) (hr : Plain r) : Plain rest := by
  fun_induction lineLoop pre ind rest gap o with
  | case1 => simp [Plain]
  | case2 => simp at h; rw [h.1]; exact plain_cons.mpr ⟨newline_plain, hr⟩
  | case3 => cases h
  | case4 gap o c rest hc hs ih => exact plain_cons.mpr ⟨isspace_some hs, ih h⟩
  | case5 => cases h
  | case6 gap o c rest hc hs w r' hw ih => exact plain_cons.mpr ⟨isspace_some hs, readWord_plain hw (ih h)⟩

theorem printLoop_plain {pre rest : Str} {o o' : Out} (h : printLoop pre rest o = some o') : Plain rest := by
  fun_induction printLoop pre rest o with
  | case1 => simp [Plain]
  | case2 => cases h
  | case3 => rename_i hi; exact readIndentation_plain hi (by simp [Plain])
  | case4 => rename_i hi ih; exact readIndentation_plain hi (plain_cons.mpr ⟨newline_plain, ih h⟩)
  | case5 => cases h
  | case6 => rename_i h1 _ _ _ hll _ ih; exact readIndentation_plain h1 (lineLoop_plain hll (ih h))

end Verif.Display
