import Verif.HelpSpec
import Verif.PropNameFactory
import Verif.PropColumnPrinter
import Verif.PropDisplay
import Verif.PropCli

/-!
# Lemmas on the help texts
-/

namespace Verif.Help

open Verif.NameFactory Verif.Cli Verif.Text
open Verif.Display (Shows cut Plain wordsOf)

variable {Q A : Type}

/-! ## The list of actions -/

theorem lists_names {f : Factory (Action Q A)} (hd : (names f).Nodup)
    (hnull : ∀ n x, Registered f n x → x ≠ none) {l : List (Str × Action Q A)} (hl : Lists f l) :
    namesWithPrefix f [] [] = l.map Prod.fst := by
  obtain ⟨h1, h2, _⟩ := namesWithPrefix_spec f []
  refine sorted_unique ?_ h1 hl.order
  refine (List.perm_ext_iff_of_nodup ?_ hl.nodup).mpr ?_
  · rw [(namesWithPrefix_perm f [] []).nodup_iff]
    exact hd.filter _
  · intro n
    rw [h2]
    constructor
    · rintro ⟨hn, _⟩
      obtain ⟨⟨m, x⟩, hx, rfl⟩ := List.mem_map.mp hn
      cases x with
      | none => exact absurd rfl (hnull _ _ hx)
      | some a => exact List.mem_map.mpr ⟨(m, a), (hl.all m a).mpr hx, rfl⟩
    · intro hn
      obtain ⟨⟨m, a⟩, ha, rfl⟩ := List.mem_map.mp hn
      exact ⟨List.mem_map.mpr ⟨_, (hl.all m a).mp ha, rfl⟩, m, rfl⟩

theorem create_registered {f : Factory (Action Q A)} (hd : (names f).Nodup) {n : Str} {a : Action Q A}
    (h : Registered f n (some a)) : createWithPrefix f n = .ok (some a) :=
  ((createWithPrefix_spec f n hd).1 (some a)).mpr ⟨n, ⟨List.mem_map.mpr ⟨_, h, rfl⟩, .inl rfl⟩, h⟩

theorem write_two (c0 c1 : ColumnPrinter.Col) (pre a b : Str) :
    ((ColumnPrinter.write ⟨[c0, c1], pre⟩ 0 a).bind fun s => ColumnPrinter.write s 1 b) =
      some ⟨[{ c0 with text := c0.text ++ a }, { c1 with text := c1.text ++ b }], pre⟩ := by
  simp [ColumnPrinter.write]

theorem listLoop_eq (T : Texts Q A) (p : Parser Q A) (hd : (names p.actions).Nodup)
    (l : List (Str × Action Q A)) (hl : ∀ a ∈ l, Registered p.actions a.1 (some a.2)) (c0 c1 : ColumnPrinter.Col)
    (pre : Str) :
    listLoop T p (l.map Prod.fst) ⟨[c0, c1], pre⟩ =
      .ok ⟨[{ c0 with text := c0.text ++ (l.map fun a => T.actionName a.2).flatMap (· ++ ['\n']) },
        { c1 with text := c1.text ++ (l.map fun a => T.shortDescription a.2).flatMap (· ++ ['\n']) }], pre⟩ := by
  induction l generalizing c0 c1 with
  | nil => simp [listLoop]
  | cons a l ih =>
    rw [List.map_cons, listLoop, Parser.createActionWithPrefix, create_registered hd (hl a (by simp))]
    simp only [Res.bind]
    rw [write_two]
    simp only
    rw [ih (fun b hb => hl b (by simp [hb]))]
    simp

theorem flatMap_range {α : Type} (l : List α) (f : α → Str) (g : ℕ → Str) (n : ℕ)
    (h : ∀ r (hr : r < l.length), g (n + r) = f l[r]) :
    (List.range' n l.length).flatMap g = l.flatMap f := by
  induction l generalizing n with
  | nil => rfl
  | cons a l ih =>
    rw [List.length_cons, List.range'_succ, List.flatMap_cons, List.flatMap_cons]
    congr 1
    · exact h 0 (by simp)
    · refine ih (n + 1) fun r hr => ?_
      have := h (r + 1) (by simpa using hr)
      simpa [Nat.add_assoc, Nat.add_comm 1 r] using this

theorem oneLine_plain {s : Str} (h : OneLine s) : ∀ c ∈ s, ColumnPrinter.Plain c :=
  fun _ hc => ⟨fun e => h.1 (e ▸ hc), fun e => h.2 (e ▸ hc)⟩

theorem colWidth_lines (ls : List Str) : ColumnPrinter.colWidth (ls.map fun l => (l, ' ')) = widest ls := by
  simp [ColumnPrinter.colWidth, ColumnPrinter.maxOf, widest]
  rfl

theorem print_list (l : List (Str × Str)) (h : ∀ a ∈ l, OneLine a.1 ∧ OneLine a.2) :
    ColumnPrinter.print ⟨[⟨[' '], (l.map Prod.fst).flatMap (· ++ ['\n']), [], false⟩,
      ⟨[' ', '-', ' '], (l.map Prod.snd).flatMap (· ++ ['\n']), [], true⟩], []⟩ = some (tableText l) := by
  have h1 := ColumnPrinter.cells_of_lines (l.map Prod.fst) (by
    intro s hs
    obtain ⟨a, ha, rfl⟩ := List.mem_map.mp hs
    exact oneLine_plain (h a ha).1)
  have h2 := ColumnPrinter.cells_of_lines (l.map Prod.snd) (by
    intro s hs
    obtain ⟨a, ha, rfl⟩ := List.mem_map.mp hs
    exact oneLine_plain (h a ha).2)
  rw [ColumnPrinter.print_table _ [(⟨[' '], (l.map Prod.fst).flatMap (· ++ ['\n']), [], false⟩, _),
    (⟨[' ', '-', ' '], (l.map Prod.snd).flatMap (· ++ ['\n']), [], true⟩, _)]
    ⟨rfl, by
      intro c hc
      simp only [List.mem_cons, List.not_mem_nil, or_false] at hc
      rcases hc with rfl | rfl
      · exact h1
      · exact h2⟩]
  congr 1
  unfold ColumnPrinter.rows tableText
  have hc : ∀ x y : ColumnPrinter.Col, ColumnPrinter.rowCount [(x, (l.map Prod.fst).map fun l => (l, ' ')),
      (y, (l.map Prod.snd).map fun l => (l, ' '))] = l.length := by
    intro x y
    simp [ColumnPrinter.rowCount, ColumnPrinter.maxOf]
  rw [hc, List.range_eq_range']
  refine flatMap_range l _ _ 0 fun r hr => ?_
  simp only [ColumnPrinter.row, List.flatMap_cons, List.flatMap_nil, colWidth_lines, ColumnPrinter.padded,
    List.nil_append, List.append_nil, Nat.zero_add]
  rw [List.getD_eq_getElem _ _ (by simpa using hr), List.getD_eq_getElem _ _ (by simpa using hr)]
  simp

theorem filterMap_fst (l : List Str) (g : Str → Option (Action Q A)) :
    ((l.filterMap fun n => (g n).map fun a => (n, a)).map Prod.fst).Sublist l := by
  induction l with
  | nil => simp
  | cons n l ih =>
    rw [List.filterMap_cons]
    cases hg : g n with
    | none => simpa using ih.cons n
    | some a => simpa using ih

theorem lists_exist (f : Factory (Action Q A)) (hd : (names f).Nodup) : ∃ l, Lists f l := by
  obtain ⟨h1, h2, _⟩ := namesWithPrefix_spec f []
  have hs := filterMap_fst (namesWithPrefix f [] []) (createNullOnUnknown f)
  refine ⟨_, h1.sublist hs, List.Nodup.sublist hs ?_, ?_⟩
  · rw [(namesWithPrefix_perm f [] []).nodup_iff]
    exact hd.filter _
  · intro n a
    obtain ⟨c1, c2, _⟩ := create_spec f n hd
    simp only [List.mem_filterMap, Option.map_eq_some_iff, Prod.mk.injEq, exists_eq_right_right]
    constructor
    · rintro ⟨hm, hc⟩
      obtain ⟨⟨k, x⟩, hx, hk⟩ := List.mem_map.mp ((h2 n).mp hm).1
      simp only at hk
      subst hk
      rw [c1 x hx] at hc
      rw [← hc]
      exact hx
    · intro hr
      exact ⟨(h2 n).mpr ⟨List.mem_map.mpr ⟨_, hr, rfl⟩, n, rfl⟩, c1 _ hr⟩

theorem lists_unique {f : Factory (Action Q A)} (hd : (names f).Nodup) {l l' : List (Str × Action Q A)}
    (h : Lists f l) (h' : Lists f l') : l = l' := by
  have hn : l.Nodup := List.Nodup.of_map _ h.nodup
  have hn' : l'.Nodup := List.Nodup.of_map _ h'.nodup
  have hp : l.Perm l' := (List.perm_ext_iff_of_nodup hn hn').mpr fun ⟨n, a⟩ => by rw [h.all, h'.all]
  have hm := sorted_unique (hp.map Prod.fst) h.order h'.order
  refine List.ext_getElem hp.length_eq fun i hi hi' => ?_
  have e1 : l[i].1 = l'[i].1 := by
    have := congrArg (fun x => x[i]?) hm
    simpa [hi, hi'] using this
  have r1 := (h.all l[i].1 l[i].2).mp (List.getElem_mem hi)
  have r2 := (h'.all l'[i].1 l'[i].2).mp (List.getElem_mem hi')
  rw [← e1] at r2
  have c := (create_spec f l[i].1 hd).1
  have := (c _ r1).symm.trans (c _ r2)
  injection this with this
  exact Prod.ext e1 this

theorem listPrinter_eq : listPrinter = ⟨[⟨[' '], [], [], false⟩, ⟨[' ', '-', ' '], [], [], true⟩], []⟩ := rfl

theorem displayed_ok_iff (msg pre out : Str) (hp : Plain msg) : displayed msg pre = .ok out ↔ Shows cut pre msg out := by
  rw [← Display.display_iff pre msg out hp]
  unfold displayed
  cases Display.display msg pre <;> simp

theorem displayed_ub_iff (msg pre : Str) : displayed msg pre = .ub ↔ ¬ Plain msg := by
  rw [← Display.display_undefined_iff pre msg]
  unfold displayed
  cases Display.display msg pre <;> simp

/-- The text that the help action hands to `display`. -/
theorem perform_list (T : Texts Q A) (p : Parser Q A) (hd : (names p.actions).Nodup)
    (hnull : ∀ n x, Registered p.actions n x → x ≠ none) (l : List (Str × Action Q A)) (hl : Lists p.actions l)
    (h1 : ∀ a ∈ l, OneLine (T.actionName a.2) ∧ OneLine (T.shortDescription a.2)) :
    (⟨true, []⟩ : Help).performAction T p =
      displayed (listText p.helpPreMessage p.helpPostMessage
        (l.map fun a => (T.actionName a.2, T.shortDescription a.2))) [] := by
  have hlist := listLoop_eq T p hd l (fun a ha => (hl.all a.1 a.2).mp ha)
    ⟨[' '], [], [], false⟩ ⟨[' ', '-', ' '], [], [], true⟩ []
  have hprint := print_list (l.map fun a => (T.actionName a.2, T.shortDescription a.2)) (by
    intro x hx
    obtain ⟨a, ha, rfl⟩ := List.mem_map.mp hx
    exact h1 a ha)
  simp only [List.map_map, Function.comp_def] at hprint
  simp only [List.nil_append] at hlist
  unfold Help.performAction Parser.pushBackRegisteredActionNames
  rw [lists_names hd hnull hl, listPrinter_eq, hlist]
  simp only [Res.bind]
  rw [hprint]
  simp [listText]

/-! ## Words -/

theorem afterWord_space {c : Char} (s : Str) (h : isSpace c = true) : Display.AfterWord (c :: s) := by
  intro d hd
  simp at hd
  rw [← hd]; exact h

theorem wordsOf_blank_append (a : Str) (n : ℕ) (s : Str) (c : Char) (hc : isSpace c = true) :
    wordsOf (a ++ List.replicate n ' ' ++ c :: s) = wordsOf a ++ wordsOf s := by
  rw [List.append_assoc, Display.wordsOf_append, Display.wordsOf_gap, Display.wordsOf_space _ _ hc]
  · intro x hx; rw [List.eq_of_mem_replicate hx]; decide
  · cases n with
    | zero => exact afterWord_space _ hc
    | succ n => exact afterWord_space _ (by decide)

theorem wordsOf_tableText (w1 w2 : ℕ) (l : List (Str × Str)) (rest : Str) :
    wordsOf ((l.flatMap fun a =>
    ' ' :: List.replicate (w1 - a.1.length) ' ' ++ a.1 ++ [' ', '-', ' '] ++
      a.2 ++ List.replicate (w2 - a.2.length) ' ' ++ ['\n']) ++ rest) =
      (l.flatMap fun a => wordsOf a.1 ++ [['-']] ++ wordsOf a.2) ++ wordsOf rest := by
  induction l with
  | nil => simp
  | cons a l ih =>
    rw [List.flatMap_cons, List.flatMap_cons]
    have e : ∀ x : Str, (' ' :: List.replicate (w1 - a.1.length) ' ' ++ a.1 ++ [' ', '-', ' '] ++
      a.2 ++ List.replicate (w2 - a.2.length) ' ' ++ ['\n']) ++ x =
      (' ' :: List.replicate (w1 - a.1.length) ' ') ++ (a.1 ++ ' ' :: (['-'] ++ ' ' :: (a.2 ++
        List.replicate (w2 - a.2.length) ' ' ++ '\n' :: x))) := by intro x; simp
    rw [List.append_assoc, e, Display.wordsOf_gap, Display.wordsOf_append _ _ (afterWord_space _ (by decide)),
      Display.wordsOf_space ' ' _ (by decide), Display.wordsOf_append ['-'] _ (afterWord_space _ (by decide)),
      Display.wordsOf_space ' ' _ (by decide), wordsOf_blank_append _ _ _ _ (by decide), ih]
    · have : wordsOf ['-'] = [['-']] := by decide
      rw [this]; simp
    · intro x hx
      have : x = ' ' := by
        rcases List.mem_cons.mp hx with h | h
        · exact h
        · exact List.eq_of_mem_replicate h
      rw [this]; decide

theorem wordsOf_listText (pre post : Str) (l : List (Str × Str)) :
    wordsOf (listText pre post l) =
      wordsOf pre ++ (l.flatMap fun a => wordsOf a.1 ++ [['-']] ++ wordsOf a.2) ++ wordsOf post := by
  unfold listText tableText
  have e : ∀ t : Str, pre ++ '\n' :: t ++ '\n' :: post ++ ['\n'] = pre ++ '\n' :: (t ++ ('\n' :: (post ++ ['\n']))) := by
    intro t; simp
  rw [e, Display.wordsOf_append _ _ (afterWord_space _ (by decide)), Display.wordsOf_space _ _ (by decide),
    wordsOf_tableText, Display.wordsOf_space _ _ (by decide), Display.wordsOf_append _ _ (afterWord_space _ (by decide)),
    Display.wordsOf_space _ _ (by decide)]
  simp [wordsOf]

/-! ## Help on an action -/

theorem mergeSort_map (T : Texts Q A) (params : List Q) :
    (sortParams T params).map T.paramName = (params.map T.paramName).mergeSort fun a b => !strLt b a := by
  unfold sortParams
  rw [List.map_mergeSort]
  intros; rfl

theorem sortParams_sorted (T : Texts Q A) (params : List Q) : Sorted T params (sortParams T params) := by
  refine ⟨List.mergeSort_perm _ _, ?_⟩
  rw [mergeSort_map]
  exact mergeSort_increasing _

theorem sorted_params_unique (T : Texts Q A) {params a b : List Q} (hd : (params.map T.paramName).Nodup)
    (ha : Sorted T params a) (hb : Sorted T params b) : a = b := by
  have hp := ha.1.trans hb.1.symm
  have hm := sorted_unique (hp.map T.paramName) ha.2 hb.2
  have hda : (a.map T.paramName).Nodup := (ha.1.map T.paramName).nodup_iff.mpr hd
  refine List.ext_getElem hp.length_eq fun i hi hi' => ?_
  have e : T.paramName a[i] = T.paramName b[i] := by
    have := congrArg (fun x => x[i]?) hm
    simpa [hi, hi'] using this
  have hmem : b[i] ∈ a := hp.mem_iff.mpr (List.getElem_mem hi')
  exact List.inj_on_of_nodup_map hda (List.getElem_mem hi) hmem e

theorem displayParams_ok_iff (T : Texts Q A) (l : List Q) (h : ∀ q ∈ l, Plain (T.paramDescription q)) (out : Str) :
    displayParams T l = .ok out ↔ ShowsParams T l out := by
  induction l generalizing out with
  | nil =>
    constructor
    · intro e; cases e; exact .nil
    · intro e; cases e; rfl
  | cons q l ih =>
    have ih := ih (fun q hq => h q (by simp [hq]))
    have hq := h q (by simp)
    rw [displayParams]
    constructor
    · intro e
      cases h1 : displayed (T.paramDescription q) "   ".toList with
      | ub => rw [h1] at e; cases e
      | exn _ => rw [h1] at e; cases e
      | ok d =>
        rw [h1] at e
        cases h2 : displayParams T l with
        | ub => rw [h2] at e; cases e
        | exn _ => rw [h2] at e; cases e
        | ok o =>
          rw [h2] at e
          simp only [Res.bind, Res.ok.injEq] at e
          rw [← e]
          simp only [Display.cstr_eq_cut]
          exact .cons q l d o ((displayed_ok_iff _ _ _ hq).mp h1) ((ih o).mp h2)
    · intro e
      cases e with
      | cons _ _ d o h1 h2 =>
        rw [(ih o).mpr h2, (displayed_ok_iff _ "   ".toList _ hq).mpr h1]
        simp only [Res.bind, Display.cstr_eq_cut]

theorem displayParams_defined (T : Texts Q A) (l : List Q) (h : ∀ q ∈ l, Plain (T.paramDescription q)) :
    ∃ out, displayParams T l = .ok out := by
  induction l with
  | nil => exact ⟨_, rfl⟩
  | cons q l ih =>
    obtain ⟨o, ho⟩ := ih (fun q hq => h q (by simp [hq]))
    obtain ⟨d, hd⟩ := Display.shows_exists cut "   ".toList _ (T.paramDescription q) (le_refl _)
    rw [displayParams, (displayed_ok_iff _ _ _ (h q (by simp))).mpr hd, ho]
    exact ⟨_, rfl⟩

theorem optionLoop_withHelp {B : Type} (I : Iface Q B) (names : Factory Unit) : ∀ (n : ℕ) (tokens : List Str)
    (params : List Q), tokens.length ≤ n →
    optionLoop (withHelp I) names tokens params = optionLoop I names tokens params := by
  have ha : ∀ name arg (params : List Q), applyParam (withHelp I) name arg params = applyParam I name arg params := by
    intro name arg params
    induction params with
    | nil => rfl
    | cons q rest ih =>
      rw [applyParam, applyParam, ih]
      rfl
  intro n
  induction n with
  | zero =>
    intro tokens params h
    rw [List.length_eq_zero_iff.mp (Nat.le_zero.mp h), optionLoop, optionLoop]
  | succ n ih =>
    intro tokens params h
    cases tokens with
    | nil => rw [optionLoop, optionLoop]
    | cons token rest =>
      have hr : rest.length ≤ n := by simpa using h
      cases token with
      | nil => rw [optionLoop.eq_3, optionLoop.eq_3] <;> simp
      | cons d noDash =>
        by_cases hd : d = '-'
        · subst hd
          rw [optionLoop, optionLoop]
          simp only [ha]
          cases rest with
          | nil => simp only [ih [] _ (Nat.zero_le _)]
          | cons next rest' =>
            have hr' : rest'.length ≤ n := by
              have : rest'.length + 1 ≤ n := hr
              omega
            simp only [ih rest' _ hr', ih (next :: rest') _ hr]
        · rw [optionLoop.eq_3, optionLoop.eq_3] <;> simp [hd]

end Verif.Help
