import Verif.HelpProofs

/-!
# C70 and C71: the help action
-/

namespace Verif.Help

open Verif.NameFactory Verif.Cli Verif.Text
open Verif.Display (Shows cut Plain wordsOf)

variable {Q A B : Type}

/-! ## C70 -/

/-- C70: there is exactly one list of all registered actions in order. -/
theorem lists_exists_unique (f : Factory (Action Q A)) (hd : (names f).Nodup) : ∃! l, Lists f l := by
  obtain ⟨l, hl⟩ := lists_exist f hd
  exact ⟨l, hl, fun l' hl' => lists_unique hd hl' hl⟩

/-- C70: `help` without a topic prints the list of all actions in the order of the names under which they are
registered, between the two messages, with lines broken as `display` does. -/
theorem help_list (T : Texts Q A) (p : Parser Q A) (hd : (names p.actions).Nodup)
    (hnull : ∀ n x, Registered p.actions n x → x ≠ none) (l : List (Str × Action Q A)) (hl : Lists p.actions l)
    (h1 : ∀ a ∈ l, OneLine (T.actionName a.2) ∧ OneLine (T.shortDescription a.2))
    (hp : Plain (listText p.helpPreMessage p.helpPostMessage
      (l.map fun a => (T.actionName a.2, T.shortDescription a.2)))) (out : Str) :
    (⟨true, []⟩ : Help).performAction T p = .ok out ↔
      Shows cut [] (listText p.helpPreMessage p.helpPostMessage
        (l.map fun a => (T.actionName a.2, T.shortDescription a.2))) out := by
  rw [perform_list T p hd hnull l hl h1, displayed_ok_iff _ _ _ hp]

/-- C70: so the words that are printed are those of the first message, then the name and the summary of each action,
and those of the last message. -/
theorem help_list_words (T : Texts Q A) (p : Parser Q A) (hd : (names p.actions).Nodup)
    (hnull : ∀ n x, Registered p.actions n x → x ≠ none) (l : List (Str × Action Q A)) (hl : Lists p.actions l)
    (h1 : ∀ a ∈ l, OneLine (T.actionName a.2) ∧ OneLine (T.shortDescription a.2))
    (hp : Plain (listText p.helpPreMessage p.helpPostMessage
      (l.map fun a => (T.actionName a.2, T.shortDescription a.2))))
    (hn : nul ∉ p.helpPreMessage ∧ nul ∉ p.helpPostMessage) :
    ∃ out, (⟨true, []⟩ : Help).performAction T p = .ok out ∧
      wordsOf out = wordsOf p.helpPreMessage ++
        (l.flatMap fun a => wordsOf (T.actionName a.2) ++ [['-']] ++ wordsOf (T.shortDescription a.2)) ++
        wordsOf p.helpPostMessage := by
  obtain ⟨out, ho, hw⟩ := Display.display_keeps_words_partial _ hp (by
    unfold listText tableText
    simp only [List.mem_append, List.mem_cons, List.mem_flatMap, List.mem_map, List.not_mem_nil, or_false, not_or]
    refine ⟨⟨⟨hn.1, by decide, ?_⟩, by decide, hn.2⟩, by decide⟩
    rintro ⟨x, ⟨a, ha, rfl⟩, h⟩
    have hr : ∀ n, nul ∉ List.replicate n ' ' := fun n hc => by
      have := List.eq_of_mem_replicate hc
      revert this; decide
    rcases h with (((((h | h) | h) | h) | h) | h) | h
    · revert h; decide
    · exact hr _ h
    · exact (h1 a ha).1.2 h
    · revert h; decide
    · exact (h1 a ha).2.2 h
    · exact hr _ h
    · revert h; decide)
  refine ⟨out, ?_, ?_⟩
  · rw [perform_list T p hd hnull l hl h1, displayed, ho]
  · rw [hw, wordsOf_listText, List.flatMap_map]

/-- C70: `help` with a topic prints the texts of the action that the topic stands for, with its parameters in
the order of their names. -/
theorem help_topic (T : Texts Q A) (p : Parser Q A) (hd : (names p.actions).Nodup) (topic n : Str) (ht : topic ≠ [])
    (a : Action Q A) (hs : StandsFor (names p.actions) topic n) (hr : Registered p.actions n (some a))
    (hq : (a.params.map T.paramName).Nodup) (hp : PlainAction T a) (out : Str) :
    (⟨true, topic⟩ : Help).performAction T p = .ok out ↔ ShowsAction T a out := by
  have hc := ((createWithPrefix_spec p.actions topic hd).1 (some a)).mpr ⟨n, hs, hr⟩
  have hsort := sortParams_sorted T a.params
  have hpl : Plain ("Displaying information on action: ".toList ++ T.actionName a ++ "\n\n".toList ++
      T.description a ++ "\n".toList) := by
    intro c hc
    simp only [List.mem_append] at hc
    rcases hc with (((hc | hc) | hc) | hc) | hc
    · revert hc; revert c; decide
    · exact hp.name c hc
    · revert hc; revert c; decide
    · exact hp.description c hc
    · revert hc; revert c; decide
  have hpp : ∀ q ∈ sortParams T a.params, Plain (T.paramDescription q) :=
    fun q hq => hp.params q (hsort.1.mem_iff.mp hq)
  have e : (⟨true, topic⟩ : Help).performAction T p = displayActionHelp T a := by
    unfold Help.performAction Parser.createActionWithPrefix
    rw [hc]
    simp [Res.bind, ht]
  rw [e, displayActionHelp]
  obtain ⟨head, hh⟩ := Display.shows_exists cut [] _ _ (le_refl ("Displaying information on action: ".toList ++
    T.actionName a ++ "\n\n".toList ++ T.description a ++ "\n".toList).length)
  obtain ⟨tail, htl⟩ := displayParams_defined T _ hpp
  have htl' := (displayParams_ok_iff T _ hpp tail).mp htl
  rw [(displayed_ok_iff _ _ _ hpl).mpr hh]
  simp only [Res.bind]
  rw [htl]
  simp only
  have huniq : ShowsAction T a out ↔ out = head ++ if sortParams T a.params = [] then [] else
      "\nThe parameters accepted by ".toList ++ T.actionName a ++ " are as follows.\n".toList ++ tail := by
    constructor
    · rintro ⟨head', tail', sorted', h1, h2, h3, h4⟩
      have e1 := Display.shows_unique hpl hh h1
      have e2 := sorted_params_unique T hq hsort h2
      subst e2
      have e3 := (displayParams_ok_iff T _ hpp tail').mpr h3
      rw [htl] at e3
      injection e3 with e3
      rw [h4, e1, e3]
    · rintro rfl
      exact ⟨head, tail, _, hh, hsort, htl', rfl⟩
  rw [huniq]
  by_cases hnil : sortParams T a.params = []
  · rw [if_pos hnil, if_pos (by rw [hnil]; rfl), List.append_nil, Res.ok.injEq, eq_comm]
  · rw [if_neg hnil, if_neg (by simpa using hnil), Res.ok.injEq, eq_comm]
    simp only [List.append_assoc]

/-- C70: there is such an output. -/
theorem help_topic_defined (T : Texts Q A) (a : Action Q A) : ∃ out, ShowsAction T a out := by
  obtain ⟨head, hh⟩ := Display.shows_exists cut [] _ _ (le_refl ("Displaying information on action: ".toList ++
    T.actionName a ++ "\n\n".toList ++ T.description a ++ "\n".toList).length)
  have : ∀ l : List Q, ∃ tail, ShowsParams T l tail := by
    intro l
    induction l with
    | nil => exact ⟨_, .nil⟩
    | cons q l ih =>
      obtain ⟨o, ho⟩ := ih
      obtain ⟨d, hd⟩ := Display.shows_exists cut [' ', ' ', ' '] _ (T.paramDescription q) (le_refl _)
      exact ⟨_, .cons q l d o hd ho⟩
  obtain ⟨tail, ht⟩ := this (sortParams T a.params)
  exact ⟨_, head, tail, _, hh, sortParams_sorted T a.params, ht, rfl⟩

/-- C70: a topic that stands for no action or for two is an error. -/
theorem help_topic_errors (T : Texts Q A) (p : Parser Q A) (hd : (names p.actions).Nodup) (topic : Str)
    (ht : topic ≠ []) :
    (NoName (names p.actions) topic →
      ∃ msg, (⟨true, topic⟩ : Help).performAction T p = .exn (.unknownName msg) ∧ Contains msg topic) ∧
    (TwoNames (names p.actions) topic →
      ∃ msg, (⟨true, topic⟩ : Help).performAction T p = .exn (.ambiguousName msg) ∧
        ∀ n ∈ names p.actions, IsPrefixOf topic n → Contains msg n) := by
  have key : ∀ e, uniqueNameWithPrefix p.actions topic = .exn e →
      (⟨true, topic⟩ : Help).performAction T p = .exn e := by
    intro e he
    have := ((createWithPrefix_spec p.actions topic hd).2.1 e).mpr he
    unfold Help.performAction Parser.createActionWithPrefix
    rw [this]
    simp [Res.bind, ht]
  constructor
  · intro h
    obtain ⟨msg, h1, h2⟩ := (unique_unknown_iff p.actions topic).mpr h
    exact ⟨msg, key _ h1, h2⟩
  · intro h
    obtain ⟨msg, h1, h2⟩ := (unique_ambiguous_iff p.actions topic hd).mpr h
    exact ⟨msg, key _ h1, h2⟩

/-- C70: the behaviour of the list is undefined exactly if a text is not in ASCII. -/
theorem help_list_undefined_iff (T : Texts Q A) (p : Parser Q A) (hd : (names p.actions).Nodup)
    (hnull : ∀ n x, Registered p.actions n x → x ≠ none) (l : List (Str × Action Q A)) (hl : Lists p.actions l)
    (h1 : ∀ a ∈ l, OneLine (T.actionName a.2) ∧ OneLine (T.shortDescription a.2)) :
    (⟨true, []⟩ : Help).performAction T p = .ub ↔
      ¬ Plain (listText p.helpPreMessage p.helpPostMessage
        (l.map fun a => (T.actionName a.2, T.shortDescription a.2))) := by
  rw [perform_list T p hd hnull l hl h1, displayed_ub_iff]

/-- C70: on the command line, the word after `help` is the topic, and there may be no second one. -/
theorem parse_help (I : Iface Q B) {actions : Factory (Action Q (Help ⊕ B))} (hd : (names actions).Nodup)
    {first n : Str} (hs : StandsFor (names actions) first n) (hr : Registered actions n (some helpAction))
    (tokens : List Str) (hn : ∀ t ∈ tokens, ¬ IsOption t) :
    (tokens.filter (fun t => t ≠ []) = [] →
      parse (withHelp I) actions (first :: tokens) = .ok ⟨[], .inl ⟨true, []⟩⟩) ∧
    (∀ t, tokens.filter (fun t => t ≠ []) = [t] →
      parse (withHelp I) actions (first :: tokens) = .ok ⟨[], .inl ⟨true, t⟩⟩) ∧
    (∀ t u r, tokens.filter (fun t => t ≠ []) = t :: u :: r →
      ∃ msg, parse (withHelp I) actions (first :: tokens) = .exn (.error msg) ∧ Contains msg u) := by
  have hc := ((createWithPrefix_spec actions first hd).1 (some helpAction)).mpr ⟨n, hs, hr⟩
  have hl : Layout tokens (tokens.filter (fun t => t ≠ [])) [] [] :=
    ⟨by simp, fun t ht => hn t (List.mem_filter.mp ht).1, by simp, .inl rfl⟩
  have h1 := (layout_eq hl).1
  have e : parse (withHelp I) actions (first :: tokens) =
      match Help.init.directOptions (tokens.filter (fun t => t ≠ [])) with
      | (_, some e) => .exn e
      | (h, none) => .ok ⟨[], .inl h⟩ := by
    unfold parse
    simp only [hc, Res.bind, h1, withHelp, helpAction]
    rcases hdir : Help.init.directOptions (tokens.filter (fun t => t ≠ [])) with ⟨h, err⟩
    cases err <;> simp [optionLoop]
  refine ⟨fun h => ?_, fun t h => ?_, fun t u r h => ?_⟩
  · rw [e, h]; rfl
  · rw [e, h]; rfl
  · rw [e, h]
    exact ⟨_, rfl, "ERROR: ".toList ++ "Did not expect second option \"".toList, "\".".toList, by simp⟩

/-- C70: all other actions are parsed as if there were no help action, including what they do with words that are
not options. -/
theorem parse_other (I : Iface Q B) {f : Factory (Action Q (Help ⊕ B))} {g : Factory (Action Q B)}
    (hf : (names f).Nodup) (hg : (names g).Nodup) {first n : Str} (hsf : StandsFor (names f) first n)
    (hsg : StandsFor (names g) first n) {a : Action Q B} (hrf : Registered f n (some ⟨a.params, .inr a.own⟩))
    (hrg : Registered g n (some a)) (tokens : List Str) :
    parse (withHelp I) f (first :: tokens) =
      match parse I g (first :: tokens) with
      | .ok x => .ok ⟨x.params, .inr x.own⟩
      | .exn e => .exn e
      | .ub => .ub := by
  have hcf := ((createWithPrefix_spec f first hf).1 (some ⟨a.params, .inr a.own⟩)).mpr ⟨n, hsf, hrf⟩
  have hcg := ((createWithPrefix_spec g first hg).1 (some a)).mpr ⟨n, hsg, hrg⟩
  unfold parse
  simp only [hcf, hcg, Res.bind]
  have hd : ∀ ts, (withHelp I).direct ts ⟨a.params, .inr a.own⟩ =
      (⟨(I.direct ts a).1.params, .inr (I.direct ts a).1.own⟩, (I.direct ts a).2) := fun ts => rfl
  rw [hd]
  rcases I.direct (splitLoop tokens false [] []).2 a with ⟨x, err⟩
  cases err with
  | some e => rfl
  | none =>
    simp only
    rw [optionLoop_withHelp I _ _ _ _ le_rfl]
    have hm : makeParamNames (withHelp I) a.params = makeParamNames I a.params := rfl
    rw [hm]
    cases optionLoop I (makeParamNames I a.params) (splitLoop tokens false [] []).1 x.params <;> rfl

/-- C70: `performAction` before `directOptions` uses a pointer that is not initialized. -/
theorem help_not_initialized (T : Texts Q A) (p : Parser Q A) : Help.init.performAction T p = .ub := rfl

/-! ## C71 -/

/-- C71 for actions that are registered under their own names: each name in the list can be used as a topic and on the
command line, and means the action beside which it is listed. What is missing is the case of `registerAction(name)` with
another name. -/
theorem help_names_work_partial (T : Texts Q A) (p : Parser Q A) (hd : (names p.actions).Nodup)
    (hself : ∀ n a, Registered p.actions n (some a) → T.actionName a = n ∧ n ≠ [])
    (l : List (Str × Action Q A)) (hl : Lists p.actions l) (a : Str × Action Q A) (ha : a ∈ l) :
    p.createActionWithPrefix (T.actionName a.2) = .ok (some a.2) ∧
      (⟨true, T.actionName a.2⟩ : Help).performAction T p = displayActionHelp T a.2 := by
  have hr := (hl.all a.1 a.2).mp ha
  obtain ⟨h1, h2⟩ := hself _ _ hr
  have hc := create_registered hd hr
  rw [← h1] at hc h2
  refine ⟨hc, ?_⟩
  unfold Help.performAction Parser.createActionWithPrefix
  rw [hc]
  simp [Res.bind, h2]

/-! ## A case -/

instance (s : Str) : Decidable (Plain s) := inferInstanceAs (Decidable (∀ c ∈ s, c.toNat < 128 ∨ c.toNat = 255))
instance (s : Str) : Decidable (OneLine s) := inferInstanceAs (Decidable ('\n' ∉ s ∧ nul ∉ s))

/-- Actions with their texts in place of objects. -/
abbrev Sample := Action (Str × Str × Str × Str) (Str × Str × Str)

def sampleTexts : Texts (Str × Str × Str × Str) (Str × Str × Str) where
  actionName a := a.own.1
  shortDescription a := a.own.2.1
  description a := a.own.2.2
  paramName q := q.1
  argumentType q := q.2.1
  valueAsString q := q.2.2.1
  paramDescription q := q.2.2.2

def sampleHelp : Sample := ⟨[], (helpName, helpShort, helpDescription)⟩

def sampleRun : Sample :=
  ⟨[("steps".toList, "INTEGER".toList, "10".toList, "How many steps to make.".toList),
    ("fast".toList, "[BOOL]".toList, "off".toList, "Whether to be fast.".toList)],
   ("simulate".toList, "Run a simulation.".toList, "Runs a simulation.\nThat takes a while.".toList)⟩

def sampleParser : Parser (Str × Str × Str × Str) (Str × Str × Str) :=
  (Parser.init.registerAction "simulate".toList sampleRun).registerAction helpName sampleHelp

#guard match (⟨true, []⟩ : Help).performAction sampleTexts sampleParser with
  | .ok out => out = ("\n     help - Return information about the command line interface.\n" ++
      " simulate - Run a simulation.\n\n\n").toList
  | _ => false

#guard match (⟨true, "sim".toList⟩ : Help).performAction sampleTexts sampleParser with
  | .ok out => out = ("Displaying information on action: simulate\n\nRuns a simulation.\nThat takes a while.\n\n" ++
      "The parameters accepted by simulate are as follows.\n\n -fast [BOOL]   (default is off)\n" ++
      "   Whether to be fast.\n\n -steps INTEGER   (default is 10)\n   How many steps to make.\n").toList
  | _ => false

/-- An action whose `directOptions` makes a parameter of each word. -/
def wordsIface : Iface Str Unit := ⟨id, fun _ v => (v, none), fun ts x => (⟨x.params ++ ts, ()⟩, none)⟩

/-- The action `run` beside `help`. -/
def runAndHelp : Factory (Action Str (Help ⊕ Unit)) :=
  registerProduct (registerProduct (NameFactory.init "action".toList) "run".toList (some ⟨["a".toList], .inr ()⟩))
    helpName (some helpAction)

/-- The action `run` alone. -/
def runOnly : Factory (Action Str Unit) :=
  registerProduct (NameFactory.init "action".toList) "run".toList (some ⟨["a".toList], ()⟩)

#guard match parse (withHelp wordsIface) runAndHelp ["r".toList, "x".toList, "y".toList] with
  | .ok ⟨ps, .inr _⟩ => ps = ["a".toList, "x".toList, "y".toList]
  | _ => false

#guard match parse (withHelp wordsIface) runAndHelp ["he".toList, "run".toList] with
  | .ok ⟨ps, .inl h⟩ => ps = [] ∧ h.parserSet ∧ h.topic = "run".toList
  | _ => false

example : (names runAndHelp).Nodup ∧ (names runOnly).Nodup ∧ StandsFor (names runAndHelp) "r".toList "run".toList ∧
    StandsFor (names runOnly) "r".toList "run".toList ∧
    Registered runAndHelp "run".toList (some ⟨["a".toList], .inr ()⟩) ∧
    Registered runOnly "run".toList (some ⟨["a".toList], ()⟩) := by
  have e1 : names runAndHelp = ["run".toList, helpName] := rfl
  have e2 : names runOnly = ["run".toList] := rfl
  rw [e1, e2]
  refine ⟨by decide, by decide, ?_, ?_, by simp [Registered, runAndHelp, registerProduct, NameFactory.init],
    by simp [Registered, runOnly, registerProduct, NameFactory.init]⟩
  · refine ⟨by decide, .inr ⟨by decide, ⟨"un".toList, by decide⟩, ?_⟩⟩
    intro m hm hpre
    obtain ⟨r, rfl⟩ := hpre
    revert hm
    simp [helpName]
  · refine ⟨by decide, .inr ⟨by decide, ⟨"un".toList, by decide⟩, ?_⟩⟩
    intro m hm hpre
    obtain ⟨r, rfl⟩ := hpre
    revert hm
    simp

theorem sample_lists : Lists sampleParser.actions [(helpName, sampleHelp), ("simulate".toList, sampleRun)] where
  order := by
    simp only [Increasing, List.map_cons, List.map_nil, List.pairwise_cons, List.not_mem_nil, List.mem_singleton]
    refine ⟨fun b hb => ?_, by simp⟩
    subst hb
    rw [← strLt_iff]
    decide
  nodup := by decide
  all n a := by
    simp only [sampleParser, Parser.registerAction, Parser.init, NameFactory.init, registerProduct, Registered]
    simp only [List.nil_append, List.cons_append, List.mem_cons, Prod.mk.injEq, Option.some.injEq, List.not_mem_nil, or_false]
    tauto

set_option maxRecDepth 4000 in
example : ∃ out, (⟨true, []⟩ : Help).performAction sampleTexts sampleParser = .ok out ∧
    wordsOf out = wordsOf "help - Return information about the command line interface. simulate - Run a simulation.".toList := by
  obtain ⟨out, h, hw⟩ := help_list_words sampleTexts sampleParser (by decide) (by
    intro n x h
    simp only [sampleParser, Parser.registerAction, Parser.init, NameFactory.init, registerProduct, Registered] at h
    simp only [List.nil_append, List.cons_append, List.mem_cons, Prod.mk.injEq, List.not_mem_nil, or_false] at h
    rcases h with h | h <;> rw [h.2] <;> simp) _ sample_lists (by decide) (by decide) (by decide)
  refine ⟨out, h, ?_⟩
  rw [hw]
  decide

example : ∃ out, ShowsAction sampleTexts sampleRun out ∧
    (⟨true, "sim".toList⟩ : Help).performAction sampleTexts sampleParser = .ok out := by
  obtain ⟨out, h⟩ := help_topic_defined sampleTexts sampleRun
  refine ⟨out, h, (help_topic sampleTexts sampleParser (by decide) _ "simulate".toList (by decide) sampleRun
    ?_ ?_ (by decide) ⟨by decide, by decide, by decide⟩ out).mpr h⟩
  · refine ⟨by decide, .inr ⟨by decide, ⟨"ulate".toList, by decide⟩, ?_⟩⟩
    intro m hm hpre
    obtain ⟨r, rfl⟩ := hpre
    revert hm
    simp [names, sampleParser, Parser.registerAction, Parser.init, NameFactory.init, registerProduct, helpName]
  · exact (sample_lists.all _ _).mp (by simp)

/-- C71 does not hold: `registerAction(name)` allows another name than that of the action, and the list then shows a name
that stands for nothing. -/
theorem help_names_work_refuted :
    ∃ (T : Texts Unit Unit) (p : Parser Unit Unit) (out : Str), (names p.actions).Nodup ∧
      (⟨true, []⟩ : Help).performAction T p = .ok out ∧ ['g', 'o'] ∈ wordsOf out ∧
      (∃ msg, p.createActionWithPrefix ['g', 'o'] = .exn (.unknownName msg)) ∧
      ∃ msg, (⟨true, ['g', 'o']⟩ : Help).performAction T p = .exn (.unknownName msg) := by
  let T : Texts Unit Unit := ⟨fun _ => ['g', 'o'], fun _ => [], fun _ => ['x'], fun _ => [], fun _ => [], fun _ => [], fun _ => []⟩
  let p : Parser Unit Unit := Parser.init.registerAction ['r', 'u', 'n'] ⟨[], ()⟩
  have hd : (names p.actions).Nodup := by decide
  have hreg : ∀ n x, Registered p.actions n x ↔ n = ['r', 'u', 'n'] ∧ x = some ⟨[], ()⟩ := by
    intro n x
    simp [p, Parser.registerAction, Parser.init, NameFactory.init, registerProduct, Registered]
  have hl : Lists p.actions [(['r', 'u', 'n'], ⟨[], ()⟩)] :=
    ⟨by simp [Increasing], by simp, by intro n a; rw [hreg]; simp⟩
  obtain ⟨out, h1, h2⟩ := help_list_words T p hd (fun n x h => by rw [((hreg n x).mp h).2]; simp) _ hl
    (by decide) (by decide) (by decide)
  have hno : NoName (names p.actions) ['g', 'o'] := by
    intro n hn hpre
    obtain ⟨r, rfl⟩ := hpre
    revert hn
    simp [names, p, Parser.registerAction, Parser.init, NameFactory.init, registerProduct]
  refine ⟨T, p, out, hd, h1, ?_, ?_, ?_⟩
  · rw [h2]; decide
  · obtain ⟨msg, h, _⟩ := (unique_unknown_iff p.actions ['g', 'o']).mpr hno
    exact ⟨msg, ((createWithPrefix_spec p.actions ['g', 'o'] hd).2.1 _).mpr h⟩
  · obtain ⟨msg, h, _⟩ := (help_topic_errors T p hd ['g', 'o'] (by decide)).1 hno
    exact ⟨msg, h⟩

end Verif.Help
