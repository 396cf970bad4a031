import Verif.CliProofs

/-!
# Properties of the command line interface: C52, C53, C54, C68
-/

namespace Verif.Cli

open Verif.NameFactory Verif.Text

variable {Q A : Type}

/-! ## C52: integer parameters -/

/-- C52: an argument is accepted if and only if it is the decimal representation of a number below
2^32, and then that number is the new value. -/
theorem integer_accepts_iff (signed : Str → ℕ) (name : Str) (old : ℕ) (arg : Str) (p : Param) :
    (Param.integer name old).processArgument signed arg = (p, none) ↔
      ∃ n < 2 ^ 32, IsDecimal arg n ∧ p = .integer name n := by
  unfold Param.processArgument
  simp only
  constructor
  · intro h
    split at h
    · cases h
    · rename_i heq
      rw [ne_eq, not_not] at heq
      obtain ⟨hp, -⟩ := Prod.mk.inj h
      subst hp
      have hdec := decimal_isDecimal (extract signed arg old)
      rw [heq] at hdec
      refine ⟨_, ?_, hdec, rfl⟩
      have := extract_digits signed arg old hdec.nonempty hdec.digits
      have h2 : uintMax < 2 ^ 32 := by unfold uintMax; norm_num
      omega
  · rintro ⟨n, hn, hdec, rfl⟩
    have h1 := extract_digits signed arg old hdec.nonempty hdec.digits
    rw [hdec.value] at h1
    have h2 : min n uintMax = n := by unfold uintMax; omega
    rw [h2] at h1
    rw [h1, if_neg (by rw [ne_eq, not_not]; exact hdec.eq.symm)]

/-- C52: the outcome for all other arguments is an error. -/
theorem integer_rejects (signed : Str → ℕ) (name : Str) (old : ℕ) (arg : Str)
    (h : ∀ n < 2 ^ 32, ¬ IsDecimal arg n) :
    ((Param.integer name old).processArgument signed arg).2 = some (.error (integerMsg name)) := by
  unfold Param.processArgument
  simp only
  split
  · rfl
  · rename_i heq
    exfalso
    rw [ne_eq, not_not] at heq
    have : (Param.integer name old).processArgument signed arg =
        (.integer name (extract signed arg old), none) := by
      unfold Param.processArgument
      simp only
      rw [if_neg (by rw [ne_eq, not_not]; exact heq)]
    obtain ⟨n, h1, h2, _⟩ := (integer_accepts_iff signed name old arg _).mp this
    exact h n h1 h2

/-- An argument that is refused may change the value all the same: "12x" sets it to 12. -/
theorem integer_error_changes (signed : Str → ℕ) (name : Str) (old : ℕ) :
    (Param.integer name old).processArgument signed ['1', '2', 'x'] =
      (.integer name 12, some (.error (integerMsg name))) := by
  have : extract signed ['1', '2', 'x'] old = 12 := by
    unfold extract
    have h1 : List.dropWhile isSpace ['1', '2', 'x'] = ['1', '2', 'x'] := by decide
    have h2 : List.takeWhile Char.isDigit ['1', '2', 'x'] = ['1', '2'] := by decide
    rw [h1]
    simp only
    rw [if_neg (by decide), h2]
    decide
  unfold Param.processArgument
  simp only [this]
  rw [if_pos]
  intro h
  have := decimal_digits 12 'x' (by rw [h]; simp)
  revert this
  decide

/-- The range given in the error message is [0, 2^31-1], but 2^32-1 is accepted. -/
theorem integer_range (signed : Str → ℕ) (name : Str) (old : ℕ) :
    (Param.integer name old).processArgument signed (decimal (2 ^ 32 - 1)) = (.integer name (2 ^ 32 - 1), none) :=
  (integer_accepts_iff _ _ _ _ _).mpr ⟨2 ^ 32 - 1, by norm_num, decimal_isDecimal _, rfl⟩

/-! ## C54: bool parameters -/

/-- C54: exactly the empty argument, "on" and "off" are accepted; else the value stays. -/
theorem bool_accepts (signed : Str → ℕ) (name : Str) (old : Bool) (arg : Str) :
    (∀ p, (Param.bool name old).processArgument signed arg = (p, none) ↔
      ((arg = [] ∨ arg = ['o', 'n']) ∧ p = .bool name true) ∨ (arg = ['o', 'f', 'f'] ∧ p = .bool name false)) ∧
    (arg ≠ [] → arg ≠ ['o', 'n'] → arg ≠ ['o', 'f', 'f'] →
      ∃ msg, (Param.bool name old).processArgument signed arg = (.bool name old, some (.error msg)) ∧
        Contains msg arg) := by
  unfold Param.processArgument
  simp only
  constructor
  · intro p
    by_cases h1 : arg = [] ∨ arg = ['o', 'n']
    · rw [if_pos h1]
      constructor
      · intro h
        obtain ⟨hp, -⟩ := Prod.mk.inj h
        exact .inl ⟨h1, hp.symm⟩
      · rintro (⟨_, rfl⟩ | ⟨rfl, _⟩)
        · rfl
        · simp at h1
    · rw [if_neg h1]
      by_cases h2 : arg = ['o', 'f', 'f']
      · rw [if_pos h2]
        constructor
        · intro h
          obtain ⟨hp, -⟩ := Prod.mk.inj h
          exact .inr ⟨h2, hp.symm⟩
        · rintro (⟨h, _⟩ | ⟨_, rfl⟩)
          · exact absurd h h1
          · rfl
      · rw [if_neg h2]
        constructor
        · intro h; cases h
        · rintro (⟨h, _⟩ | ⟨h, _⟩)
          · exact absurd h h1
          · exact absurd h h2
  · intro h1 h2 h3
    rw [if_neg (by rintro (h | h); exacts [h1 h, h2 h]), if_neg h3]
    refine ⟨_, rfl, ?_⟩
    unfold boolMsg
    exact ⟨_, _, rfl⟩

/-! ## C68: values read back -/

/-- C68: the string that a parameter gives as its value is accepted by a parameter of the same kind
and sets that value. -/
theorem value_reads_back (signed : Str → ℕ) (name name' : Str) :
    (∀ v v', (Param.bool name v').processArgument signed (Param.bool name' v).valueAsString = (.bool name v, none)) ∧
    (∀ v < 2 ^ 32, ∀ v', (Param.integer name v').processArgument signed (Param.integer name' v).valueAsString =
      (.integer name v, none)) ∧
    (∀ v v', (Param.string name v').processArgument signed (Param.string name' v).valueAsString =
      (.string name v, none)) := by
  refine ⟨?_, ?_, fun _ _ => rfl⟩
  · intro v v'
    cases v <;> simp [Param.valueAsString, Param.processArgument]
  · intro v hv v'
    exact (integer_accepts_iff _ _ _ _ _).mpr ⟨v, hv, decimal_isDecimal v, rfl⟩

/-! ## C53: command lines -/

/-- C53: there is exactly one way to read the tokens. -/
theorem layout_unique (tokens : List Str) :
    ∃ direct groups rest, Layout tokens direct groups rest ∧
      ∀ direct' groups' rest', Layout tokens direct' groups' rest' →
        direct' = direct ∧ groups' = groups ∧ rest' = rest := by
  obtain ⟨d, g, r, h⟩ := layout_exists tokens
  refine ⟨d, g, r, h, fun d' g' r' h' => ?_⟩
  obtain ⟨a1, a2⟩ := layout_eq h
  obtain ⟨b1, b2⟩ := layout_eq h'
  rw [a1] at b1
  obtain ⟨e1, e2⟩ := Prod.mk.inj b1
  rw [← e1, a2] at b2
  obtain ⟨e3, e4⟩ := Prod.mk.inj b2
  exact ⟨e2.symm, e3.symm, e4.symm⟩

/-- An action that a name stands for, with distinct parameter names. -/
def Created (I : Iface Q A) (actions : Factory (Action Q A)) (first : Str) (x : Action Q A) : Prop :=
  (∃ n, StandsFor (names actions) first n ∧ Registered actions n (some x)) ∧ (x.params.map I.name).Nodup

/-- The outcomes of `parse` once the action is there and the tokens are laid out. -/
theorem parse_created {I : Iface Q A} (hI : I.Lawful) {actions : Factory (Action Q A)} (hd : (names actions).Nodup)
    {first : Str} {tokens direct rest : List Str} {groups : List (Str × Option Str)} {x : Action Q A}
    (hx : Created I actions first x) (hl : Layout tokens direct groups rest) :
    (∃ e, (I.direct direct x).2 = some e ∧ parse I actions (first :: tokens) = .exn e) ∨
    (∃ x', I.direct direct x = (x', none) ∧
      ((rest = [] ∧ ∃ ps, Runs I x'.params groups ps ∧ parse I actions (first :: tokens) = .ok ⟨ps, x'.own⟩) ∨
       ∃ e, Fails I x'.params groups rest e ∧ parse I actions (first :: tokens) = .exn e)) := by
  obtain ⟨hn, hp⟩ := hx
  obtain ⟨h1, h2⟩ := layout_eq hl
  have hc := ((createWithPrefix_spec actions first hd).1 (some x)).mpr hn
  unfold parse
  simp only [hc, bind_ok, h1]
  rcases hdir : I.direct direct x with ⟨x', e⟩
  cases e with
  | some e => exact .inl ⟨e, rfl, rfl⟩
  | none =>
    right
    refine ⟨x', rfl, ?_⟩
    have hnx : x'.params.map I.name = x.params.map I.name := by
      have := hI.direct direct x
      rw [hdir] at this
      exact this
    have hn1 : names (makeParamNames I x.params) = x'.params.map I.name := by
      rw [names_makeParamNames, hnx]
    have hd1 : (x'.params.map I.name).Nodup := by rw [hnx]; exact hp
    have hloop := optionLoop_eq I (makeParamNames I x.params) (groups.flatMap spell ++ rest) x'.params
    rw [h2] at hloop
    simp only
    rcases runG_cases hI (makeParamNames I x.params) groups x'.params hn1 hd1 with ⟨r, h3, h4⟩ | ⟨e, h3, h4⟩
    · cases hr : rest with
      | nil =>
        left
        refine ⟨rfl, r, h3, ?_⟩
        have := hloop.2 hr
        rw [hr] at this
        rw [this, h4]
        rfl
      | cons t rr =>
        right
        obtain ⟨msg, hm⟩ := hloop.1 t rr hr
        rw [hr] at hm
        refine ⟨.error msg, .inr ⟨by simp, r, h3, msg, rfl⟩, ?_⟩
        rw [hm, h4]
        rfl
    · right
      refine ⟨e, .inl h3, ?_⟩
      cases hr : rest with
      | nil =>
        have := hloop.2 hr
        rw [hr] at this
        rw [this, h4]
        rfl
      | cons t rr =>
        obtain ⟨msg, hm⟩ := hloop.1 t rr hr
        rw [hr] at hm
        rw [hm, h4]
        rfl

theorem runs_unique {I : Iface Q A} (hI : I.Lawful) {ps r r' : List Q} {gs : List (Str × Option Str)}
    (hd : (ps.map I.name).Nodup) (h : Runs I ps gs r) (h' : Runs I ps gs r') : r = r' := by
  have h1 := runG_ok hI (makeParamNames I ps) (names_makeParamNames I ps) hd h
  have h2 := runG_ok hI (makeParamNames I ps) (names_makeParamNames I ps) hd h'
  rw [h1] at h2
  cases h2
  rfl

/-- C53: `parse` succeeds if and only if all tokens are read, each option by its parameter, and the
result is the action with its parameters set accordingly. -/
theorem parse_ok_iff {I : Iface Q A} (hI : I.Lawful) {actions : Factory (Action Q A)} (hd : (names actions).Nodup)
    {first : Str} {tokens : List Str} {x : Action Q A} (hx : Created I actions first x) (y : Action Q A) :
    parse I actions (first :: tokens) = .ok y ↔
      ∃ direct groups x' ps, Layout tokens direct groups [] ∧ I.direct direct x = (x', none) ∧
        Runs I x'.params groups ps ∧ y = ⟨ps, x'.own⟩ := by
  obtain ⟨d, g, r, hl, huniq⟩ := layout_unique tokens
  have key := parse_created hI hd hx hl
  constructor
  · intro h
    rcases key with ⟨e, _, h2⟩ | ⟨x', h1, ⟨h2, ps, h3, h4⟩ | ⟨e, _, h4⟩⟩
    · rw [h] at h2; cases h2
    · rw [h] at h4; cases h4
      exact ⟨d, g, x', ps, h2 ▸ hl, h1, h3, rfl⟩
    · rw [h] at h4; cases h4
  · rintro ⟨d', g', x', ps, hl', h1, h2, rfl⟩
    obtain ⟨rfl, rfl, rfl⟩ := huniq _ _ _ hl'
    have hd1 : (x'.params.map I.name).Nodup := by
      have := hI.direct d' x
      rw [h1] at this
      rw [this]; exact hx.2
    have hrun := runG_ok hI (makeParamNames I x'.params) (names_makeParamNames I _) hd1 h2
    rcases key with ⟨e, h3, _⟩ | ⟨x'', h3, ⟨_, ps', h4, h5⟩ | ⟨e, h4, _⟩⟩
    · rw [h1] at h3; cases h3
    · rw [h1] at h3; cases h3
      rw [h5, runs_unique hI hd1 h4 h2]
    · rw [h1] at h3; cases h3
      exfalso
      rcases h4 with ⟨g1, gg, g2, ps', rfl, h6, h7⟩ | ⟨h, _⟩
      · -- the run goes past the option that cannot be processed
        have hr1 := runG_ok hI (makeParamNames I x'.params) (names_makeParamNames I _) hd1 h6
        have hnames := runs_names hI h6
        have hsplit : runG I (makeParamNames I x'.params) (g1 ++ gg :: g2) x'.params =
            (runG I (makeParamNames I x'.params) g1 x'.params).bind
              (runG I (makeParamNames I x'.params) (gg :: g2)) := runG_append _ _ _ _ _
        rw [hrun, hr1, bind_ok, runG] at hsplit
        have hbad := bad_stepG (pn := makeParamNames I x'.params) (by rw [names_makeParamNames, hnames])
          (by rw [hnames]; exact hd1) h7
        obtain ⟨e', he'⟩ := hbad
        rw [he'] at hsplit
        cases hsplit
      · exact h rfl

/-- C53: if `parse` throws once there is an action, then because the direct options or the options fail. -/
theorem parse_exn {I : Iface Q A} (hI : I.Lawful) {actions : Factory (Action Q A)} (hd : (names actions).Nodup)
    {first : Str} {tokens : List Str} {x : Action Q A} (hx : Created I actions first x) (e : Err)
    (h : parse I actions (first :: tokens) = .exn e) :
    ∃ direct groups rest, Layout tokens direct groups rest ∧
      ((I.direct direct x).2 = some e ∨
        ∃ x', I.direct direct x = (x', none) ∧ Fails I x'.params groups rest e) := by
  obtain ⟨d, g, r, hl, huniq⟩ := layout_unique tokens
  refine ⟨d, g, r, hl, ?_⟩
  rcases parse_created hI hd hx hl with ⟨e, h1, h2⟩ | ⟨x', h1, ⟨_, ps, h3, h4⟩ | ⟨e', h3, h4⟩⟩
  · rw [h] at h2; cases h2; exact .inl h1
  · rw [h] at h4; cases h4
  · rw [h] at h4; cases h4; exact .inr ⟨x', h1, h3⟩

/-- C53: the errors before there is an action. -/
theorem parse_no_action (I : Iface Q A) {actions : Factory (Action Q A)} (hd : (names actions).Nodup)
    (first : Str) (tokens : List Str) :
    (∃ msg, parse I actions [] = .exn (.unknownName msg)) ∧
    (NoName (names actions) first → ∃ msg, parse I actions (first :: tokens) = .exn (.unknownName msg)) ∧
    (TwoNames (names actions) first → ∃ msg, parse I actions (first :: tokens) = .exn (.ambiguousName msg)) := by
  refine ⟨⟨_, rfl⟩, fun h => ?_, fun h => ?_⟩
  · obtain ⟨msg, h1, _⟩ := (unique_unknown_iff actions first).mpr h
    refine ⟨msg, ?_⟩
    unfold parse
    simp only [((createWithPrefix_spec actions first hd).2.1 _).mpr h1]
    rfl
  · obtain ⟨msg, h1, _⟩ := (unique_ambiguous_iff actions first hd).mpr h
    refine ⟨msg, ?_⟩
    unfold parse
    simp only [((createWithPrefix_spec actions first hd).2.1 _).mpr h1]
    rfl

/-- C53: `parse` is always defined if no action is null and the names of parameters are distinct, and
the internal error in it does not happen: an internal error can only come from user code. -/
theorem parse_defined {I : Iface Q A} (hI : I.Lawful) {actions : Factory (Action Q A)} (hd : (names actions).Nodup)
    (hnull : ∀ n x, Registered actions n x → ∃ y, x = some y ∧ (y.params.map I.name).Nodup)
    (hi1 : ∀ q a msg, (I.process q a).2 ≠ some (.internal msg))
    (hi2 : ∀ ts x msg, (I.direct ts x).2 ≠ some (.internal msg)) (commandLine : List Str) :
    parse I actions commandLine ≠ .ub ∧ ∀ msg, parse I actions commandLine ≠ .exn (.internal msg) := by
  cases commandLine with
  | nil => exact ⟨by simp [parse], fun msg h => by (simp only [parse] at h; injection h with h; cases h)⟩
  | cons first tokens =>
    rcases lookup_cases (names actions) first with ⟨n, h⟩ | h | h
    · obtain ⟨⟨m, x⟩, h1, h2⟩ := List.mem_map.mp h.1
      cases h2
      obtain ⟨y, rfl, hy⟩ := hnull _ _ h1
      have hx : Created I actions first y := ⟨⟨_, h, h1⟩, hy⟩
      obtain ⟨d, g, r, hl, _⟩ := layout_unique tokens
      rcases parse_created hI hd hx hl with ⟨e, h1, h2⟩ | ⟨x', h1, ⟨_, ps, h3, h4⟩ | ⟨e', h3, h4⟩⟩
      · rw [h2]
        refine ⟨by simp, fun msg he => ?_⟩
        cases he
        exact hi2 _ _ _ h1
      · rw [h4]; exact ⟨by simp, by simp⟩
      · rw [h4]
        refine ⟨by simp, fun msg he => ?_⟩
        cases he
        rcases h3 with ⟨_, gg, _, ps', _, _, hb⟩ | ⟨_, _, _, msg', hm⟩
        · rcases hb with ⟨_, m, hm⟩ | ⟨_, m, hm⟩ | ⟨u, v, q, q', _, _, hq⟩
          · cases hm
          · cases hm
          · exact hi1 q _ msg (by rw [hq])
        · cases hm
    · obtain ⟨msg, hm⟩ := (parse_no_action I hd first tokens).2.1 h
      rw [hm]; exact ⟨by simp, fun _ h => by (injection h with h; cases h)⟩
    · obtain ⟨msg, hm⟩ := (parse_no_action I hd first tokens).2.2 h
      rw [hm]; exact ⟨by simp, fun _ h => by (injection h with h; cases h)⟩

/-- C53: an action name whose factory function gives a null pointer is undefined behaviour. -/
theorem parse_null (I : Iface Q A) {actions : Factory (Action Q A)} (hd : (names actions).Nodup) {first n : Str}
    (h1 : StandsFor (names actions) first n) (h2 : Registered actions n none) (tokens : List Str) :
    parse I actions (first :: tokens) = .ub := by
  have hc := ((createWithPrefix_spec actions first hd).1 none).mpr ⟨n, h1, h2⟩
  unfold parse
  simp only [hc, bind_ok]

/-! ## The parameters and direct options of the library -/

/-- The parameters of the library with the default `directOptions`. -/
def library (signed : Str → ℕ) : Iface Param Unit where
  name := Param.name
  process := Param.processArgument signed
  direct := defaultDirect

theorem library_lawful (signed : Str → ℕ) : (library signed).Lawful where
  process q a := by
    cases q with
    | bool n v =>
      simp only [library, Param.processArgument]
      split
      · rfl
      · split <;> rfl
    | integer n v =>
      simp only [library, Param.processArgument]
      split <;> rfl
    | string n v => rfl
  direct ts x := by cases ts <;> rfl

def sampleAction : Action Param Unit :=
  ⟨[.integer "seed".toList 0, .bool "verbose".toList false, .string "sort".toList "none".toList], ()⟩

def sampleActions : Factory (Action Param Unit) :=
  registerProduct (init "action".toList) "run".toList (some sampleAction)

/-- A command line: `r -se 12 -v -sort fast`. -/
example : ∀ msg, parse (library fun _ => 0) sampleActions
    ["r".toList, "-se".toList, "12".toList, "-v".toList, "-sort".toList, "fast".toList] ≠ .exn (.internal msg) := by
  refine (parse_defined (library_lawful _) (by decide) ?_ ?_ ?_ _).2
  · intro n x h
    simp only [Registered, sampleActions, registerProduct, init, List.nil_append, List.mem_singleton,
      Prod.mk.injEq] at h
    refine ⟨sampleAction, h.2, ?_⟩
    show (sampleAction.params.map Param.name).Nodup
    decide
  · intro q a msg
    cases q <;> simp only [library, Param.processArgument] <;> (try split) <;> (try split) <;> simp
  · intro ts x msg
    cases ts <;> simp [library, defaultDirect]

def sampleRun (l : List String) : Option (List Param) :=
  match parse (library fun _ => 0) sampleActions (l.map String.toList) with
  | .ok x => some x.params
  | _ => none

#guard sampleRun ["r", "-se", "12", "", "-v", "-sort", "fast"] ==
  some [.integer "seed".toList 12, .bool "verbose".toList true, .string "sort".toList "fast".toList]
#guard sampleRun ["r", "-s", "12"] == none
#guard sampleRun ["r", "x", "-se", "12"] == none
#guard sampleRun ["r", "-se", "12", "13"] == none
#guard sampleRun ["r", "-se", "012"] == none
-- The argument -1 is taken for an option.
#guard sampleRun ["r", "-sort", "-1"] == none
-- An empty argument cannot be given: the next token is the argument.
#guard sampleRun ["r", "-sort", "", "on"] ==
  some [.integer "seed".toList 0, .bool "verbose".toList false, .string "sort".toList "on".toList]

end Verif.Cli
