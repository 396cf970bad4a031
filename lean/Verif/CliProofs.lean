import Verif.CliSpec
import Verif.NameFactoryProofs
import Verif.PropNameFactory
import Verif.TextProofs

namespace Verif.Cli

open Verif.NameFactory Verif.Text

variable {Q A : Type}

/-! ## Parameters -/

theorem digitsValue_eq (s : List Char) (n : ℕ) :
    digitsValue s n = s.foldl (fun a c => 10 * a + digitValue c) n := by
  induction s generalizing n with
  | nil => rfl
  | cons c s ih => rw [digitsValue, ih]; rfl

theorem not_space_of_digit {c : Char} (h : c.isDigit = true) : isSpace c = false := by
  rw [isDigit_iff] at h
  unfold isSpace
  simp only [Bool.or_eq_false_iff, decide_eq_false_iff_not, Bool.and_eq_false_imp, decide_eq_true_eq]
  refine ⟨?_, by omega⟩
  rintro rfl
  revert h
  decide

theorem not_sign_of_digit {c : Char} (h : c.isDigit = true) : ¬ (c = '+' ∨ c = '-') := by
  rintro (rfl | rfl) <;> revert h <;> decide

theorem takeWhile_all {p : Char → Bool} {l : List Char} (h : ∀ c ∈ l, p c = true) : l.takeWhile p = l := by
  induction l with
  | nil => rfl
  | cons c l ih => rw [List.takeWhile_cons, if_pos (h c (by simp)), ih (fun x hx => h x (by simp [hx]))]

theorem extract_digits (signed : Str → ℕ) (s : Str) (old : ℕ) (hne : s ≠ []) (hd : ∀ c ∈ s, c.isDigit = true) :
    extract signed s old = min (value s) uintMax := by
  cases s with
  | nil => exact absurd rfl hne
  | cons c s =>
    have h1 : (c :: s).dropWhile isSpace = c :: s := by
      rw [List.dropWhile_cons, not_space_of_digit (hd c (by simp))]; rfl
    have h2 : (c :: s).takeWhile Char.isDigit = c :: s := takeWhile_all hd
    unfold extract
    rw [h1]
    simp only
    rw [if_neg (not_sign_of_digit (hd c (by simp))), h2, digitsValue_eq]
    rfl

/-! ## Layouts -/

theorem isOption_iff (t : Str) : IsOption t ↔ t.head? = some '-' := by
  unfold IsOption
  cases t with
  | nil => simp
  | cons c t => simp

instance (t : Str) : Decidable (IsOption t) := decidable_of_iff _ (isOption_iff t).symm

/-- The options of a list of tokens that starts with one. -/
def groupsOf : List Str → List (Str × Option Str) × List Str
  | [] => ([], [])
  | token :: rest =>
    match token with
    | '-' :: p =>
      match rest with
      | [] => ([(p, none)], [])
      | next :: rest' =>
        if next.head? ≠ some '-' then ((p, some next) :: (groupsOf rest').1, (groupsOf rest').2)
        else ((p, none) :: (groupsOf (next :: rest')).1, (groupsOf (next :: rest')).2)
    | _ => ([], token :: rest)
termination_by tokens => tokens.length

theorem groupsOf_stray (t : Str) (rest : List Str) (h : ¬ IsOption t) : groupsOf (t :: rest) = ([], t :: rest) := by
  rw [groupsOf]
  intro p hp
  exact h ⟨p, hp⟩

theorem groupsOf_spell (gs : List (Str × Option Str)) (r : List Str)
    (ha : ∀ g ∈ gs, ∀ a, g.2 = some a → ¬ IsOption a)
    (hr : r = [] ∨ (∃ t r', r = t :: r' ∧ ¬ IsOption t) ∧ ∀ g, gs.getLast? = some g → g.2 ≠ none) :
    groupsOf (gs.flatMap spell ++ r) = (gs, r) := by
  induction gs with
  | nil =>
    rcases hr with rfl | ⟨⟨t, r', rfl, ht⟩, _⟩
    · simp [groupsOf]
    · simpa using groupsOf_stray t r' ht
  | cons g gs ih =>
    obtain ⟨p, a⟩ := g
    have ih := ih (fun g hg => ha g (by simp [hg])) (by
      rcases hr with h | ⟨h1, h2⟩
      · exact .inl h
      · refine .inr ⟨h1, fun g hg => h2 g ?_⟩
        cases gs with
        | nil => simp at hg
        | cons x gs => rw [List.getLast?_cons_cons]; exact hg)
    cases a with
    | some a =>
      have hna := ha (p, some a) (by simp) a rfl
      rw [isOption_iff] at hna
      have e : ((p, some a) :: gs).flatMap spell ++ r = ('-' :: p) :: a :: (gs.flatMap spell ++ r) := by
        simp [spell]
      rw [e, groupsOf]
      simp only [ne_eq, hna, not_false_eq_true, if_true, ih]
    | none =>
      cases gs with
      | nil =>
        rcases hr with rfl | ⟨_, h⟩
        · simp [spell, groupsOf]
        · exact absurd rfl (h (p, none) rfl)
      | cons x gs =>
        obtain ⟨p', a'⟩ := x
        have e : ((p, none) :: (p', a') :: gs).flatMap spell ++ r =
            ('-' :: p) :: ('-' :: p') :: (a'.toList ++ gs.flatMap spell ++ r) := by simp [spell]
        have e' : ((p', a') :: gs).flatMap spell ++ r = ('-' :: p') :: (a'.toList ++ gs.flatMap spell ++ r) := by
          simp [spell]
        rw [e'] at ih
        rw [e, groupsOf]
        simp only [List.head?_cons, ne_eq, not_true_eq_false, if_false, ih]

theorem groupsOf_sound (l : List Str) :
    l = (groupsOf l).1.flatMap spell ++ (groupsOf l).2 ∧
    (∀ g ∈ (groupsOf l).1, ∀ a, g.2 = some a → ¬ IsOption a) ∧
    ((groupsOf l).2 = [] ∨ (∃ t r', (groupsOf l).2 = t :: r' ∧ ¬ IsOption t) ∧
      ∀ g, (groupsOf l).1.getLast? = some g → g.2 ≠ none) := by
  fun_induction groupsOf l with
  | case1 => simp
  | case2 p => simp [spell]
  | case3 p next rest' h ih =>
    obtain ⟨h1, h2, h3⟩ := ih
    refine ⟨by simp only [List.flatMap_cons, spell, Option.toList, List.cons_append, List.nil_append, ← h1], ?_, ?_⟩
    · intro g hg a ha
      rcases List.mem_cons.mp hg with rfl | hg
      · cases ha; rwa [isOption_iff]
      · exact h2 g hg a ha
    · rcases h3 with h3 | ⟨h3, h4⟩
      · exact .inl h3
      · refine .inr ⟨h3, fun g hg => ?_⟩
        cases hx : (groupsOf rest').1 with
        | nil => rw [hx] at hg; simp at hg; rw [← hg]; simp
        | cons y ys =>
          rw [hx, List.getLast?_cons_cons, ← hx] at hg
          exact h4 g hg
  | case4 p next rest' h ih =>
    obtain ⟨h1, h2, h3⟩ := ih
    refine ⟨by simp only [List.flatMap_cons, spell, Option.toList, List.cons_append, List.nil_append, ← h1], ?_, ?_⟩
    · intro g hg a ha
      rcases List.mem_cons.mp hg with rfl | hg
      · cases ha
      · exact h2 g hg a ha
    · rcases h3 with h3 | ⟨h3, h4⟩
      · exact .inl h3
      · refine .inr ⟨h3, fun g hg => ?_⟩
        cases hx : (groupsOf (next :: rest')).1 with
        | nil =>
          rw [hx] at h1
          obtain ⟨t, r, h5, h6⟩ := h3
          rw [h5] at h1
          simp at h1
          rw [not_not, h1.1, ← isOption_iff] at h
          exact absurd h h6
        | cons y ys =>
          rw [hx, List.getLast?_cons_cons, ← hx] at hg
          exact h4 g hg
  | case5 token rest h =>
    refine ⟨by simp, by simp, .inr ⟨⟨token, rest, rfl, ?_⟩, by simp⟩⟩
    rintro ⟨p, rfl⟩
    exact h p rfl

theorem splitLoop_eq (ts : List Str) (d : Bool) (o di : List Str) :
    splitLoop ts d o di =
      if d then (o ++ ts.filter (fun t => t ≠ []), di)
      else (o ++ (ts.filter (fun t => t ≠ [])).dropWhile (fun t => ¬ IsOption t),
        di ++ (ts.filter (fun t => t ≠ [])).takeWhile (fun t => ¬ IsOption t)) := by
  induction ts generalizing d o di with
  | nil => cases d <;> simp [splitLoop]
  | cons t ts ih =>
    rw [splitLoop]
    by_cases h0 : t = []
    · rw [if_pos h0, ih]
      simp [h0]
    · rw [if_neg h0]
      by_cases hd : t.head? = some '-'
      · have := (isOption_iff t).mpr hd
        simp only [hd, if_true, ih]
        cases d <;> simp [h0, this]
      · have := mt (isOption_iff t).mp hd
        simp only [hd, if_false]
        cases d <;> simp [h0, this, ih]

theorem takeWhile_append_option {p : Str → Bool} (a b : List Str) (ha : ∀ t ∈ a, p t = true)
    (hb : ∀ t, b.head? = some t → p t = false) : (a ++ b).takeWhile p = a ∧ (a ++ b).dropWhile p = b := by
  induction a with
  | nil =>
    cases b with
    | nil => simp
    | cons t b => simp [hb t rfl]
  | cons x a ih =>
    obtain ⟨h1, h2⟩ := ih (fun t ht => ha t (by simp [ht]))
    simp [ha x (by simp), h1, h2]

theorem layout_eq {tokens direct : List Str} {groups : List (Str × Option Str)} {rest : List Str}
    (h : Layout tokens direct groups rest) :
    splitLoop tokens false [] [] = (groups.flatMap spell ++ rest, direct) ∧
    groupsOf (groups.flatMap spell ++ rest) = (groups, rest) := by
  obtain ⟨h1, h2, h3, h4⟩ := h
  have hg : groupsOf (groups.flatMap spell ++ rest) = (groups, rest) := by
    apply groupsOf_spell _ _ h3
    rcases h4 with h | ⟨h5, g, a, h6, h7⟩
    · exact .inl h
    · refine .inr ⟨h5, fun g' hg' => ?_⟩
      rw [h6] at hg'; cases hg'; rw [h7]; simp
  refine ⟨?_, hg⟩
  rw [splitLoop_eq]
  simp only [Bool.false_eq_true, if_false, List.nil_append]
  rw [h1, List.append_assoc]
  obtain ⟨g1, g2⟩ := takeWhile_append_option (p := fun t => decide (¬ IsOption t)) direct
    (groups.flatMap spell ++ rest) (fun t ht => by simpa using h2 t ht) (by
      intro t ht
      cases groups with
      | nil =>
        rcases h4 with rfl | ⟨_, g, a, h6, _⟩
        · simp at ht
        · simp at h6
      | cons g gs =>
        simp only [List.flatMap_cons, spell, List.cons_append, List.head?_cons, Option.some.injEq] at ht
        subst ht
        simp [IsOption])
  rw [g1, g2]

theorem layout_exists (tokens : List Str) : ∃ direct groups rest, Layout tokens direct groups rest := by
  set l := tokens.filter (fun t => t ≠ []) with hl
  set o := l.dropWhile (fun t => ¬ IsOption t) with ho
  obtain ⟨h1, h2, h3⟩ := groupsOf_sound o
  refine ⟨l.takeWhile (fun t => ¬ IsOption t), (groupsOf o).1, (groupsOf o).2, ?_, ?_, h2, ?_⟩
  · rw [List.append_assoc, ← h1, ← hl, ho, List.takeWhile_append_dropWhile]
  · intro t ht
    have := List.all_takeWhile (p := fun t => decide (¬ IsOption t)) (l := l)
    rw [List.all_eq_true] at this
    simpa using this t ht
  · rcases h3 with h3 | ⟨h3, h4⟩
    · exact .inl h3
    · refine .inr ⟨h3, ?_⟩
      cases hx : (groupsOf o).1.getLast? with
      | none =>
        rw [List.getLast?_eq_none_iff] at hx
        rw [hx] at h1
        obtain ⟨t, r, h5, h6⟩ := h3
        rw [h5] at h1
        have hhead : o.head? = some t := by rw [h1]; rfl
        rw [ho] at hhead
        have := List.head?_dropWhile_not (fun t => decide (¬ IsOption t)) l
        rw [hhead] at this
        simp at this
        exact absurd this h6
      | some g =>
        cases ha : g.2 with
        | none => exact absurd ha (h4 g hx)
        | some a => exact ⟨g, a, rfl, ha⟩

/-! ## The loop over options -/

theorem names_makeParamNames (I : Iface Q A) (ps : List Q) : names (makeParamNames I ps) = ps.map I.name := by
  have : ∀ (f : Factory Unit), names (ps.foldl (fun names q => registerProduct names (I.name q) none) f) =
      names f ++ ps.map I.name := by
    induction ps with
    | nil => intro f; simp
    | cons q ps ih => intro f; rw [List.foldl_cons, ih]; simp [names, registerProduct]
  rw [makeParamNames, this]; rfl

/-- One option. -/
def stepG (I : Iface Q A) (pn : Factory Unit) (g : Str × Option Str) (ps : List Q) : Res (List Q) :=
  (uniqueNameWithPrefix pn g.1).bind fun name => applyParam I name (g.2.getD []) ps

/-- All options. -/
def runG (I : Iface Q A) (pn : Factory Unit) : List (Str × Option Str) → List Q → Res (List Q)
  | [], ps => .ok ps
  | g :: gs, ps => (stepG I pn g ps).bind (runG I pn gs)

theorem bind_assoc {α β γ : Type} (r : Res α) (f : α → Res β) (g : β → Res γ) :
    (r.bind f).bind g = r.bind fun a => (f a).bind g := by cases r <;> rfl

theorem bind_ok {α β : Type} (a : α) (f : α → Res β) : (Res.ok a).bind f = f a := rfl

theorem optionLoop_eq (I : Iface Q A) (pn : Factory Unit) (l : List Str) (ps : List Q) :
    (∀ t r, (groupsOf l).2 = t :: r → ∃ msg, optionLoop I pn l ps =
      (runG I pn (groupsOf l).1 ps).bind fun _ => .exn (.error msg)) ∧
    ((groupsOf l).2 = [] → optionLoop I pn l ps = runG I pn (groupsOf l).1 ps) := by
  fun_induction groupsOf l generalizing ps with
  | case1 => simp [optionLoop, runG]
  | case2 p =>
    refine ⟨by simp, fun _ => ?_⟩
    rw [optionLoop]
    simp only [runG, stepG, Option.getD_none, bind_assoc, optionLoop]
  | case3 p next rest' h ih =>
    rw [optionLoop]
    simp only [runG, stepG, Option.getD_some, bind_assoc]
    simp only [if_pos h]
    constructor
    · intro t r ht
      have ih := fun ps => (ih ps).1 t r ht
      cases hu : uniqueNameWithPrefix pn p with
      | ok n =>
        simp only [bind_ok]
        cases ha : applyParam I n next ps with
        | ok ps' => exact ih ps'
        | exn e => exact ⟨[], rfl⟩
        | ub => exact ⟨[], rfl⟩
      | exn e => exact ⟨[], rfl⟩
      | ub => exact ⟨[], rfl⟩
    · intro ht
      have ih := fun ps => (ih ps).2 ht
      simp only [ih]
  | case4 p next rest' h ih =>
    rw [optionLoop]
    simp only [runG, stepG, Option.getD_none, bind_assoc]
    simp only [if_neg h]
    constructor
    · intro t r ht
      have ih := fun ps => (ih ps).1 t r ht
      cases hu : uniqueNameWithPrefix pn p with
      | ok n =>
        simp only [bind_ok]
        cases ha : applyParam I n [] ps with
        | ok ps' => exact ih ps'
        | exn e => exact ⟨[], rfl⟩
        | ub => exact ⟨[], rfl⟩
      | exn e => exact ⟨[], rfl⟩
      | ub => exact ⟨[], rfl⟩
    · intro ht
      have ih := fun ps => (ih ps).2 ht
      simp only [ih]
  | case5 token rest h =>
    refine ⟨?_, by simp⟩
    intro t r _
    rw [optionLoop]
    · exact ⟨_, rfl⟩
    · exact h

theorem applyParam_eq (I : Iface Q A) (u v : List Q) (q : Q) (arg : Str)
    (hd : ((u ++ q :: v).map I.name).Nodup) :
    applyParam I (I.name q) arg (u ++ q :: v) =
      match I.process q arg with
      | (q', none) => .ok (u ++ q' :: v)
      | (_, some e) => .exn e := by
  induction u with
  | nil => rw [List.nil_append, applyParam, if_pos rfl]; rfl
  | cons x u ih =>
    rw [List.cons_append, List.map_cons, List.nodup_cons] at hd
    rw [List.cons_append, applyParam, if_neg, ih hd.2]
    · rcases hp : I.process q arg with ⟨q', e⟩
      cases e <;> simp [Res.bind]
    · intro e
      apply hd.1
      rw [e]
      simp

theorem runs_names {I : Iface Q A} (hI : I.Lawful) {ps r : List Q} {gs : List (Str × Option Str)}
    (h : Runs I ps gs r) : r.map I.name = ps.map I.name := by
  induction h with
  | nil => rfl
  | cons u v q q' p a gs r h1 h2 h3 ih =>
    have := hI.process q (a.getD [])
    rw [h2] at this
    rw [ih]
    simp [this]

/-- The lookup in the factory of the names of the parameters. -/
theorem stepG_cases (I : Iface Q A) (pn : Factory Unit) (ps : List Q) (g : Str × Option Str)
    (hn : names pn = ps.map I.name) (hd : (ps.map I.name).Nodup) :
    (∃ u v q q', ps = u ++ q :: v ∧ StandsFor (ps.map I.name) g.1 (I.name q) ∧
      I.process q (g.2.getD []) = (q', none) ∧ stepG I pn g ps = .ok (u ++ q' :: v)) ∨
    (∃ e, Bad I ps g e ∧ stepG I pn g ps = .exn e) := by
  have hd' := hd
  rw [← hn] at hd'
  unfold stepG
  rcases unique_outcomes pn g.1 with ⟨n, h⟩ | ⟨msg, h⟩ | ⟨msg, h⟩
  · have hs := (unique_ok_iff pn g.1 n hd').mp h
    rw [hn] at hs
    obtain ⟨q, hq, hqn⟩ := List.mem_map.mp hs.1
    obtain ⟨u, v, rfl⟩ := List.append_of_mem hq
    subst hqn
    rw [h]
    simp only [Res.bind]
    rw [applyParam_eq I u v q _ hd]
    rcases hp : I.process q (g.2.getD []) with ⟨q', e⟩
    cases e with
    | none => exact .inl ⟨u, v, q, q', rfl, hs, hp, rfl⟩
    | some e => exact .inr ⟨e, .inr (.inr ⟨u, v, q, q', rfl, hs, hp⟩), rfl⟩
  · right
    rw [h]
    refine ⟨_, .inl ⟨?_, msg, rfl⟩, rfl⟩
    rw [← hn]
    rcases unique_cases pn g.1 with ⟨_, h'⟩ | ⟨_, hl, _, h', _⟩ | ⟨_, _, _, h'⟩ | ⟨_, _, h'⟩
    · rw [h] at h'; cases h'
    · intro x hx hx2
      have := (mem_namesWithPrefix pn g.1 x).mpr ⟨hx, hx2⟩
      rw [hl] at this; cases this
    · rw [h] at h'; cases h'
    · rw [h] at h'; injection h' with h'; cases h'
  · right
    rw [h]
    refine ⟨_, .inr (.inl ⟨?_, msg, rfl⟩), rfl⟩
    rw [← hn]
    rcases unique_cases pn g.1 with ⟨_, h'⟩ | ⟨_, _, _, h', _⟩ | ⟨_, _, _, h'⟩ | ⟨hp, hl, h'⟩
    · rw [h] at h'; cases h'
    · rw [h] at h'; injection h' with h'; cases h'
    · rw [h] at h'; cases h'
    · have hnd : (namesWithPrefix pn g.1 []).Nodup := by
        rw [(namesWithPrefix_perm pn g.1 []).nodup_iff]
        exact hd'.filter _
      match hx : namesWithPrefix pn g.1 [], hl with
      | a :: b :: l, _ =>
        have ha := (mem_namesWithPrefix pn g.1 a).mp (by rw [hx]; simp)
        have hb := (mem_namesWithPrefix pn g.1 b).mp (by rw [hx]; simp)
        rw [hx, List.nodup_cons] at hnd
        refine ⟨hp, a, ha.1, b, hb.1, ?_, ha.2, hb.2⟩
        rintro rfl
        exact hnd.1 (by simp)

theorem standsFor_unique {l : List Str} {p m n : Str} (h1 : StandsFor l p m) (h2 : StandsFor l p n) : m = n := by
  obtain ⟨a1, a2⟩ := h1
  obtain ⟨b1, b2⟩ := h2
  rcases a2 with rfl | ⟨a2, a3, a4⟩
  · rcases b2 with rfl | ⟨b2, _⟩
    · rfl
    · exact absurd a1 b2
  · rcases b2 with rfl | ⟨_, b3, _⟩
    · exact absurd b1 a2
    · exact (a4 n b1 b3).symm

theorem split_unique {I : Iface Q A} {u v u' v' : List Q} {q q' : Q}
    (h : u ++ q :: v = u' ++ q' :: v') (hn : I.name q = I.name q')
    (hd : ((u ++ q :: v).map I.name).Nodup) : u = u' ∧ q = q' ∧ v = v' := by
  induction u generalizing u' with
  | nil =>
    cases u' with
    | nil => simp at h; exact ⟨rfl, h.1, h.2⟩
    | cons x u' =>
      simp only [List.nil_append, List.cons_append, List.cons.injEq] at h
      rw [List.nil_append, List.map_cons, List.nodup_cons, h.2, hn] at hd
      exact absurd (by simp) hd.1
  | cons x u ih =>
    cases u' with
    | nil =>
      simp only [List.nil_append, List.cons_append, List.cons.injEq] at h
      rw [List.cons_append, List.map_cons, List.nodup_cons, h.1, ← hn] at hd
      exact absurd (by simp) hd.1
    | cons y u' =>
      simp only [List.cons_append, List.cons.injEq] at h
      rw [List.cons_append, List.map_cons, List.nodup_cons] at hd
      obtain ⟨h1, h2, h3⟩ := ih h.2 hd.2
      exact ⟨by rw [h.1, h1], h2, h3⟩

theorem runG_ok {I : Iface Q A} (hI : I.Lawful) (pn : Factory Unit) {ps r : List Q} {gs : List (Str × Option Str)}
    (hn : names pn = ps.map I.name) (hd : (ps.map I.name).Nodup) (h : Runs I ps gs r) :
    runG I pn gs ps = .ok r := by
  induction h with
  | nil => rfl
  | cons u v q q' p a gs r h1 h2 h3 ih =>
    have hnm := hI.process q (a.getD [])
    rw [h2] at hnm
    have e : (u ++ q' :: v).map I.name = (u ++ q :: v).map I.name := by simp [hnm]
    rw [runG]
    unfold stepG
    rw [(unique_ok_iff pn p _ (by rw [hn]; exact hd)).mpr (by rw [hn]; exact h1)]
    simp only [Res.bind]
    rw [applyParam_eq I u v q _ hd, h2]
    exact ih (by rw [hn, e]) (by rw [e]; exact hd)

/-- Exactly one of the outcomes. -/
theorem runG_cases {I : Iface Q A} (hI : I.Lawful) (pn : Factory Unit) (gs : List (Str × Option Str)) (ps : List Q)
    (hn : names pn = ps.map I.name) (hd : (ps.map I.name).Nodup) :
    (∃ r, Runs I ps gs r ∧ runG I pn gs ps = .ok r) ∨
    (∃ e, (∃ g1 g g2 ps', gs = g1 ++ g :: g2 ∧ Runs I ps g1 ps' ∧ Bad I ps' g e) ∧ runG I pn gs ps = .exn e) := by
  induction gs generalizing ps with
  | nil => exact .inl ⟨ps, .nil ps, rfl⟩
  | cons g gs ih =>
    rcases stepG_cases I pn ps g hn hd with ⟨u, v, q, q', rfl, h1, h2, h3⟩ | ⟨e, h1, h2⟩
    · have hnm := hI.process q (g.2.getD [])
      rw [h2] at hnm
      have e : (u ++ q' :: v).map I.name = (u ++ q :: v).map I.name := by simp [hnm]
      rcases ih (u ++ q' :: v) (by rw [hn, e]) (by rw [e]; exact hd) with ⟨r, h4, h5⟩ | ⟨e', ⟨g1, g', g2, ps', h4, h5, h6⟩, h7⟩
      · exact .inl ⟨r, .cons u v q q' g.1 g.2 gs r h1 h2 h4, by rw [runG, h3]; exact h5⟩
      · refine .inr ⟨e', ⟨g :: g1, g', g2, ps', by rw [h4]; rfl, .cons u v q q' g.1 g.2 g1 ps' h1 h2 h5, h6⟩, ?_⟩
        rw [runG, h3]; exact h7
    · exact .inr ⟨e, ⟨[], g, gs, ps, rfl, .nil ps, h1⟩, by rw [runG, h2]; rfl⟩

theorem runG_append (I : Iface Q A) (pn : Factory Unit) (g1 g2 : List (Str × Option Str)) (ps : List Q) :
    runG I pn (g1 ++ g2) ps = (runG I pn g1 ps).bind (runG I pn g2) := by
  induction g1 generalizing ps with
  | nil => rfl
  | cons g g1 ih =>
    rw [List.cons_append, runG, runG, bind_assoc]
    congr 1
    funext x
    exact ih x

theorem standsFor_not_noName {l : List Str} {p n : Str} (h : StandsFor l p n) : ¬ NoName l p := by
  intro h0
  rcases h.2 with e | ⟨_, h2, _⟩
  · exact h0 n h.1 (by rw [e]; exact isPrefixOf_self p)
  · exact h0 n h.1 h2

theorem standsFor_not_twoNames {l : List Str} {p n : Str} (h : StandsFor l p n) : ¬ TwoNames l p := by
  rintro ⟨h1, a, ha, b, hb, hne, h2, h3⟩
  rcases h.2 with e | ⟨_, _, h4⟩
  · exact h1 (e ▸ h.1)
  · exact hne ((h4 a ha h2).trans (h4 b hb h3).symm)

theorem bad_stepG {I : Iface Q A} {pn : Factory Unit} {ps : List Q} {g : Str × Option Str} {e : Err}
    (hn : names pn = ps.map I.name) (hd : (ps.map I.name).Nodup) (h : Bad I ps g e) :
    ∃ e', stepG I pn g ps = .exn e' := by
  rcases stepG_cases I pn ps g hn hd with ⟨u, v, q, q', h0, h1, h2, h3⟩ | ⟨e', _, h2⟩
  · exfalso
    rcases h with ⟨h, _⟩ | ⟨h, _⟩ | ⟨u', v', x, x', h4, h5, h6⟩
    · exact standsFor_not_noName h1 h
    · exact standsFor_not_twoNames h1 h
    · have hnm := standsFor_unique h1 h5
      have := (split_unique (I := I) (h0.symm.trans h4) hnm (by rw [← h0]; exact hd)).2.1
      subst this
      rw [h2] at h6
      cases h6
  · exact ⟨e', h2⟩

end Verif.Cli
