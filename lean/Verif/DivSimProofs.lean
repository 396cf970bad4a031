import Verif.DivSimSpec
import Verif.MinimizeProofs
import Verif.PropDivMask

/-!
# Lemmas on the simulation of divisor finders
-/

namespace Verif.DivSim

variable {n : ℕ}

/-! ## Checks as a function of answers -/

/-- The check of an event with an answer. -/
def check (findAll : Bool) (e : Event n) : Answer → Option (Out (Event n))
  | .count k => if e.isInsert then checkInsert e k else if findAll then checkQuery e k else none
  | .found b => if e.isInsert || findAll then none else some (checkFound e b)

/-- The checks of events with answers. -/
def checks (findAll : Bool) : List (Event n) → List Answer → Option (Out (List (Event n)))
  | [], [] => some (.ok [])
  | e :: es, a :: as =>
    match check findAll e a with
    | none => none
    | some .accused => some .accused
    | some (.ok e) =>
      match checks findAll es as with
      | none => none
      | some .accused => some .accused
      | some (.ok es) => some (.ok (e :: es))
  | _, _ => none

/-- The call of an event. -/
def ask (findAll : Bool) (e : Event n) : Call n :=
  match e.type with
  | .insertUnknown | .insertKnown => .insert e.monomial
  | _ => if findAll then .findAllDivisors e.monomial else .findDivisor e.monomial

theorem asked_cons (findAll : Bool) (e : Event n) (es : List (Event n)) :
    asked findAll (e :: es) = ask findAll e :: asked findAll es := rfl

theorem runEvent_eq (hn : n ≠ 0) (F : Finder (Mono n)) (findAll : Bool) (s : F.State) (e : Event n) {a : Answer}
    {s' : F.State} (h : F.call s (ask findAll e) = some (a, s')) :
    runEvent F findAll s e = (check findAll e a).map (keep s') := by
  unfold runEvent toMonomial
  rw [if_neg hn]
  simp only
  have hi : ∀ (hins : e.isInsert = true) (hask : ask findAll e = .insert e.monomial),
      (if e.isInsert = true then
        match F.insert s e.monomial with
        | none => none
        | some (out, s) => (checkInsert e out.length).map (keep s)
      else if (!findAll) = true then
        match F.findDivisor s e.monomial with
        | none => none
        | some (r, s) => some (keep s (checkFound e r.isSome))
      else
        match F.findAllDivisors s e.monomial with
        | none => none
        | some (out, s) => (checkQuery e out.length).map (keep s)) = (check findAll e a).map (keep s') := by
    intro hins hask
    rw [hask, Finder.call] at h
    rw [if_pos hins]
    cases hF : F.insert s e.monomial with
    | none => rw [hF] at h; cases h
    | some r =>
      rw [hF] at h
      cases h
      simp [check, hins]
  have hq : ∀ (hins : e.isInsert = false)
      (hask : ask findAll e = if findAll then .findAllDivisors e.monomial else .findDivisor e.monomial),
      (if e.isInsert = true then
        match F.insert s e.monomial with
        | none => none
        | some (out, s) => (checkInsert e out.length).map (keep s)
      else if (!findAll) = true then
        match F.findDivisor s e.monomial with
        | none => none
        | some (r, s) => some (keep s (checkFound e r.isSome))
      else
        match F.findAllDivisors s e.monomial with
        | none => none
        | some (out, s) => (checkQuery e out.length).map (keep s)) = (check findAll e a).map (keep s') := by
    intro hins hask
    rw [if_neg (by simp [hins])]
    cases findAll with
    | false =>
      rw [if_pos (by rfl : (!false) = true)]
      rw [hask, if_neg Bool.false_ne_true, Finder.call] at h
      cases hF : F.findDivisor s e.monomial with
      | none => rw [hF] at h; cases h
      | some r =>
        rw [hF] at h
        cases h
        simp [check, hins]
    | true =>
      rw [if_neg (by simp)]
      rw [hask, if_pos rfl, Finder.call] at h
      cases hF : F.findAllDivisors s e.monomial with
      | none => rw [hF] at h; cases h
      | some r =>
        rw [hF] at h
        cases h
        simp [check, hins]
  cases ht : e.type with
  | insertUnknown => exact hi (by simp [Event.isInsert, ht]) (by simp [ask, ht])
  | insertKnown => exact hi (by simp [Event.isInsert, ht]) (by simp [ask, ht])
  | queryNoDivisor => exact hq (by simp [Event.isInsert, ht]) (by simp [ask, ht])
  | queryHasDivisor => exact hq (by simp [Event.isInsert, ht]) (by simp [ask, ht])
  | queryUnknown => exact hq (by simp [Event.isInsert, ht]) (by simp [ask, ht])

/-- What is left after several events. -/
def keeps {σ : Type} (s : σ) : Out (List (Event n)) → Out (List (Event n) × σ)
  | .ok es => .ok (es, s)
  | .accused => .accused

theorem calls_cons {F : Finder (Mono n)} {s : F.State} {c : Call n} {cs : List (Call n)} {as : List Answer}
    {s' : F.State} (h : F.calls s (c :: cs) = some (as, s')) :
    ∃ a as' s₁, as = a :: as' ∧ F.call s c = some (a, s₁) ∧ F.calls s₁ cs = some (as', s') := by
  rw [Finder.calls] at h
  cases hc : F.call s c with
  | none => rw [hc] at h; cases h
  | some r =>
    obtain ⟨a, s₁⟩ := r
    rw [hc] at h
    simp only at h
    cases hcs : F.calls s₁ cs with
    | none => rw [hcs] at h; cases h
    | some r =>
      obtain ⟨as', s₂⟩ := r
      rw [hcs] at h
      cases h
      exact ⟨a, as', s₁, rfl, rfl, hcs⟩

theorem runEvents_eq (hn : n ≠ 0) (F : Finder (Mono n)) (findAll : Bool) : ∀ (es : List (Event n)) (s : F.State)
    {as : List Answer} {s' : F.State}, F.calls s (asked findAll es) = some (as, s') →
    runEvents F findAll s es = (checks findAll es as).map (keeps s') := by
  intro es
  induction es with
  | nil => intro s as s' h; cases h; rfl
  | cons e es ih =>
    intro s as s' h
    rw [asked_cons] at h
    obtain ⟨a, as', s₁, rfl, h1, h2⟩ := calls_cons h
    rw [runEvents, runEvent_eq hn F findAll s e h1, checks]
    cases check findAll e a with
    | none => rfl
    | some o =>
      cases o with
      | accused => rfl
      | ok e' =>
        simp only [Option.map_some, keep]
        rw [ih s₁ h2]
        cases checks findAll es as' with
        | none => rfl
        | some o => cases o <;> rfl

theorem calls_append {F : Finder (Mono n)} : ∀ {cs ds : List (Call n)} {s : F.State} {as : List Answer}
    {s' : F.State}, F.calls s (cs ++ ds) = some (as, s') →
    ∃ as₁ as₂ s₁, as = as₁ ++ as₂ ∧ as₁.length = cs.length ∧ F.calls s cs = some (as₁, s₁) ∧
      F.calls s₁ ds = some (as₂, s') := by
  intro cs
  induction cs with
  | nil => intro ds s as s' h; exact ⟨[], as, s, rfl, rfl, rfl, h⟩
  | cons c cs ih =>
    intro ds s as s' h
    obtain ⟨a, as', s₁, rfl, h1, h2⟩ := calls_cons h
    obtain ⟨as₁, as₂, s₂, rfl, hl, h3, h4⟩ := ih h2
    exact ⟨a :: as₁, as₂, s₂, rfl, by simp [hl], by rw [Finder.calls, h1]; simp only [h3], h4⟩

/-! ## Events that are asked for the first and for the second time -/

/-- The answer suits the event. -/
def Suits (findAll : Bool) (e : Event n) : Answer → Prop
  | .count _ => e.isInsert = true ∨ findAll = true
  | .found _ => e.isInsert = false ∧ findAll = false

/-- The event has no answer yet. -/
def Event.Fresh (e : Event n) : Prop := e.type = .insertUnknown ∨ e.type = .queryUnknown

theorem check_twice (findAll : Bool) (e : Event n) (a : Answer) (hf : e.Fresh) (hs : Suits findAll e a) :
    ∃ e', check findAll e a = some (.ok e') ∧ check findAll e' a = some (.ok e') ∧ e'.monomial = e.monomial ∧
      ask findAll e' = ask findAll e := by
  rcases hf with ht | ht
  · cases a with
    | found b => simp [Suits, Event.isInsert, ht] at hs
    | count k =>
      refine ⟨{ e with count := some k, type := .insertKnown }, ?_, ?_, rfl, ?_⟩
      · simp [check, Event.isInsert, ht, checkInsert]
      · simp [check, Event.isInsert, checkInsert]
      · simp [ask, ht]
  · cases a with
    | found b =>
      obtain ⟨_, rfl⟩ := hs
      cases b with
      | false =>
        refine ⟨{ e with type := .queryNoDivisor }, ?_, ?_, rfl, ?_⟩
        · simp [check, Event.isInsert, ht, checkFound]
        · simp [check, Event.isInsert, checkFound]
        · simp [ask, ht]
      | true =>
        refine ⟨{ e with type := .queryHasDivisor }, ?_, ?_, rfl, ?_⟩
        · simp [check, Event.isInsert, ht, checkFound]
        · simp [check, Event.isInsert, checkFound]
        · simp [ask, ht]
    | count k =>
      have hfa : findAll = true := by simpa [Suits, Event.isInsert, ht] using hs
      subst hfa
      refine ⟨{ e with count := some k, type := if k = 0 then .queryNoDivisor else .queryHasDivisor }, ?_, ?_, rfl, ?_⟩
      · simp [check, Event.isInsert, ht, checkQuery]
      · by_cases hk : k = 0 <;> simp [check, Event.isInsert, checkQuery, hk]
      · by_cases hk : k = 0 <;> simp [ask, ht, hk]

theorem checks_twice (findAll : Bool) : ∀ (es : List (Event n)) (as : List Answer), (∀ e ∈ es, e.Fresh) →
    List.Forall₂ (Suits findAll) es as →
    ∃ es', checks findAll es as = some (.ok es') ∧ checks findAll es' as = some (.ok es') ∧
      asked findAll es' = asked findAll es := by
  intro es as hf hs
  induction hs with
  | nil => exact ⟨[], rfl, rfl, rfl⟩
  | @cons e a es as h _ ih =>
    obtain ⟨e', h1, h2, _, h3⟩ := check_twice findAll e a (hf e List.mem_cons_self) h
    obtain ⟨es', g1, g2, g3⟩ := ih (fun e he => hf e (List.mem_cons_of_mem _ he))
    refine ⟨e' :: es', ?_, ?_, ?_⟩
    · rw [checks, h1]; simp only [g1]
    · rw [checks, h2]; simp only [g2]
    · rw [asked_cons, asked_cons, h3, g3]

theorem suits_ideal (findAll mini : Bool) (S : Multiset (Mono n)) (e : Event n) :
    Suits findAll e (ideal mini S (ask findAll e)).1 := by
  have h : ∀ m, ∃ k, (ideal mini S (.insert m)).1 = .count k := by
    intro m
    unfold ideal
    simp only
    split
    · split
      · exact ⟨_, rfl⟩
      · exact ⟨_, rfl⟩
    · exact ⟨_, rfl⟩
  obtain ⟨k, hk⟩ := h e.monomial
  have hi : e.isInsert = true → ask findAll e = .insert e.monomial → Suits findAll e (ideal mini S (ask findAll e)).1 := by
    intro h1 h2
    rw [h2, hk]
    exact .inl h1
  have hq : e.isInsert = false → ask findAll e = (if findAll then .findAllDivisors e.monomial else .findDivisor e.monomial) →
      Suits findAll e (ideal mini S (ask findAll e)).1 := by
    intro h1 h2
    rw [h2]
    cases findAll with
    | false => exact ⟨h1, rfl⟩
    | true => exact .inr rfl
  cases ht : e.type with
  | insertUnknown => exact hi (by simp [Event.isInsert, ht]) (by simp [ask, ht])
  | insertKnown => exact hi (by simp [Event.isInsert, ht]) (by simp [ask, ht])
  | queryNoDivisor => exact hq (by simp [Event.isInsert, ht]) (by simp [ask, ht])
  | queryHasDivisor => exact hq (by simp [Event.isInsert, ht]) (by simp [ask, ht])
  | queryUnknown => exact hq (by simp [Event.isInsert, ht]) (by simp [ask, ht])

theorem suits_answers (findAll mini : Bool) : ∀ (es : List (Event n)) (S : Multiset (Mono n)),
    List.Forall₂ (Suits findAll) es (answers mini S (asked findAll es)) := by
  intro es
  induction es with
  | nil => intro S; exact .nil
  | cons e es ih => intro S; exact .cons (suits_ideal findAll mini S e) (ih _)

theorem makeStandard_fresh (R : ℕ → ℕ) (n inserts queries : ℕ) : ∀ e ∈ makeStandard R n inserts queries, e.Fresh := by
  intro e he
  obtain ⟨i, _, rfl⟩ := List.mem_map.mp he
  show (if i ≤ inserts then EventType.insertUnknown else .queryUnknown) = .insertUnknown ∨
    (if i ≤ inserts then EventType.insertUnknown else .queryUnknown) = .queryUnknown
  split
  · exact .inl rfl
  · exact .inr rfl

/-- One run over events, once. -/
theorem runFinder_once (hn : n ≠ 0) {F : Finder (Mono n)} {findAll mini : Bool} {H : List (Call n) → Prop}
    (hF : F.Correct mini H) {es : List (Event n)} (hH : H (asked findAll es)) :
    runFinder 1 findAll F es = checks findAll es (answers mini 0 (asked findAll es)) := by
  obtain ⟨s, s', h1, h2⟩ := hF _ hH
  rw [runFinder, h1]
  simp only
  rw [repeatEvents, runEvents_eq hn F findAll es s h2]
  cases checks findAll es (answers mini 0 (asked findAll es)) with
  | none => rfl
  | some o => cases o <;> rfl

theorem simulate_known (hn : n ≠ 0) {findAll mini : Bool} {es : List (Event n)}
    (hes : checks findAll es (answers mini 0 (asked findAll es)) = some (.ok es)) : ∀ (Fs : List (Finder (Mono n))),
    (∀ F ∈ Fs, ∃ H : List (Call n) → Prop, F.Correct mini H ∧ H (asked findAll es)) →
    simulate 1 findAll Fs es = some (.ok es) := by
  intro Fs
  induction Fs with
  | nil => intro _; rfl
  | cons F Fs ih =>
    intro h
    obtain ⟨H, hF, hH⟩ := h F List.mem_cons_self
    rw [simulate, runFinder_once hn hF hH, hes]
    exact ih (fun F hF => h F (List.mem_cons_of_mem _ hF))

theorem simulate_fresh (hn : n ≠ 0) {findAll mini : Bool} {es : List (Event n)} (hf : ∀ e ∈ es, e.Fresh)
    (Fs : List (Finder (Mono n)))
    (h : ∀ F ∈ Fs, ∃ H : List (Call n) → Prop, F.Correct mini H ∧ H (asked findAll es)) :
    ∃ es', simulate 1 findAll Fs es = some (.ok es') := by
  cases Fs with
  | nil => exact ⟨es, rfl⟩
  | cons F Fs =>
    obtain ⟨es', h1, h2, h3⟩ := checks_twice findAll es _ hf (suits_answers findAll mini es 0)
    obtain ⟨H, hF, hH⟩ := h F List.mem_cons_self
    refine ⟨es', ?_⟩
    rw [simulate, runFinder_once hn hF hH, h1]
    refine simulate_known hn (by rw [h3]; exact h2) Fs (fun F hF => ?_)
    rw [h3]
    exact h F (List.mem_cons_of_mem _ hF)

/-- One run over events, twice. -/
theorem runFinder_two (hn : n ≠ 0) {F : Finder (Mono n)} {findAll mini : Bool} {H : List (Call n) → Prop}
    (hF : F.Correct mini H) {es es' : List (Event n)} {as₁ as₂ : List Answer}
    (hH : H (asked findAll es ++ asked findAll es))
    (has : answers mini 0 (asked findAll es ++ asked findAll es) = as₁ ++ as₂) (hlen : as₁.length = es.length)
    (hes : checks findAll es as₁ = some (.ok es')) (hes' : asked findAll es' = asked findAll es) :
    runFinder 2 findAll F es = checks findAll es' as₂ := by
  obtain ⟨s, s', h1, h2⟩ := hF _ hH
  obtain ⟨bs₁, bs₂, s₁, g1, g2, g3, g4⟩ := calls_append h2
  rw [has] at g1
  obtain ⟨rfl, rfl⟩ := List.append_inj g1 (by rw [g2, hlen, asked, List.length_map])
  rw [runFinder, h1]
  simp only
  rw [repeatEvents, runEvents_eq hn F findAll es s g3, hes]
  simp only [Option.map_some, keeps]
  rw [repeatEvents, runEvents_eq hn F findAll es' s₁ (by rw [hes']; exact g4)]
  cases checks findAll es' as₂ with
  | none => rfl
  | some o => cases o <;> rfl

/-! ## Finders that hold a multiset -/

/-- Correctness by a relation between states and multisets. -/
theorem correct_of_rel {F : Finder (Mono n)} {mini : Bool} {H : List (Call n) → Prop}
    (Rel : F.State → Multiset (Mono n) → Prop) (Good : Multiset (Mono n) → List (Call n) → Prop)
    (hinit : ∃ s, F.init = some s ∧ Rel s 0) (hgood : ∀ cs, H cs → Good 0 cs)
    (hstep : ∀ s S c cs, Rel s S → Good S (c :: cs) →
      ∃ s', F.call s c = some ((ideal mini S c).1, s') ∧ Rel s' (ideal mini S c).2 ∧ Good (ideal mini S c).2 cs) :
    F.Correct mini H := by
  intro cs hcs
  obtain ⟨s, hs, hR⟩ := hinit
  suffices h : ∀ cs s S, Rel s S → Good S cs → ∃ s', F.calls s cs = some (answers mini S cs, s') by
    obtain ⟨s', hs'⟩ := h cs s 0 hR (hgood cs hcs)
    exact ⟨s, s', hs, hs'⟩
  clear hs hR hcs
  intro cs
  induction cs with
  | nil => intro s S _ _; exact ⟨s, rfl⟩
  | cons c cs ih =>
    intro s S hR hG
    obtain ⟨s₁, h1, h2, h3⟩ := hstep s S c cs hR hG
    obtain ⟨s', h4⟩ := ih s₁ _ h2 h3
    exact ⟨s', by rw [Finder.calls, h1]; simp only [h4]; rfl⟩

/-! ## The configurations -/

theorem dividesLoop_iff (a b : Mono n) : ∀ vs, dividesLoop a b vs = true ↔ ∀ v ∈ vs, a.1.getD v 0 ≤ b.1.getD v 0 := by
  intro vs
  induction vs with
  | nil => simp [dividesLoop]
  | cons v vs ih =>
    rw [dividesLoop]
    by_cases h : exponent b v < exponent a v
    · rw [if_pos h]
      have : b.1.getD v 0 < a.1.getD v 0 := by unfold exponent at h; exact_mod_cast h
      simp only [Bool.false_eq_true, List.mem_cons, forall_eq_or_imp, false_iff]
      omega
    · rw [if_neg h, ih]
      have : a.1.getD v 0 ≤ b.1.getD v 0 := by unfold exponent at h; push Not at h; exact_mod_cast h
      simp only [List.mem_cons, forall_eq_or_imp, this, true_and]

theorem divides_iff (a b : Mono n) : (monoDm n).divides a b = true ↔ Divides a b := by
  show dividesLoop a b (List.range n) = true ↔ _
  rw [dividesLoop_iff]
  simp only [List.mem_range]
  rfl

theorem dvd_iff (a b : Mono n) : Minimize.Dvd (monoDm n) a b ↔ Divides a b := by
  constructor
  · intro h v hv
    have := h v hv
    change exponent a v ≤ exponent b v at this
    unfold exponent at this
    exact_mod_cast this
  · intro h v hv
    show exponent a v ≤ exponent b v
    unfold exponent
    exact_mod_cast h v hv

theorem monoDm_faithful : Minimize.Faithful (monoDm n) := fun a b => (divides_iff a b).trans (dvd_iff a b).symm

theorem monoDm_lawful : (monoDm n).Lawful := fun a b h v hv => (monoDm_faithful a b).mp h v hv

theorem exponent_range (m : Mono n) (v : ℕ) : 0 ≤ exponent m v ∧ exponent m v < 1000 := by
  unfold exponent
  refine ⟨Int.natCast_nonneg _, ?_⟩
  rw [List.getD_eq_getElem?_getD]
  cases h : m.1[v]? with
  | none => simp
  | some x =>
    have := m.2.2 x (List.mem_of_getElem? h)
    simpa using this

theorem monoDm_rebuild (hn : n ≠ 1) {sort : List DivMask.VarData → List DivMask.VarData} (hs : DivMask.IsSort sort)
    (l : List (Mono n)) : ∃ bits, DivMask.rebuild (monoDm n) sort l = some bits := by
  refine DivMask.rebuild_partial (w := 32) rfl (by decide) hs (.inl hn) ?_
  intro t _ v _
  have := exponent_range t v
  show 0 ≤ exponent t v ∧ exponent t v ≤ _
  constructor
  · exact this.1
  · have h : (1000 : ℤ) ≤ 2 ^ (32 - 1) - 32 := by norm_num
    omega

theorem lessLoop_irrefl (a : Mono n) : ∀ vs, lessLoop a a vs = false := by
  intro vs
  induction vs with
  | nil => rfl
  | cons v vs ih => rw [lessLoop, if_neg (lt_irrefl _), if_neg (lt_irrefl _), ih]

theorem lessLoop_cons (a b : Mono n) (v : ℕ) (vs : List ℕ) : lessLoop a b (v :: vs) = true ↔
    exponent a v < exponent b v ∨ (exponent a v = exponent b v ∧ lessLoop a b vs = true) := by
  rw [lessLoop]
  split
  · rename_i h; simp [h]
  · split
    · rename_i h1 h2; simp only [Bool.false_eq_true, false_iff]; omega
    · rename_i h1 h2
      have : exponent a v = exponent b v := by omega
      simp [this]

theorem lessLoop_trans (a b d : Mono n) : ∀ vs, lessLoop a b vs = true → lessLoop b d vs = true →
    lessLoop a d vs = true := by
  intro vs
  induction vs with
  | nil => intro h; cases h
  | cons v vs ih =>
    rw [lessLoop_cons, lessLoop_cons, lessLoop_cons]
    rintro (h1 | ⟨h1, h1'⟩) (h2 | ⟨h2, h2'⟩)
    · left; omega
    · left; omega
    · left; omega
    · right; exact ⟨by omega, ih h1' h2'⟩

theorem lessLoop_negTrans (a b d : Mono n) : ∀ vs, lessLoop a d vs = true →
    lessLoop a b vs = true ∨ lessLoop b d vs = true := by
  intro vs
  induction vs with
  | nil => intro h; cases h
  | cons v vs ih =>
    rw [lessLoop_cons, lessLoop_cons, lessLoop_cons]
    intro h
    by_cases h1 : exponent a v < exponent b v
    · exact .inl (.inl h1)
    · by_cases h2 : exponent b v < exponent d v
      · exact .inr (.inl h2)
      · rcases h with h | ⟨h, h'⟩
        · omega
        · rcases ih h' with h3 | h3
          · exact .inl (.inr ⟨by omega, h3⟩)
          · exact .inr (.inr ⟨by omega, h3⟩)

theorem lessLoop_weak (n : ℕ) : StrictWeak (fun a b : Mono n => lessLoop a b (List.range n)) where
  irrefl a := lessLoop_irrefl a _
  trans a b d := lessLoop_trans a b d _
  negTrans a b d := lessLoop_negTrans a b d _

theorem lessLoop_refines (a b : Mono n) : ∀ vs, dividesLoop a b vs = true → lessLoop b a vs = false := by
  intro vs
  induction vs with
  | nil => intro _; rfl
  | cons v vs ih =>
    intro h
    rw [dividesLoop] at h
    split at h
    · cases h
    · rename_i h1
      rw [lessLoop, if_neg h1]
      split
      · rfl
      · exact ih h

theorem listModel_lawful {lib : Lib} (hlib : lib.Lawful) (n : ℕ) (ull : Bool) {udm : Bool} (mini front sortOnInsert : Bool)
    (ratio : Ratio) (hn : udm = true → n ≠ 1) :
    (listModel lib n ull udm mini front sortOnInsert ratio).finder.Lawful where
  masks := monoDm_lawful
  sortVars := hlib.sortVars
  noOverflow h l := monoDm_rebuild (hn h) hlib.sortVars l
  order _ := lessLoop_weak n
  refines _ a b h := lessLoop_refines a b _ h
  sort _ := hlib.sort

theorem treeModel_lawful {lib : Lib} (hlib : lib.Lawful) (n : ℕ) {udm utdm : Bool} (packed : Bool) {leafSize : ℕ}
    (removals mini sortOnInsert cache : Bool) (ratio : Ratio) (hn : udm = true → n ≠ 1)
    (ht : utdm = true → udm = true) (hleaf : 0 < leafSize) :
    (treeModel lib n udm utdm packed leafSize removals mini sortOnInsert cache ratio).finder.Lawful where
  masks := monoDm_lawful
  leafSize := hleaf
  treeMask := ht
  sortVars := hlib.sortVars
  noOverflow h l := monoDm_rebuild (hn h) hlib.sortVars l
  range t v _ := by
    have := exponent_range t v
    refine ⟨this.1, lt_trans this.2 ?_⟩
    show (1000 : ℤ) < 2 ^ (32 - 1)
    norm_num
  order _ := lessLoop_weak n
  refines _ a b h := lessLoop_refines a b _ h
  sort _ := hlib.sort
  partition := hlib.partition
  selfCopy _ := rfl

/-! ## Single calls in terms of multisets -/

theorem card_divisors {l : List (Mono n)} (p : Mono n → Bool) (P : Mono n → Prop) [DecidablePred P]
    (h : ∀ x, p x = true ↔ P x) : (l.filter p).length = ((l : Multiset (Mono n)).filter P).card := by
  rw [Multiset.filter_coe, Multiset.coe_card]
  congr 1
  apply List.filter_congr
  intro x _
  rw [Bool.eq_iff_iff, h, decide_eq_true_iff]

theorem minimize_step {l l' : List (Mono n)} {e : Mono n} {out : List (Mono n)}
    (h : Minimize.Step (monoDm n) l (.insert e) (.removed out) l') :
    ideal true (l : Multiset (Mono n)) (.insert e) = (.count out.length, (l' : Multiset (Mono n))) := by
  rw [ideal, if_pos rfl]
  cases h with
  | @insertHeld _ _ d hd hde hp =>
    rw [if_pos ⟨d, hd, (dvd_iff _ _).mp hde⟩, Multiset.coe_eq_coe.mpr hp]
    rfl
  | @insertNew _ keep _ _ hn hs ho hk hp =>
    rw [if_neg (by rintro ⟨d, hd, hde⟩; exact hn d hd ((dvd_iff _ _).mpr hde)), ← Multiset.coe_eq_coe.mpr hs,
      Multiset.coe_eq_coe.mpr hp]
    have h1 : (out ++ keep).filter (fun x => decide (Divides e x)) = out := by
      rw [List.filter_append, List.filter_eq_self.mpr, List.filter_eq_nil_iff.mpr, List.append_nil]
      · intro x hx; simpa using fun h => hk x hx ((dvd_iff _ _).mpr h)
      · intro x hx; simpa using (dvd_iff _ _).mp (ho x hx)
    have h2 : (out ++ keep).filter (fun x => decide (¬ Divides e x)) = keep := by
      rw [List.filter_append, List.filter_eq_nil_iff.mpr, List.filter_eq_self.mpr, List.nil_append]
      · intro x hx; simpa using fun h => hk x hx ((dvd_iff _ _).mpr h)
      · intro x hx; simpa using (dvd_iff _ _).mp (ho x hx)
    rw [Multiset.filter_coe, Multiset.filter_coe, h1, h2]
    rfl

theorem found_eq {l : List (Mono n)} {m : Mono n} {r : Option (Mono n)}
    (h1 : ∀ e, r = some e → e ∈ l ∧ Divides e m) (h2 : r = none → ∀ e ∈ l, ¬ Divides e m) :
    decide (∃ d ∈ (l : Multiset (Mono n)), Divides d m) = r.isSome := by
  cases r with
  | none =>
    rw [Option.isSome_none, decide_eq_false_iff_not]
    rintro ⟨d, hd, hdm⟩
    exact h2 rfl d hd hdm
  | some e =>
    rw [Option.isSome_some, decide_eq_true_iff]
    exact ⟨e, (h1 e rfl).1, (h1 e rfl).2⟩

theorem refVisit_all {T : Type} (l : List T) : DivList.refVisit l (fun _ => true) [] = l := by
  obtain ⟨k, h1, h2, _, h4⟩ := DivList.delivered_refVisit l (fun _ => true)
  rcases h4 with h4 | h4
  · rw [h2, h4, List.take_length]
  · simp at h4

theorem call_insert {F : Finder (Mono n)} {s s' : F.State} {e : Mono n} {out : List (Mono n)} {a : Answer}
    (h : F.insert s e = some (out, s')) (ha : a = .count out.length) : F.call s (.insert e) = some (a, s') := by
  rw [Finder.call, h, ha]; rfl

theorem call_find {F : Finder (Mono n)} {s s' : F.State} {m : Mono n} {r : Option (Mono n)} {a : Answer}
    (h : F.findDivisor s m = some (r, s')) (ha : a = .found r.isSome) : F.call s (.findDivisor m) = some (a, s') := by
  rw [Finder.call, h, ha]; rfl

theorem call_findAll {F : Finder (Mono n)} {s s' : F.State} {m : Mono n} {out : List (Mono n)} {a : Answer}
    (h : F.findAllDivisors s m = some (out, s')) (ha : a = .count out.length) :
    F.call s (.findAllDivisors m) = some (a, s') := by
  rw [Finder.call, h, ha]; rfl

theorem ideal_insert_off (S : Multiset (Mono n)) (e : Mono n) : ideal false S (.insert e) = (.count 0, e ::ₘ S) := by
  simp [ideal]

/-- A `DivListModel` whose `divides` is divisibility answers like a multiset. -/
theorem list_correct {c : Minimize.ListConf (Mono n)} (hl : c.finder.Lawful) (hdm : c.finder.dm = monoDm n)
    (hfront : c.finder.sortOnInsert = true → c.moveDivisorToFront = false) :
    (listFinder c).Correct c.minimizeOnInsert (fun _ => True) := by
  have hlaw : ({ c with minimizeOnInsert := true } : Minimize.ListConf (Mono n)).Lawful :=
    ⟨hl, by rw [hdm]; exact monoDm_faithful, rfl, hfront⟩
  refine correct_of_rel (fun s S => DivList.Inv c.finder s ∧ ((DivList.State.contents s : List (Mono n)) : Multiset (Mono n)) = S)
    (fun _ _ => True) ?_ (fun _ _ => trivial) ?_
  · obtain ⟨s, h1, h2, h3⟩ := DivList.init_spec hl
    exact ⟨s, h1, h3, by rw [h2]; rfl⟩
  · rintro (s : DivList.State (Mono n)) S op cs ⟨hi, rfl⟩ -
    cases op with
    | findAllDivisors m =>
      refine ⟨s, call_findAll (F := listFinder c) (out := s.contents.filter (fun e => c.finder.dm.divides e m)) ?_ ?_,
        ⟨hi, rfl⟩, trivial⟩
      · have : DivList.findAllDivisors c.finder s m (fun _ => true) = _ := DivList.findAllDivisors_spec hl hi m _
        rw [refVisit_all] at this
        exact congrArg (Option.map (·, s)) this
      · rw [card_divisors (fun e => c.finder.dm.divides e m) (fun d => Divides d m) (fun x => by rw [hdm]; exact divides_iff x m)]
        rfl
    | findDivisor m =>
      obtain ⟨r, s', g1, g2, g3, g4, g5⟩ := Minimize.list_findDivisor_ok hlaw hi m
      rw [show ({ c with minimizeOnInsert := true } : Minimize.ListConf (Mono n)).finder.dm = monoDm n from hdm] at g4 g5
      refine ⟨s', call_find (F := listFinder c) (r := r) g1 ?_, ⟨g2, Multiset.coe_eq_coe.mpr g3⟩, trivial⟩
      exact congrArg Answer.found (found_eq (r := r) (fun e he => ⟨(g4 e he).1, (dvd_iff _ _).mp (g4 e he).2⟩)
        (fun h e he hd => g5 h e he ((dvd_iff _ _).mpr hd)))
    | insert e =>
      cases hm : c.minimizeOnInsert with
      | false =>
        obtain ⟨s', g1, _, g3, g4⟩ := DivList.insert_spec hl hi e
        have hins : c.insert s e = some ([], s') := by
          unfold Minimize.ListConf.insert
          rw [hm, g1]
          rfl
        rw [ideal_insert_off]
        refine ⟨s', call_insert (F := listFinder c) hins rfl, ⟨g3, ?_⟩, trivial⟩
        show ((s'.contents : List (Mono n)) : Multiset (Mono n)) = e ::ₘ ((s.contents : List (Mono n)) : Multiset (Mono n))
        rw [Multiset.cons_coe, Multiset.coe_eq_coe]
        generalize s.contents = a at g4
        generalize s'.contents = b at g4
        cases g4 with
        | insert _ => exact List.perm_append_singleton _ _
        | insertSorted _ _ _ => exact List.perm_middle
      | true =>
        obtain ⟨r, s', g1, g2, g3⟩ := Minimize.list_step_ok hlaw hi (.insert e)
        rw [show ({ c with minimizeOnInsert := true } : Minimize.ListConf (Mono n)).finder.dm = monoDm n from hdm] at g3
        have hc : ({ c with minimizeOnInsert := true } : Minimize.ListConf (Mono n)) = c := by
          cases c; simp only at hm; subst hm; rfl
        rw [hc] at g1
        change (c.insert s e).map (fun r => (Minimize.Ret.removed r.1, r.2)) = some (r, s') at g1
        cases hins : c.insert s e with
        | none => rw [hins] at g1; cases g1
        | some p =>
          rw [hins] at g1
          cases g1
          have := minimize_step g3
          rw [this]
          exact ⟨p.2, call_insert (F := listFinder c) (out := p.1) hins rfl, ⟨g2, rfl⟩, trivial⟩

theorem same_iff {a b : Mono n} : DivList.Same (monoDm n) a b ↔ a = b := by
  constructor
  · intro h
    apply Subtype.ext
    apply List.ext_getElem (by rw [a.2.1, b.2.1])
    intro i h1 h2
    have := h i (by rw [a.2.1] at h1; exact h1)
    change exponent a i = exponent b i at this
    unfold exponent at this
    rw [List.getD_eq_getElem?_getD, List.getD_eq_getElem?_getD, List.getElem?_eq_getElem h1,
      List.getElem?_eq_getElem h2] at this
    exact_mod_cast this
  · rintro rfl v _; rfl

theorem copies_eq {c : KDTree.Conf (Mono n)} (hdm : c.dm = monoDm n) (e : Mono n) (l : List (Mono n)) :
    KDTree.copies c e l = (l : Multiset (Mono n)).count e := by
  unfold KDTree.copies
  rw [Multiset.count, Multiset.coe_countP]
  apply List.countP_congr
  intro x _
  rw [decide_eq_true_iff, decide_eq_true_iff]
  unfold KDTree.Same
  rw [hdm, same_iff]

/-- A `KDTreeModel` whose `divides` is divisibility answers like a multiset, as long as copies fit in a leaf. -/
theorem tree_correct {c : Minimize.TreeConf (Mono n)} (hl : c.finder.Lawful) (hdm : c.finder.dm = monoDm n)
    (hrem : c.minimizeOnInsert = true → c.finder.allowRemovals = true) :
    (treeFinder c).Correct c.minimizeOnInsert
      (fun cs => c.minimizeOnInsert = true ∨ AtMost c.finder.leafSize cs) := by
  refine correct_of_rel (fun s S => (KDTree.Inv c.finder s ∧ KDTree.SizeOk s) ∧
      ((KDTree.State.contents s : List (Mono n)) : Multiset (Mono n)) = S)
    (fun S cs => c.minimizeOnInsert = true ∨ ∀ e, S.count e + (insertedBy cs).count e ≤ c.finder.leafSize) ?_ ?_ ?_
  · obtain ⟨s, h1, h2, h3, h4⟩ := KDTree.init_ok hl
    exact ⟨s, h1, ⟨h2, h3⟩, by rw [h4]; rfl⟩
  · rintro cs (h | h)
    · exact .inl h
    · exact .inr (fun e => by simpa using h e)
  · rintro (s : KDTree.State (Mono n)) S op cs ⟨⟨hi, hz⟩, rfl⟩ hg
    cases op with
    | findAllDivisors m =>
      obtain ⟨r, s', g1, g2, g3, g4⟩ := Minimize.kd_step hl hi hz (.findAllDivisors m (fun _ => .go))
        (fun l h => by cases h) trivial
      generalize hc : s'.contents = l' at g2
      cases g2 with
      | @findAllDivisors _ _ _ got b hd hp =>
        have hb : b = false := by
          obtain ⟨_, _, k, _, _, _, _, hb⟩ := hd
          cases b with
          | false => rfl
          | true => exact absurd (hb.mp rfl).2 (by simp)
        subst hb
        refine ⟨s', call_findAll (F := treeFinder c) (out := got) ?_ ?_, ⟨⟨g3, g4⟩, ?_⟩, hg⟩
        · exact congrArg gotOf g1
        · rw [(KDTree.delivered_go hd).length_eq,
            card_divisors (fun e => c.finder.dm.divides e m) (fun d => Divides d m) (fun x => by rw [hdm]; exact divides_iff x m)]
          rfl
        · rw [hc]; exact Multiset.coe_eq_coe.mpr hp
    | findDivisor m =>
      obtain ⟨r, s', g1, g2, g3, g4⟩ := Minimize.kd_step hl hi hz (.findDivisor m) trivial trivial
      have hfin : ∀ r', KDTree.findDivisor c.finder s m = .ok (.entry r', s') →
          (treeFinder c).findDivisor s m = some (r', s') := by
        intro r' h
        exact congrArg entryOf h
      generalize hc : s'.contents = l' at g2
      cases g2 with
      | @findDivisor _ _ e he hd hp =>
        refine ⟨s', call_find (F := treeFinder c) (hfin _ g1) ?_, ⟨⟨g3, g4⟩, ?_⟩, hg⟩
        · refine congrArg Answer.found (found_eq (fun x hx => ?_) nofun)
          cases hx
          exact ⟨he, (divides_iff _ _).mp (by rw [← hdm]; exact hd)⟩
        · rw [hc]; exact Multiset.coe_eq_coe.mpr hp
      | findNone hn hp =>
        refine ⟨s', call_find (F := treeFinder c) (hfin _ g1) ?_, ⟨⟨g3, g4⟩, ?_⟩, hg⟩
        · refine congrArg Answer.found (found_eq nofun (fun _ e he hd => ?_))
          have := hn e he
          rw [hdm, (divides_iff _ _).mpr hd] at this
          cases this
        · rw [hc]; exact Multiset.coe_eq_coe.mpr hp
    | insert e =>
      have hfin : ∀ out b s', c.insert s e = .ok (.removed out b, s') → (treeFinder c).insert s e = some (out, s') := by
        intro out b s' h
        exact congrArg removedOf h
      cases hm : c.minimizeOnInsert with
      | false =>
        have hg := hg.resolve_left (by rw [hm]; simp)
        obtain ⟨r, s', g1, g2, g3, g4⟩ := Minimize.kd_step hl hi hz (.insert e) trivial trivial
        have hlt : KDTree.copies c.finder e s.contents < c.finder.leafSize := by
          rw [copies_eq hdm]
          have := hg e
          rw [insertedBy, Multiset.count_cons_self] at this
          omega
        generalize hc : s'.contents = l' at g2
        cases g2 with
        | insertThrows h _ => omega
        | insert _ hp =>
          rw [ideal_insert_off]
          have hins : c.insert s e = .ok (.removed [] false, s') := by
            unfold Minimize.TreeConf.insert
            rw [hm, show KDTree.insert c.finder s e = KDTree.step c.finder s (.insert e) from rfl, g1]
            rfl
          refine ⟨s', call_insert (F := treeFinder c) (hfin _ _ _ hins) rfl, ⟨⟨g3, g4⟩, ?_⟩, .inr ?_⟩
          · rw [hc]; exact Multiset.coe_eq_coe.mpr hp
          · intro x
            have := hg x
            rw [insertedBy, Multiset.count_cons] at this
            rw [Multiset.count_cons]
            omega
      | true =>
        have hlaw : c.Lawful := ⟨hl, by rw [hdm]; exact monoDm_faithful, hm, hrem hm⟩
        obtain ⟨r, s', g1, g2, g2', g3⟩ := Minimize.tree_step_ok hlaw hi hz (.insert e)
        rw [hdm] at g3
        unfold Minimize.TreeConf.step at g1
        simp only at g1
        split at g1
        · rename_i out b s'' heq
          cases g1
          have := minimize_step g3
          rw [this]
          exact ⟨s', call_insert (F := treeFinder c) (hfin _ _ _ heq) rfl, ⟨⟨g2, g2'⟩, rfl⟩, .inl rfl⟩
        · cases g1

/-! ## Trees that throw -/

/-- A tree that does not minimize has taken no monomial more often than a leaf can hold. -/
theorem tree_calls_atMost {c : Minimize.TreeConf (Mono n)} (hl : c.finder.Lawful) (hdm : c.finder.dm = monoDm n)
    (hm : c.minimizeOnInsert = false) : ∀ (cs : List (Call n)) (s : KDTree.State (Mono n)), KDTree.Inv c.finder s →
    KDTree.SizeOk s → (∀ e, ((s.contents : List (Mono n)) : Multiset (Mono n)).count e ≤ c.finder.leafSize) →
    ∀ as s', (treeFinder c).calls s cs = some (as, s') →
    ∀ e, ((s.contents : List (Mono n)) : Multiset (Mono n)).count e + (insertedBy cs).count e ≤ c.finder.leafSize := by
  intro cs
  induction cs with
  | nil => intro s _ _ h _ _ _ e; simpa [insertedBy] using h e
  | cons op cs ih =>
    intro s hi hz h as s' hcs e
    obtain ⟨a, as', s₁, -, h1, h2⟩ := calls_cons hcs
    cases op with
    | findDivisor m =>
      obtain ⟨r, s₂, g1, g2, g3, g4⟩ := Minimize.kd_step hl hi hz (.findDivisor m) trivial trivial
      have hp : s₂.contents.Perm s.contents := by
        generalize s₂.contents = l' at g2
        cases g2 with
        | findDivisor _ _ hp => exact hp
        | findNone _ hp => exact hp
      change Option.map _ (entryOf (KDTree.step c.finder s (.findDivisor m))) = _ at h1
      rw [g1] at h1
      have : s₁ = s₂ := by
        cases r <;> cases h1
        rfl
      subst this
      have hq := Multiset.coe_eq_coe.mpr hp
      have := ih s₁ g3 g4 (by rw [hq]; exact h) _ _ h2 e
      rw [hq] at this
      exact this
    | findAllDivisors m =>
      obtain ⟨r, s₂, g1, g2, g3, g4⟩ := Minimize.kd_step hl hi hz (.findAllDivisors m (fun _ => .go))
        (fun l h => by cases h) trivial
      have hp : s₂.contents.Perm s.contents := by
        generalize s₂.contents = l' at g2
        cases g2 with
        | findAllDivisors _ hp => exact hp
      change Option.map _ (gotOf (KDTree.step c.finder s (.findAllDivisors m (fun _ => .go)))) = _ at h1
      rw [g1] at h1
      have : s₁ = s₂ := by
        cases r with
        | got out b => cases b <;> cases h1; rfl
        | _ => cases h1
      subst this
      have hq := Multiset.coe_eq_coe.mpr hp
      have := ih s₁ g3 g4 (by rw [hq]; exact h) _ _ h2 e
      rw [hq] at this
      exact this
    | insert x =>
      obtain ⟨r, s₂, g1, g2, g3, g4⟩ := Minimize.kd_step hl hi hz (.insert x) trivial trivial
      change Option.map _ (removedOf (c.insert s x)) = _ at h1
      unfold Minimize.TreeConf.insert at h1
      rw [hm, show KDTree.insert c.finder s x = KDTree.step c.finder s (.insert x) from rfl, g1] at h1
      generalize hc : s₂.contents = l' at g2
      cases g2 with
      | insertThrows _ _ => cases h1
      | insert hlt hp =>
        have : s₁ = s₂ := by cases h1; rfl
        subst this
        have hq : ((KDTree.State.contents s₁ : List (Mono n)) : Multiset (Mono n)) = x ::ₘ (s.contents : Multiset (Mono n)) := by
          rw [hc]; exact Multiset.coe_eq_coe.mpr hp
        have := ih s₁ g3 g4 (by
          rw [hq]
          intro y
          rw [Multiset.count_cons]
          split
          · rename_i hy
            subst hy
            rw [copies_eq hdm] at hlt
            omega
          · have := h y; omega) _ _ h2 e
        rw [hq, Multiset.count_cons] at this
        rw [insertedBy, Multiset.count_cons]
        omega

theorem check_fresh (findAll : Bool) (e : Event n) (hf : e.Fresh) (a : Answer) : check findAll e a ≠ some .accused := by
  rcases hf with ht | ht <;> cases a <;> cases findAll <;>
    simp [check, Event.isInsert, ht, checkInsert, checkQuery, checkFound]
  · split <;> simp

theorem call_of_runEvent {F : Finder (Mono n)} {findAll : Bool} {s : F.State} {e : Event n} {o : Out (Event n × F.State)}
    (h : runEvent F findAll s e = some o) : ∃ a s', F.call s (ask findAll e) = some (a, s') := by
  unfold runEvent at h
  split at h
  · cases h
  · rename_i m hm
    have hm : e.monomial = m := by
      unfold toMonomial at hm
      split at hm
      · cases hm
      · exact Option.some.inj hm
    subst hm
    split at h
    · rename_i hins
      have : ask findAll e = .insert e.monomial := by
        cases ht : e.type <;> simp_all [Event.isInsert, ask]
      rw [this, Finder.call]
      cases hF : F.insert s e.monomial with
      | none => rw [hF] at h; cases h
      | some r => exact ⟨_, _, rfl⟩
    · rename_i hins
      have hask : ask findAll e = if findAll then .findAllDivisors e.monomial else .findDivisor e.monomial := by
        cases ht : e.type <;> simp_all [Event.isInsert, ask]
      rw [hask]
      cases findAll with
      | false =>
        rw [if_neg Bool.false_ne_true, Finder.call]
        simp only [Bool.not_false, if_true] at h
        cases hF : F.findDivisor s e.monomial with
        | none => rw [hF] at h; cases h
        | some r => exact ⟨_, _, rfl⟩
      | true =>
        rw [if_pos rfl, Finder.call]
        simp only [Bool.not_true, Bool.false_eq_true, if_false] at h
        cases hF : F.findAllDivisors s e.monomial with
        | none => rw [hF] at h; cases h
        | some r => exact ⟨_, _, rfl⟩

/-- Over new events, a run that is not undefined and that throws nothing has got all its answers. -/
theorem calls_of_runEvents (hn : n ≠ 0) {F : Finder (Mono n)} {findAll : Bool} : ∀ {es : List (Event n)} {s : F.State},
    (∀ e ∈ es, e.Fresh) → runEvents F findAll s es ≠ none → ∃ as s', F.calls s (asked findAll es) = some (as, s') := by
  intro es
  induction es with
  | nil => intro s _ _; exact ⟨[], s, rfl⟩
  | cons e es ih =>
    intro s hf h
    cases hr : runEvent F findAll s e with
    | none => rw [runEvents, hr] at h; exact absurd rfl h
    | some o =>
      obtain ⟨a, s₁, h1⟩ := call_of_runEvent hr
      have h2 := runEvent_eq hn F findAll s e h1
      rw [hr] at h2
      cases hc : check findAll e a with
      | none => rw [hc] at h2; cases h2
      | some o' =>
        cases o' with
        | accused => exact absurd hc (check_fresh findAll e (hf e List.mem_cons_self) a)
        | ok e' =>
          rw [hc] at h2
          cases h2
          rw [runEvents, hr] at h
          obtain ⟨as, s', h3⟩ := ih (s := s₁) (fun e he => hf e (List.mem_cons_of_mem _ he)) (by
            intro h4
            apply h
            simp only [keep, h4])
          exact ⟨a :: as, s', by rw [asked_cons, Finder.calls, h1]; simp only [h3]⟩

theorem runFinder_none {F : Finder (Mono n)} {findAll : Bool} {s : F.State} {es : List (Event n)}
    (h1 : F.init = some s) (h2 : runEvents F findAll s es = none) (k : ℕ) : runFinder (k + 1) findAll F es = none := by
  rw [runFinder, h1]
  simp only [repeatEvents, h2]

theorem tree_throws (hn : n ≠ 0) {c : Minimize.TreeConf (Mono n)} (hl : c.finder.Lawful) (hdm : c.finder.dm = monoDm n)
    (hm : c.minimizeOnInsert = false) {findAll : Bool} {es : List (Event n)} (hf : ∀ e ∈ es, e.Fresh)
    (h : ¬ AtMost c.finder.leafSize (asked findAll es)) (k : ℕ) : runFinder (k + 1) findAll (treeFinder c) es = none := by
  obtain ⟨s, h1, h2, h3, h4⟩ := KDTree.init_ok hl
  cases hr : runEvents (treeFinder c) findAll s es with
  | none => exact runFinder_none h1 hr k
  | some o =>
    exfalso
    obtain ⟨as, s', h5⟩ := calls_of_runEvents hn hf (s := s) (F := treeFinder c) (findAll := findAll) (by rw [hr]; simp)
    apply h
    intro e
    have := tree_calls_atMost hl hdm hm _ s h2 h3 (by rw [h4]; simp) _ _ h5 e
    rw [h4] at this
    simpa using this

/-! ## What is inserted -/

theorem insertedBy_append (cs ds : List (Call n)) : insertedBy (cs ++ ds) = insertedBy cs + insertedBy ds := by
  induction cs with
  | nil => simp [insertedBy]
  | cons c cs ih => cases c <;> simp [insertedBy, ih]

theorem insertedBy_makeStandard (R : ℕ → ℕ) (n inserts queries : ℕ) (findAll : Bool) :
    insertedBy (asked findAll (makeStandard R n inserts queries)) =
      (((List.range (inserts + queries)).filter (fun i => decide (i ≤ inserts))).map (fun i => makeRandom R n (i * n)) :
        List (Mono n)) := by
  unfold makeStandard
  generalize List.range (inserts + queries) = l
  induction l with
  | nil => rfl
  | cons i l ih =>
    rw [List.map_cons, asked_cons]
    by_cases hi : i ≤ inserts
    · simp only [ask, hi, if_true]
      rw [insertedBy, ih, List.filter_cons_of_pos (by simpa using hi)]
      rfl
    · rw [List.filter_cons_of_neg (by simpa using hi), ← ih]
      cases findAll <;> simp only [ask, hi, if_false] <;> rfl

theorem atMost_one_iff (R : ℕ → ℕ) (n inserts queries : ℕ) (hq : 0 < queries) (findAll : Bool) :
    AtMost 1 (asked findAll (makeStandard R n inserts queries)) ↔
      ∀ i ≤ inserts, ∀ j ≤ inserts, makeRandom R n (i * n) = makeRandom R n (j * n) → i = j := by
  unfold AtMost
  rw [insertedBy_makeStandard, ← Multiset.nodup_iff_count_le_one, Multiset.coe_nodup]
  have hmem : ∀ i, i ∈ (List.range (inserts + queries)).filter (fun i => decide (i ≤ inserts)) ↔ i ≤ inserts := by
    intro i
    rw [List.mem_filter, List.mem_range, decide_eq_true_iff]
    omega
  constructor
  · intro h i hi j hj hij
    exact List.inj_on_of_nodup_map h ((hmem i).mpr hi) ((hmem j).mpr hj) hij
  · intro h
    apply List.Nodup.map_on
    · intro i hi j hj hij
      exact h i ((hmem i).mp hi) j ((hmem j).mp hj) hij
    · exact List.nodup_range.filter _

/-! ## Other answers -/

theorem check_other (findAll : Bool) (e : Event n) {a a' : Answer} (hf : e.Fresh) (hs : Suits findAll e a)
    (hs' : Suits findAll e a') (hne : a' ≠ a) {e' : Event n} (h : check findAll e a = some (.ok e')) :
    check findAll e' a' = some .accused := by
  rcases hf with ht | ht
  · cases a with
    | found b => simp [Suits, Event.isInsert, ht] at hs
    | count k =>
      cases a' with
      | found b => simp [Suits, Event.isInsert, ht] at hs'
      | count k' =>
        have hk : k' ≠ k := fun h => hne (by rw [h])
        simp [check, Event.isInsert, ht, checkInsert] at h
        subst h
        simp [check, Event.isInsert, checkInsert, hk]
  · cases a with
    | found b =>
      obtain ⟨_, rfl⟩ := hs
      cases a' with
      | count k' => simp [Suits, Event.isInsert, ht] at hs'
      | found b' =>
        cases b <;> cases b' <;> simp at hne <;> simp [check, Event.isInsert, ht, checkFound] at h <;> subst h <;>
          simp [check, Event.isInsert, checkFound]
    | count k =>
      have hfa : findAll = true := by simpa [Suits, Event.isInsert, ht] using hs
      subst hfa
      cases a' with
      | found b => simp [Suits] at hs'
      | count k' =>
        have hk : k' ≠ k := fun h => hne (by rw [h])
        simp [check, Event.isInsert, ht, checkQuery] at h
        subst h
        by_cases h0 : k = 0
        · subst h0; simp [check, Event.isInsert, checkQuery, hk]
        · simp [check, Event.isInsert, checkQuery, hk, h0]

theorem checks_other (findAll : Bool) : ∀ (es : List (Event n)) (as as' : List Answer) (es' : List (Event n)),
    (∀ e ∈ es, e.Fresh) → List.Forall₂ (Suits findAll) es as → List.Forall₂ (Suits findAll) es as' → as' ≠ as →
    checks findAll es as = some (.ok es') → checks findAll es' as' = some .accused := by
  intro es as as' es' hf hs
  induction hs generalizing as' es' with
  | nil =>
    intro hs' hne _
    cases hs'
    exact absurd rfl hne
  | @cons e a es as h ht ih =>
    intro hs' hne hc
    cases hs' with
    | @cons _ a' _ as' h' ht' =>
      obtain ⟨e₁, h1, h2, _, _⟩ := check_twice findAll e a (hf e List.mem_cons_self) h
      obtain ⟨es₁, g1, _, _⟩ := checks_twice findAll es as (fun e he => hf e (List.mem_cons_of_mem _ he)) ht
      rw [checks, h1] at hc
      simp only [g1] at hc
      cases hc
      rw [checks]
      by_cases ha : a' = a
      · subst ha
        rw [h2]
        simp only
        rw [ih _ _ (fun e he => hf e (List.mem_cons_of_mem _ he)) ht' (fun h => hne (by rw [h])) g1]
      · rw [check_other findAll e (hf e List.mem_cons_self) h h' ha h1]

theorem suits_call {F : Finder (Mono n)} {findAll : Bool} {s s' : F.State} {e : Event n} {a : Answer}
    (h : F.call s (ask findAll e) = some (a, s')) : Suits findAll e a := by
  have hi : e.isInsert = true → ask findAll e = .insert e.monomial → Suits findAll e a := by
    intro h1 h2
    rw [h2, Finder.call, Option.map_eq_some_iff] at h
    obtain ⟨r, _, hr⟩ := h
    cases hr
    exact .inl h1
  have hq : e.isInsert = false → ask findAll e = (if findAll then .findAllDivisors e.monomial else .findDivisor e.monomial) →
      Suits findAll e a := by
    intro h1 h2
    rw [h2] at h
    cases findAll with
    | false =>
      rw [if_neg Bool.false_ne_true, Finder.call, Option.map_eq_some_iff] at h
      obtain ⟨r, _, hr⟩ := h
      cases hr
      exact ⟨h1, rfl⟩
    | true =>
      rw [if_pos rfl, Finder.call, Option.map_eq_some_iff] at h
      obtain ⟨r, _, hr⟩ := h
      cases hr
      exact .inr rfl
  cases ht : e.type with
  | insertUnknown => exact hi (by simp [Event.isInsert, ht]) (by simp [ask, ht])
  | insertKnown => exact hi (by simp [Event.isInsert, ht]) (by simp [ask, ht])
  | queryNoDivisor => exact hq (by simp [Event.isInsert, ht]) (by simp [ask, ht])
  | queryHasDivisor => exact hq (by simp [Event.isInsert, ht]) (by simp [ask, ht])
  | queryUnknown => exact hq (by simp [Event.isInsert, ht]) (by simp [ask, ht])

theorem suits_calls {F : Finder (Mono n)} {findAll : Bool} : ∀ (es : List (Event n)) {s s' : F.State} {as : List Answer},
    F.calls s (asked findAll es) = some (as, s') → List.Forall₂ (Suits findAll) es as := by
  intro es
  induction es with
  | nil => intro s s' as h; cases h; exact .nil
  | cons e es ih =>
    intro s s' as h
    rw [asked_cons] at h
    obtain ⟨a, as', s₁, rfl, h1, h2⟩ := calls_cons h
    exact .cons (suits_call h1) (ih h2)

theorem simulate_other (hn : n ≠ 0) {findAll mini : Bool} {es : List (Event n)} (hf : ∀ e ∈ es, e.Fresh)
    {F G : Finder (Mono n)} {H : List (Call n) → Prop} (hF : F.Correct mini H) (hH : H (asked findAll es))
    {s s' : G.State} {as : List Answer} (h1 : G.init = some s) (h2 : G.calls s (asked findAll es) = some (as, s'))
    (h3 : as ≠ answers mini 0 (asked findAll es)) (Gs : List (Finder (Mono n))) :
    simulate 1 findAll (F :: G :: Gs) es = some .accused := by
  obtain ⟨es', g1, _, g3⟩ := checks_twice findAll es _ hf (suits_answers findAll mini es 0)
  rw [simulate, runFinder_once hn hF hH, g1]
  simp only
  rw [simulate, runFinder, h1]
  simp only
  rw [repeatEvents, runEvents_eq hn G findAll es' s (by rw [g3]; exact h2),
    checks_other findAll es _ as es' hf (suits_answers findAll mini es 0) (suits_calls es h2) h3 g1]
  rfl

end Verif.DivSim
