import Verif.NameFactoryProofs

/-!
# Properties of `mathic::NameFactory`: C50, C51
-/

namespace Verif.NameFactory

variable {P : Type}

/-! ## C51 -/

/-- C51: `namesWithPrefix` on an empty vector gives exactly the registered names with that prefix,
as often as they are registered, in increasing order. -/
theorem namesWithPrefix_spec (f : Factory P) (p : Str) :
    Increasing (namesWithPrefix f p []) ∧
    (∀ n, n ∈ namesWithPrefix f p [] ↔ n ∈ names f ∧ IsPrefixOf p n) ∧
    (∀ n, IsPrefixOf p n → (namesWithPrefix f p []).count n = (names f).count n) := by
  refine ⟨mergeSort_increasing _, mem_namesWithPrefix f p, ?_⟩
  intro n hn
  rw [(namesWithPrefix_perm f p []).count_eq, List.nil_append, List.count_filter ((hasPrefix_iff p n).mpr hn)]

/-- C51, the same for a vector that is not empty: what was there before is sorted in. -/
theorem namesWithPrefix_more (f : Factory P) (p : Str) (v : List Str) :
    Increasing (namesWithPrefix f p v) ∧ (namesWithPrefix f p v).Perm (v ++ namesWithPrefix f p []) := by
  refine ⟨mergeSort_increasing _, (namesWithPrefix_perm f p v).trans ?_⟩
  exact (List.Perm.append_left v (namesWithPrefix_perm f p []).symm)

/-- C51: these conditions leave no choice; any sort gives this result. -/
theorem namesWithPrefix_unique (f : Factory P) (p : Str) (l : List Str) (h1 : Increasing l)
    (h2 : ∀ n, n ∈ l → IsPrefixOf p n) (h3 : ∀ n, IsPrefixOf p n → l.count n = (names f).count n) :
    l = namesWithPrefix f p [] := by
  obtain ⟨g1, g2, g3⟩ := namesWithPrefix_spec f p
  refine sorted_unique (List.perm_iff_count.mpr ?_) h1 g1
  intro n
  by_cases hn : IsPrefixOf p n
  · rw [h3 n hn, g3 n hn]
  · rw [List.count_eq_zero_of_not_mem (fun h => hn (h2 n h)),
      List.count_eq_zero_of_not_mem (fun h => hn ((g2 n).mp h).2)]

/-- C51: for distinct names the list is strictly increasing. -/
theorem namesWithPrefix_strict (f : Factory P) (p : Str) (hd : (names f).Nodup) :
    (namesWithPrefix f p []).Pairwise LexLt := by
  have hn : (namesWithPrefix f p []).Nodup := by
    rw [(namesWithPrefix_perm f p []).nodup_iff]
    exact hd.filter _
  refine List.Pairwise.imp₂ (R := fun a b => ¬ LexLt b a) (S := (· ≠ ·)) ?_ (mergeSort_increasing _) hn
  intro a b h1 h2
  exact (lexLt_total h2).resolve_right h1

/-! ## C50 -/

/-- C50: exactly one of the three cases holds for distinct names. -/
theorem lookup_cases (l : List Str) (p : Str) :
    (∃ n, StandsFor l p n) ∨ NoName l p ∨ TwoNames l p := by
  by_cases hp : p ∈ l
  · exact .inl ⟨p, hp, .inl rfl⟩
  · by_cases h0 : NoName l p
    · exact .inr (.inl h0)
    · unfold NoName at h0
      push Not at h0
      obtain ⟨n, hn, hpn⟩ := h0
      by_cases h2 : ∀ m ∈ l, IsPrefixOf p m → m = n
      · exact .inl ⟨n, hn, .inr ⟨hp, hpn, h2⟩⟩
      · push Not at h2
        obtain ⟨m, hm, hpm, hne⟩ := h2
        exact .inr (.inr ⟨hp, m, hm, n, hn, hne, hpm, hpn⟩)

/-- C50: `uniqueNameWithPrefix` returns a name if and only if the prefix stands for that name. -/
theorem unique_ok_iff (f : Factory P) (p n : Str) (hd : (names f).Nodup) :
    uniqueNameWithPrefix f p = .ok n ↔ StandsFor (names f) p n := by
  rcases unique_cases f p with ⟨hp, h⟩ | ⟨hp, hl, msg, h, _⟩ | ⟨hp, m, hl, h⟩ | ⟨hp, hl, h⟩
  · rw [h]
    constructor
    · intro e; cases e; exact ⟨hp, .inl rfl⟩
    · rintro ⟨_, rfl | ⟨h1, _⟩⟩
      · rfl
      · exact absurd hp h1
  · rw [h]
    constructor
    · intro e; cases e
    · rintro ⟨h1, h2⟩
      have : n ∈ namesWithPrefix f p [] := by
        rw [mem_namesWithPrefix]
        rcases h2 with rfl | h2
        · exact ⟨h1, isPrefixOf_self _⟩
        · exact ⟨h1, h2.2.1⟩
      rw [hl] at this; cases this
  · rw [h]
    have hm : ∀ x, x ∈ names f ∧ IsPrefixOf p x ↔ x = m := by
      intro x; rw [← mem_namesWithPrefix, hl, List.mem_singleton]
    constructor
    · intro e
      injection e with e
      subst e
      obtain ⟨h1, h2⟩ := (hm m).mpr rfl
      exact ⟨h1, .inr ⟨hp, h2, fun x hx hx2 => (hm x).mp ⟨hx, hx2⟩⟩⟩
    · rintro ⟨h1, rfl | ⟨_, h2, _⟩⟩
      · exact absurd h1 hp
      · rw [(hm n).mp ⟨h1, h2⟩]
  · rw [h]
    constructor
    · intro e; cases e
    · rintro ⟨h1, rfl | ⟨_, _, h2⟩⟩
      · exact absurd h1 hp
      · exfalso
        have hn : (namesWithPrefix f p []).Nodup := by
          rw [(namesWithPrefix_perm f p []).nodup_iff]
          exact hd.filter _
        match hx : namesWithPrefix f p [], hl with
        | a :: b :: l, _ =>
          have ha := (mem_namesWithPrefix f p a).mp (by rw [hx]; simp)
          have hb := (mem_namesWithPrefix f p b).mp (by rw [hx]; simp)
          rw [hx, List.nodup_cons] at hn
          rw [h2 a ha.1 ha.2, h2 b hb.1 hb.2] at hn
          simp at hn

/-- C50: `UnknownNameException` is thrown exactly if no name has the prefix, and its message contains the prefix. -/
theorem unique_unknown_iff (f : Factory P) (p : Str) :
    (∃ msg, uniqueNameWithPrefix f p = .exn (.unknownName msg) ∧ Contains msg p) ↔ NoName (names f) p := by
  have hm : ∀ x, x ∈ namesWithPrefix f p [] ↔ _ := mem_namesWithPrefix f p
  rcases unique_cases f p with ⟨hp, h⟩ | ⟨hp, hl, msg, h, e⟩ | ⟨hp, m, hl, h⟩ | ⟨hp, hl, h⟩
  · rw [h]
    exact ⟨fun ⟨_, h, _⟩ => (by cases h), fun h0 => absurd (isPrefixOf_self p) (h0 p hp)⟩
  · rw [h]
    refine ⟨fun _ n hn hpn => ?_, fun _ => ⟨msg, rfl, ?_⟩⟩
    · have := (hm n).mpr ⟨hn, hpn⟩
      rw [hl] at this; cases this
    · rw [e]
      exact contains_throwMsg _ _ _
  · rw [h]
    refine ⟨fun ⟨_, h, _⟩ => (by cases h), fun h0 => ?_⟩
    obtain ⟨h1, h2⟩ := (hm m).mp (by rw [hl]; simp)
    exact absurd h2 (h0 m h1)
  · rw [h]
    refine ⟨fun ⟨_, h, _⟩ => (by injection h with h; cases h), fun h0 => ?_⟩
    obtain ⟨x, hx⟩ := List.exists_mem_of_length_pos (l := namesWithPrefix f p []) (by omega)
    obtain ⟨h1, h2⟩ := (hm x).mp hx
    exact absurd h2 (h0 x h1)

/-- C50: `AmbiguousNameException` is thrown exactly if the prefix is no name and two names have it;
its message contains all of these names. -/
theorem unique_ambiguous_iff (f : Factory P) (p : Str) (hd : (names f).Nodup) :
    (∃ msg, uniqueNameWithPrefix f p = .exn (.ambiguousName msg) ∧
      ∀ n ∈ names f, IsPrefixOf p n → Contains msg n) ↔ TwoNames (names f) p := by
  have hm : ∀ x, x ∈ namesWithPrefix f p [] ↔ _ := mem_namesWithPrefix f p
  rcases unique_cases f p with ⟨hp, h⟩ | ⟨hp, hl, msg, h, e⟩ | ⟨hp, m, hl, h⟩ | ⟨hp, hl, h⟩
  · rw [h]
    exact ⟨fun ⟨_, h, _⟩ => (by cases h), fun h0 => absurd hp h0.1⟩
  · rw [h]
    refine ⟨fun ⟨_, h, _⟩ => (by injection h with h; cases h), ?_⟩
    rintro ⟨_, m, h1, n, _, _, h3, _⟩
    have := (hm m).mpr ⟨h1, h3⟩
    rw [hl] at this; cases this
  · rw [h]
    refine ⟨fun ⟨_, h, _⟩ => (by cases h), ?_⟩
    rintro ⟨_, x, h1, y, h2, hne, h3, h4⟩
    have hx := (hm x).mpr ⟨h1, h3⟩
    have hy := (hm y).mpr ⟨h2, h4⟩
    rw [hl, List.mem_singleton] at hx hy
    exact absurd (hx.trans hy.symm) hne
  · rw [h]
    constructor
    · intro _
      have hn : (namesWithPrefix f p []).Nodup := by
        rw [(namesWithPrefix_perm f p []).nodup_iff]
        exact hd.filter _
      match hx : namesWithPrefix f p [], hl with
      | a :: b :: l, _ =>
        have ha := (hm a).mp (by rw [hx]; simp)
        have hb := (hm b).mp (by rw [hx]; simp)
        rw [hx, List.nodup_cons] at hn
        refine ⟨hp, a, ha.1, b, hb.1, ?_, ha.2, hb.2⟩
        rintro rfl
        exact hn.1 (by simp)
    · intro _
      refine ⟨_, rfl, ?_⟩
      intro n hn hpn
      exact contains_listNames ((hm n).mpr ⟨hn, hpn⟩) _

/-- C50: no other outcome is possible. -/
theorem unique_outcomes (f : Factory P) (p : Str) :
    (∃ n, uniqueNameWithPrefix f p = .ok n) ∨ (∃ msg, uniqueNameWithPrefix f p = .exn (.unknownName msg)) ∨
    (∃ msg, uniqueNameWithPrefix f p = .exn (.ambiguousName msg)) := by
  rcases unique_cases f p with ⟨_, h⟩ | ⟨_, _, msg, h, _⟩ | ⟨_, m, _, h⟩ | ⟨_, _, h⟩
  · exact .inl ⟨_, h⟩
  · exact .inr (.inl ⟨_, h⟩)
  · exact .inl ⟨_, h⟩
  · exact .inr (.inr ⟨_, h⟩)

/-- C50: `createWithPrefix` gives the product registered under the name that the prefix stands for,
and throws what `uniqueNameWithPrefix` throws. -/
theorem createWithPrefix_spec (f : Factory P) (p : Str) (hd : (names f).Nodup) :
    (∀ x, createWithPrefix f p = .ok x ↔ ∃ n, StandsFor (names f) p n ∧ Registered f n x) ∧
    (∀ e, createWithPrefix f p = .exn e ↔ uniqueNameWithPrefix f p = .exn e) ∧
    createWithPrefix f p ≠ .ub := by
  unfold createWithPrefix
  have hreg : ∀ n ∈ names f, ∃ x, Registered f n x ∧ createNullOnUnknown f n = x := by
    intro n hn
    obtain ⟨⟨m, x⟩, h1, h2⟩ := List.mem_map.mp hn
    cases h2
    exact ⟨x, h1, createLoop_registered hd h1⟩
  rcases unique_outcomes f p with ⟨n, h⟩ | ⟨msg, h⟩ | ⟨msg, h⟩
  · have hs := (unique_ok_iff f p n hd).mp h
    rw [h]
    refine ⟨fun x => ⟨fun e => ?_, ?_⟩, fun e => ⟨fun h => (by cases h), fun h => (by cases h)⟩, by simp [Res.bind]⟩
    · obtain ⟨y, h1, h2⟩ := hreg n hs.1
      rw [Res.bind, h2] at e
      cases e
      exact ⟨n, hs, h1⟩
    · rintro ⟨m, hm, hr⟩
      have := (unique_ok_iff f p m hd).mpr hm
      rw [h] at this
      cases this
      exact congrArg Res.ok (createLoop_registered hd hr)
  all_goals
    rw [h]
    refine ⟨fun x => ⟨fun e => (by cases e), ?_⟩, fun e => ⟨fun h => (by cases h; rfl), fun h => (by cases h; rfl)⟩, by simp [Res.bind]⟩
    rintro ⟨m, hm, hr⟩
    have := (unique_ok_iff f p m hd).mpr hm
    rw [h] at this
    cases this

/-- `create` and `createNullOnUnknown` look for the name itself; the name of a function that makes a
null pointer counts as unknown for `create`. -/
theorem create_spec (f : Factory P) (n : Str) (hd : (names f).Nodup) :
    (∀ x, Registered f n x → createNullOnUnknown f n = x) ∧ (n ∉ names f → createNullOnUnknown f n = none) ∧
    (∀ x, create f n = .ok x ↔ Registered f n (some x)) ∧
    ((∃ msg, create f n = .exn (.unknownName msg)) ↔ ∀ x, ¬ Registered f n (some x)) := by
  refine ⟨fun x hx => createLoop_registered hd hx, fun hn => createLoop_unknown hn, ?_, ?_⟩
  all_goals
    unfold create
    by_cases hn : n ∈ names f
    · obtain ⟨⟨m, x⟩, h1, h2⟩ := List.mem_map.mp hn
      cases h2
      have := createLoop_registered hd h1
      unfold createNullOnUnknown Registered
      rw [this]
      first
      | intro y
        constructor
        · intro h
          cases x with
          | none => cases h
          | some x => cases h; exact h1
        · intro h
          have h2 := createLoop_registered hd h
          rw [this] at h2
          rw [h2]
      | constructor
        · rintro ⟨msg, h⟩ y hy
          have h2 := createLoop_registered hd hy
          rw [this] at h2
          rw [h2] at h
          cases h
        · intro h
          cases x with
          | none => exact ⟨_, rfl⟩
          | some x => exact absurd h1 (h x)
    · have : createNullOnUnknown f n = none := createLoop_unknown hn
      rw [this]
      have hno : ∀ x, ¬ Registered f n (some x) := fun x hx => hn (List.mem_map.mpr ⟨_, hx, rfl⟩)
      first
      | exact fun x => ⟨fun h => (by cases h), fun h => absurd h (hno x)⟩
      | exact ⟨fun _ => hno, fun _ => ⟨_, rfl⟩⟩

/-- Registering a new name adds exactly that name. -/
theorem register_spec (f : Factory P) (n : Str) (x : Option P) :
    (∀ m y, Registered (registerProduct f n x) m y ↔ Registered f m y ∨ (m = n ∧ y = x)) ∧
    ((names f).Nodup → n ∉ names f → (names (registerProduct f n x)).Nodup) ∧
    empty (registerProduct f n x) = false ∧ (empty f = true ↔ names f = []) ∧
    (registerProduct f n x).abstractName = f.abstractName := by
  refine ⟨fun m y => by simp [Registered, registerProduct], fun h1 h2 => ?_, by simp [empty, registerProduct], ?_, rfl⟩
  · unfold names registerProduct at *
    rw [List.map_append, List.nodup_append]
    refine ⟨h1, by simp, ?_⟩
    rintro a ha b hb rfl
    simp only [List.map_cons, List.map_nil, List.mem_singleton] at hb
    subst hb
    exact h2 ha
  · simp [empty, names]

/-- The messages of all errors begin with `ERROR: ` and end with a line end. -/
theorem messages_form (f : Factory P) (p : Str) (e : Err)
    (h : uniqueNameWithPrefix f p = .exn e ∨ create f p = .exn e) :
    ∃ msg, (e = .unknownName msg ∨ e = .ambiguousName msg) ∧ ∃ text, msg = "ERROR: ".toList ++ text ++ ['\n'] := by
  rcases h with h | h
  · unfold uniqueNameWithPrefix at h
    simp only at h
    generalize (if (namesWithPrefix f p []).contains p then [p] else namesWithPrefix f p []) = l at h
    split at h
    · cases h
      exact ⟨_, .inl rfl, _, rfl⟩
    · split at h
      · cases h
        exact ⟨_, .inr rfl, _, rfl⟩
      · split at h <;> cases h
  · unfold create at h
    split at h
    · cases h
      exact ⟨_, .inl rfl, _, rfl⟩
    · cases h

example : ∃ msg, Err.unknownName "ERROR: Unknown heap \"x\".\n".toList = .unknownName msg ∧
    ∃ text, msg = "ERROR: ".toList ++ text ++ ['\n'] := by
  obtain ⟨msg, h | h, h'⟩ := messages_form (init "heap".toList : Factory ℕ) "x".toList
    (.unknownName "ERROR: Unknown heap \"x\".\n".toList) (.inr (by decide))
  · exact ⟨msg, h, h'⟩
  · cases h

/-- The messages of all exceptions say what kind of thing was looked for. -/
theorem messages_name_kind (f : Factory P) (p : Str) :
    (∀ e, uniqueNameWithPrefix f p = .exn e → ∃ msg, (e = .unknownName msg ∨ e = .ambiguousName msg) ∧
      Contains msg f.abstractName) ∧
    ∀ e, create f p = .exn e → ∃ msg, e = .unknownName msg ∧ Contains msg f.abstractName ∧ Contains msg p := by
  constructor
  · intro e he
    rcases unique_cases f p with ⟨_, h⟩ | ⟨_, _, msg, h, hm⟩ | ⟨_, m, _, h⟩ | ⟨_, _, h⟩
    · rw [h] at he; cases he
    · rw [h] at he
      cases he
      refine ⟨msg, .inl rfl, ?_⟩
      rw [hm]
      exact contains_kind _ _ _ _ _
    · rw [h] at he; cases he
    · rw [h] at he
      cases he
      refine ⟨_, .inr rfl, ?_⟩
      rw [listNames_eq]
      rw [List.append_assoc _ _ (List.flatMap _ _)]
      exact contains_kind _ _ _ _ _
  · intro e he
    rw [create] at he
    split at he
    · cases he
      refine ⟨_, rfl, ?_, ?_⟩
      · exact contains_kind _ _ _ _ _
      · exact contains_throwMsg _ _ _
    · cases he

/-! A factory with the names "sort", "sorted" and "help". -/

def sample : Factory ℕ := registerProduct (registerProduct (registerProduct (init "action".toList)
  "sorted".toList (some 1)) "help".toList (some 2)) "sort".toList (some 3)

example : (names sample).Nodup := by decide
#guard uniqueNameWithPrefix sample "h".toList == .ok "help".toList
#guard uniqueNameWithPrefix sample "sort".toList == .ok "sort".toList
#guard uniqueNameWithPrefix sample "sorte".toList == .ok "sorted".toList
#guard uniqueNameWithPrefix sample "so".toList ==
  .exn (.ambiguousName "ERROR: More than one action has prefix \"so\":\n  sort sorted\n".toList)
#guard uniqueNameWithPrefix sample "x".toList ==
  .exn (.unknownName "ERROR: No action has the prefix \"x\".\n".toList)
#guard namesWithPrefix sample [] [] == ["help".toList, "sort".toList, "sorted".toList]
#guard createWithPrefix sample "he".toList == .ok (some 2)

end Verif.NameFactory
