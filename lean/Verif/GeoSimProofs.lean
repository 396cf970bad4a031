import Verif.GeoLayoutProofs

/-!
# Helper lemmas: the geobucket with its memory does what the one without does
-/

namespace Verif.GeoMem

open Geobucket (Conf Storage Front Place)

variable {E : Type} {c : Conf E}

/-- If the second computation is defined then so is the first, and the results are related. -/
def SimR {α β : Type} (R : α → β → Prop) (x : Option α) (y : Option β) : Prop :=
  ∀ t, y = some t → ∃ s, x = some s ∧ R s t

theorem SimR.bind {α β α' β' : Type} {R : α → β → Prop} {Q : α' → β' → Prop} {x : Option α} {y : Option β}
    {f : α → Option α'} {g : β → Option β'} (h : SimR R x y) (hf : ∀ a b, R a b → SimR Q (f a) (g b)) :
    SimR Q (x >>= f) (y >>= g) := by
  intro t ht
  obtain ⟨b, h1, h2⟩ := Option.bind_eq_some_iff.mp ht
  obtain ⟨a, k1, k2⟩ := h b h1
  obtain ⟨r, j1, j2⟩ := hf a b k2 t h2
  exact ⟨r, by rw [k1]; exact j1, j2⟩

theorem SimR.map {α β α' β' : Type} {R : α → β → Prop} {Q : α' → β' → Prop} {x : Option α} {y : Option β}
    {f : α → α'} {g : β → β'} (h : SimR R x y) (hf : ∀ a b, R a b → Q (f a) (g b)) :
    SimR Q (x.map f) (y.map g) := by
  intro t ht
  obtain ⟨b, h1, h2⟩ := Option.map_eq_some_iff.mp ht
  obtain ⟨a, k1, k2⟩ := h b h1
  exact ⟨f a, by rw [k1]; rfl, h2 ▸ hf a b k2⟩

theorem SimR.ret {α β : Type} {R : α → β → Prop} {a : α} {b : β} (h : R a b) : SimR R (some a) (some b) := by
  intro t ht
  cases ht
  exact ⟨a, rfl, h⟩

theorem SimR.undef {α β : Type} {R : α → β → Prop} {x : Option α} : SimR R x (none : Option β) := nofun

theorem SimR.same {α : Type} (x : Option α) : SimR Eq x x := fun t ht => ⟨t, ht, rfl⟩

theorem SimR.iff {α β : Type} {R : α → β → Prop} {x x' : Option α} {y y' : Option β} {p q : Prop}
    [Decidable p] [Decidable q] (hpq : p ↔ q) (h1 : q → SimR R x y) (h2 : ¬q → SimR R x' y') :
    SimR R (if p then x else x') (if q then y else y') := by
  by_cases hq : q
  · rw [if_pos hq, if_pos (hpq.mpr hq)]
    exact h1 hq
  · rw [if_neg hq, if_neg (fun hp => hq (hpq.mp hp))]
    exact h2 hq

/-- The state with memory shows the state without. -/
def Sim (c : Conf E) (s : State E) (t : Geobucket.State E) : Prop := s.view = t ∧ Ok c s

theorem Ok.sim {s : State E} (h : Ok c s) : Sim c s s.view := ⟨rfl, h⟩

theorem get_sim (s : State E) (i : ℕ) :
    SimR (fun b v => s.buckets[i]? = some b ∧ v = b.view s.mem) s.buckets[i]? s.view.buckets[i]? := by
  intro v hv
  rw [view_get] at hv
  obtain ⟨b, h1, h2⟩ := Option.map_eq_some_iff.mp hv
  exact ⟨b, h1, h1, h2.symm⟩

/-! ## The front -/

/-- A function that changes only the front. -/
def FrontOnly (s : Geobucket.State E) (x : Option (Geobucket.State E)) : Prop :=
  ∀ t, x = some t → t = { s with front := t.front }

theorem withFront_sim {s : State E} (h : Ok c s) {x : Option (Geobucket.State E)} (hx : FrontOnly s.view x) :
    SimR (Sim c) (withFront s x) x := by
  intro t ht
  refine ⟨{ s with front := t.front }, by rw [withFront, ht]; rfl, ?_, h.other_front _ _⟩
  exact (hx t ht).symm

theorem frontOnly_map {s : Geobucket.State E} {x : Option Front} :
    FrontOnly s (x.map (fun f => { s with front := f })) := by
  intro t ht
  obtain ⟨f, _, rfl⟩ := Option.map_eq_some_iff.mp ht
  rfl

theorem keyIncreased_frontOnly (s : Geobucket.State E) (b : ℕ) : FrontOnly s (Geobucket.keyIncreased c s b) := by
  rw [Geobucket.keyIncreased]
  split
  · exact frontOnly_map
  · intro t ht
    cases ht
    rfl

theorem frontInsert_frontOnly (s : Geobucket.State E) (b : ℕ) : FrontOnly s (Geobucket.frontInsert c s b) := by
  rw [Geobucket.frontInsert]
  split
  · intro t ht
    obtain ⟨f, _, ht⟩ := Option.bind_eq_some_iff.mp ht
    obtain ⟨f, _, ht⟩ := Option.bind_eq_some_iff.mp ht
    obtain ⟨f, _, ht⟩ := Option.bind_eq_some_iff.mp ht
    obtain ⟨f, _, ht⟩ := Option.bind_eq_some_iff.mp ht
    cases ht
    rfl
  · intro t ht
    cases ht
    rfl

theorem frontRemove_frontOnly (s : Geobucket.State E) (b : ℕ) : FrontOnly s (Geobucket.frontRemove c s b) := by
  rw [Geobucket.frontRemove]
  split
  · exact frontOnly_map
  · intro t ht
    cases ht
    rfl

theorem swapKeys_frontOnly (s : Geobucket.State E) (a b : ℕ) : FrontOnly s (Geobucket.swapKeys c s a b) := by
  rw [Geobucket.swapKeys]
  split
  · intro t ht
    obtain ⟨ta, _, ht⟩ := Option.bind_eq_some_iff.mp ht
    obtain ⟨tb, _, ht⟩ := Option.bind_eq_some_iff.mp ht
    obtain ⟨f, _, ht⟩ := Option.bind_eq_some_iff.mp ht
    obtain ⟨f, _, ht⟩ := Option.bind_eq_some_iff.mp ht
    obtain ⟨f, _, ht⟩ := Option.bind_eq_some_iff.mp ht
    obtain ⟨f, _, ht⟩ := Option.bind_eq_some_iff.mp ht
    cases ht
    rfl
  · intro t ht
    cases ht
    rfl

theorem keyIncreased_sim {s : State E} {t : Geobucket.State E} (h : Sim c s t) (b : ℕ) :
    SimR (Sim c) (keyIncreased c s b) (Geobucket.keyIncreased c t b) := by
  obtain ⟨rfl, h⟩ := h
  exact withFront_sim h (keyIncreased_frontOnly _ _)

theorem frontInsert_sim {s : State E} {t : Geobucket.State E} (h : Sim c s t) (b : ℕ) :
    SimR (Sim c) (frontInsert c s b) (Geobucket.frontInsert c t b) := by
  obtain ⟨rfl, h⟩ := h
  exact withFront_sim h (frontInsert_frontOnly _ _)

theorem frontRemove_sim {s : State E} {t : Geobucket.State E} (h : Sim c s t) (b : ℕ) :
    SimR (Sim c) (frontRemove c s b) (Geobucket.frontRemove c t b) := by
  obtain ⟨rfl, h⟩ := h
  exact withFront_sim h (frontRemove_frontOnly _ _)

theorem swapKeys_sim {s : State E} {t : Geobucket.State E} (h : Sim c s t) (a b : ℕ) :
    SimR (Sim c) (swapKeys c s a b) (Geobucket.swapKeys c t a b) := by
  obtain ⟨rfl, h⟩ := h
  exact withFront_sim h (swapKeys_frontOnly _ _ _)

/-- One bucket gets other entries, written into its own area. -/
theorem Ok.put_sim {s : State E} (h : Ok c s) {i : ℕ} {b b' : Bucket E} {v : Geobucket.Bucket E} {p : ℕ} {l : List E}
    (hb : s.buckets[i]? = some b) (h1 : b'.start = b.start)
    (h2 : b'.other = b.other) (h3 : b'.cap = b.cap) (h4 : b'.size ≤ b.cap) (hp : b.start ≤ p)
    (hl : p + l.length ≤ b.start + b.cap) (hv : b'.view (put s.mem p l) = v) (n : ℕ) :
    Sim c { s.setBucket i b' with mem := put s.mem p l, count := n } { s.view.setBucket i v with count := n } := by
  refine ⟨?_, h.upd hb h1 h2 h3 (by omega) (put_length _ _ _) n s.front⟩
  simp only [State.view, State.setBucket, Geobucket.State.setBucket]
  congr 1
  apply view_set hb _ hv
  intro j bj hj hbj
  exact h.keep (area_main hb) hp (hl.trans (Nat.add_le_add_left (h.cap_room hb) _)) (fun e => hj (by cases e; rfl)) hbj

/-- One bucket is changed, and nothing is written. -/
theorem Ok.set_sim {s : State E} (h : Ok c s) {i : ℕ} {b b' : Bucket E} {v : Geobucket.Bucket E}
    (hb : s.buckets[i]? = some b) (h1 : b'.start = b.start)
    (h2 : b'.other = b.other) (h3 : b'.cap = b.cap) (h4 : b'.size ≤ b.cap) (hv : b'.view s.mem = v) (n : ℕ) :
    Sim c { s.setBucket i b' with count := n } { s.view.setBucket i v with count := n } := by
  refine ⟨?_, h.upd hb h1 h2 h3 (by omega) rfl n s.front⟩
  simp only [State.view, State.setBucket, Geobucket.State.setBucket]
  congr 1
  exact view_set hb (fun _ _ _ _ => rfl) hv

theorem backAt_eq {s : State E} (h : Ok c s) (i : ℕ) : backAt c s i = Geobucket.backAt c s.view.buckets i := by
  rw [backAt, Geobucket.backAt, view_get]
  cases hb : s.buckets[i]? with
  | none => rfl
  | some b => exact getBack_eq (h.bound hb)

/-- What a change of bucket `i` and of the memory has to come to. -/
def Upd (c : Conf E) (s : State E) (i : ℕ) (r : List E × Bucket E) (v : Geobucket.Bucket E) : Prop :=
  ∀ n, Sim c { s.setBucket i r.2 with mem := r.1, count := n } { s.view.setBucket i v with count := n }

theorem Upd.plain {s : State E} {i : ℕ} {r : List E × Bucket E} {v : Geobucket.Bucket E} (h : Upd c s i r v) :
    Sim c { s.setBucket i r.2 with mem := r.1 } (s.view.setBucket i v) := h s.count

theorem setEntry_sim {s : State E} (h : Ok c s) {i : ℕ} {b : Bucket E} (hb : s.buckets[i]? = some b) (j : ℕ) (e : E) :
    SimR (Upd c s i) (b.setEntry c s.mem j e) ((b.view s.mem).setEntry c j e) := by
  intro v hv
  obtain ⟨b', e1, e2, e3, e4, e5, e6, e7⟩ := setEntry_eq (h.bound hb) hv
  have hf := h.fits _ (List.mem_of_getElem? hb)
  refine ⟨_, e1, fun n => ?_⟩
  exact h.put_sim hb e3 e4 e5 (by omega) (by omega) (by simp only [List.length_singleton]; omega) e2 n

theorem pushBack_sim {s : State E} (h : Ok c s) {i : ℕ} {b : Bucket E} (hb : s.buckets[i]? = some b) (e : E) :
    SimR (Upd c s i) (b.pushBack c s.mem e) ((b.view s.mem).pushBack c e) := by
  intro v hv
  have hf := h.fits _ (List.mem_of_getElem? hb)
  obtain ⟨b', e1, e2, e3, e4, e5, e6, e7⟩ := pushBack_eq (h.bound_cap hb) hf hv
  refine ⟨_, e1, fun n => ?_⟩
  exact h.put_sim hb e3 e4 e5 e6 (by omega) (by simp only [List.length_singleton]; omega) e2 n

theorem insertAtNotEnd_sim {s : State E} (h : Ok c s) {i : ℕ} {b : Bucket E} (hb : s.buckets[i]? = some b)
    (j : ℕ) (e : E) :
    SimR (Upd c s i) (b.insertAtNotEnd s.mem j e) ((b.view s.mem).insertAtNotEnd j e) := by
  intro v hv
  have hf := h.fits _ (List.mem_of_getElem? hb)
  obtain ⟨b', l, e1, e2, e3, e4, e5, e6, e7, e8⟩ := insertAtNotEnd_eq (h.bound_cap hb) hf hv
  refine ⟨_, e1, fun n => ?_⟩
  exact h.put_sim hb e4 e5 e6 e7 le_rfl (by omega) e3 n

theorem popBack_sim {s : State E} (h : Ok c s) {i : ℕ} {b : Bucket E} (hb : s.buckets[i]? = some b) :
    SimR (fun b' v => ∀ n, Sim c { s.setBucket i b' with count := n } { s.view.setBucket i v with count := n })
      (b.popBack c s.mem) ((b.view s.mem).popBack c) := by
  intro v hv
  have hf := h.fits _ (List.mem_of_getElem? hb)
  obtain ⟨b', f1, f2, f3, f4, f5, f6⟩ := popBack_eq (h.bound hb) hv
  exact ⟨b', f1, h.set_sim hb f3 f4 f5 (f6.trans hf) f2⟩

theorem getBack_sim {s : State E} (h : Ok c s) {i : ℕ} {b : Bucket E} (hb : s.buckets[i]? = some b) :
    SimR Eq (b.getBack c s.mem) ((b.view s.mem).getBack c) := by
  rw [getBack_eq (h.bound hb)]
  exact SimR.same _

theorem dedupInto_sim {s : State E} {t : Geobucket.State E} (h : Sim c s t) (b q : ℕ) (x y : E) :
    SimR (Sim c) (dedupInto c s b q x y) (Geobucket.dedupInto c t b q x y) := by
  obtain ⟨rfl, h⟩ := h
  refine (get_sim s q).bind ?_
  rintro qb _ ⟨hq, rfl⟩
  rw [h.es_length hq]
  refine (setEntry_sim h hq _ _).bind ?_
  rintro ⟨m, qb'⟩ v hu
  obtain ⟨h1, h2⟩ := hu.plain
  simp only
  rw [← h1]
  refine (get_sim _ b).bind ?_
  rintro bb _ ⟨hb, rfl⟩
  refine (popBack_sim h2 hb).bind ?_
  rintro bb' v' hu
  exact SimR.ret (hu _)

theorem Sim.front {s : State E} {t : Geobucket.State E} (h : Sim c s t) (f : Front) :
    Sim c { s with front := f } { t with front := f } := by
  obtain ⟨rfl, h⟩ := h
  exact ⟨rfl, h.other_front f s.count⟩

theorem Sim.count {s : State E} {t : Geobucket.State E} (h : Sim c s t) (n : ℕ) :
    Sim c { s with count := n } { t with count := n } := by
  obtain ⟨rfl, h⟩ := h
  exact ⟨rfl, h.other_front s.front n⟩

theorem decLoop_sim (b : ℕ) : ∀ (n p : ℕ) (s : State E) (t : Geobucket.State E), Sim c s t →
    SimR (Sim c) (decLoop c b n p s) (Geobucket.decLoop c b n p t) := by
  intro n
  induction n with
  | zero =>
    rintro p s t ⟨rfl, h⟩
    exact (SimR.same _).map (by rintro f _ rfl; exact h.sim.front f)
  | succ n ih =>
    rintro p s t ⟨rfl, h⟩
    rw [decLoop, Geobucket.decLoop, backAt_eq h, ]
    refine (SimR.same _).bind ?_
    rintro q _ rfl
    rw [backAt_eq h]
    refine (SimR.same _).bind ?_
    rintro x _ rfl
    refine (SimR.same _).bind ?_
    rintro y _ rfl
    refine SimR.iff Iff.rfl (fun _ => ?_) (fun _ => ?_)
    · refine (SimR.same _).bind ?_
      rintro f _ rfl
      refine (SimR.same _).bind ?_
      rintro f _ rfl
      exact ih _ _ _ (h.sim.front f)
    · refine SimR.iff Iff.rfl (fun _ => ?_) (fun _ => ?_)
      · exact (SimR.same _).map (by rintro f _ rfl; exact h.sim.front f)
      · refine (dedupInto_sim h.sim b q x y).bind ?_
        rintro s _ ⟨rfl, h⟩
        refine (get_sim s b).bind ?_
        rintro bb _ ⟨hb, rfl⟩
        refine SimR.iff (h.es_nil hb).symm (fun _ => ?_) (fun _ => ?_)
        · refine (SimR.same _).bind ?_
          rintro f _ rfl
          refine (SimR.same _).bind ?_
          rintro f _ rfl
          exact SimR.ret (h.sim.front f)
        · refine (SimR.same _).bind ?_
          rintro f _ rfl
          refine (SimR.same _).bind ?_
          rintro f _ rfl
          exact ih _ _ _ (h.sim.front f)

theorem keyDecreased_sim {s : State E} {t : Geobucket.State E} (h : Sim c s t) (b : ℕ) :
    SimR (Sim c) (keyDecreased c s b) (Geobucket.keyDecreased c t b) := by
  obtain ⟨rfl, h⟩ := h
  rw [keyDecreased, Geobucket.keyDecreased]
  refine SimR.iff Iff.rfl (fun _ => ?_) (fun _ => ?_)
  · rw [view_get]
    cases hb : s.buckets[b]? with
    | none => exact SimR.undef
    | some bb =>
      simp only [Option.map_some]
      refine SimR.iff (h.es_nil hb).symm (fun _ => ?_) (fun _ => ?_)
      · exact (SimR.same _).map (by rintro f _ rfl; exact h.sim.front f)
      · show SimR _ _ (match s.front.pos[b]? with
          | some (.slot p) =>
            if p + 1 ≤ s.front.fend then Geobucket.decLoop c b (s.front.fend - (p + 1)) p s.view else none
          | _ => none)
        rcases s.front.pos[b]? with _ | (_ | p | _)
        · exact SimR.undef
        · exact SimR.undef
        · exact SimR.iff Iff.rfl (fun _ => decLoop_sim b _ _ _ _ h.sim) (fun _ => SimR.undef)
        · exact SimR.undef
  · exact SimR.ret (h.sim.front _)

/-- Results that are an index, or an entry, and a state. -/
def SimP {α : Type} (c : Conf E) (r : α × State E) (r' : α × Geobucket.State E) : Prop :=
  r.1 = r'.1 ∧ Sim c r.2 r'.2

theorem maxLoop_sim : ∀ (n x it : ℕ) (s : State E) (t : Geobucket.State E), Sim c s t →
    SimR (SimP c) (maxLoop c n x it s) (Geobucket.maxLoop c n x it t) := by
  intro n
  induction n with
  | zero =>
    intro x it s t h
    exact SimR.ret ⟨rfl, h⟩
  | succ n ih =>
    rintro x it s t ⟨rfl, h⟩
    rw [maxLoop, Geobucket.maxLoop]
    refine (get_sim s it).bind ?_
    rintro ib _ ⟨hib, rfl⟩
    refine SimR.iff (h.es_nil hib).symm (fun _ => ih _ _ _ _ h.sim) (fun _ => ?_)
    refine (get_sim s x).bind ?_
    rintro mb _ ⟨hmb, rfl⟩
    refine (getBack_sim h hib).bind ?_
    rintro u _ rfl
    refine (getBack_sim h hmb).bind ?_
    rintro v _ rfl
    refine SimR.iff Iff.rfl (fun _ => ih _ _ _ _ h.sim) (fun _ => ?_)
    refine SimR.iff Iff.rfl (fun _ => ?_) (fun _ => ih _ _ _ _ h.sim)
    rw [h.es_length hmb]
    refine (setEntry_sim h hmb _ _).bind ?_
    rintro ⟨m, qb'⟩ w hu
    obtain ⟨h1, h2⟩ := hu.plain
    simp only
    rw [← h1]
    refine (get_sim _ it).bind ?_
    rintro bb _ ⟨hb, rfl⟩
    refine (popBack_sim h2 hb).bind ?_
    rintro bb' v' hu
    exact ih _ _ _ _ (hu _)

theorem findIdx?_congr {α : Type} {l : List α} {p q : α → Bool} (h : ∀ x ∈ l, p x = q x) :
    l.findIdx? p = l.findIdx? q := by
  induction l with
  | nil => rfl
  | cons x l ih =>
    rw [List.findIdx?_cons, List.findIdx?_cons, h x List.mem_cons_self,
      ih (fun y hy => h y (List.mem_cons_of_mem _ hy))]

theorem getMax_sim {s : State E} {t : Geobucket.State E} (h : Sim c s t) :
    SimR (SimP c) (getMax c s) (Geobucket.getMax c t) := by
  obtain ⟨rfl, h⟩ := h
  rw [getMax, Geobucket.getMax]
  refine SimR.iff Iff.rfl (fun _ => ?_) (fun _ => ?_)
  · refine SimR.iff Iff.rfl (fun _ => SimR.undef) (fun _ => ?_)
    exact (SimR.same _).map (by rintro b _ rfl; exact ⟨rfl, h.sim⟩)
  · show SimR _ _ (match s.front.cached with
      | some b => some (b, s.view)
      | none =>
        match s.view.buckets.findIdx? (fun b => !b.es.isEmpty) with
        | none => none
        | some m =>
          (Geobucket.maxLoop c (s.view.buckets.length - (m + 1)) m (m + 1) s.view).map
            (fun r => (r.1, { r.2 with front := { r.2.front with cached := some r.1 } })))
    cases s.front.cached with
    | some b => exact SimR.ret ⟨rfl, h.sim⟩
    | none =>
      have he : s.view.buckets.findIdx? (fun b => !b.es.isEmpty) = s.buckets.findIdx? (fun b => decide (b.size ≠ 0)) := by
        rw [State.view, List.findIdx?_map]
        apply findIdx?_congr
        intro b hb
        obtain ⟨j, hj⟩ := List.getElem?_of_mem hb
        have := h.es_nil hj
        rw [Function.comp_apply, Bool.eq_iff_iff, decide_eq_true_iff, Ne, ← this]
        simp
      rw [he, view_length]
      cases s.buckets.findIdx? (fun b => decide (b.size ≠ 0)) with
      | none => exact SimR.undef
      | some x =>
        refine (maxLoop_sim _ _ _ _ _ h.sim).map ?_
        rintro ⟨a, s'⟩ ⟨b, t'⟩ ⟨rfl, rfl, h'⟩
        exact ⟨rfl, h'.sim.front _⟩

/-! ## Moving areas -/

/-- With buffers of the same size, bucket `i` takes over the temporary area and gives up its own. -/
theorem Ok.swap_tmp {s : State E} (h : Ok c s) (hst : c.storage = .sameSize) {i : ℕ} {b b' : Bucket E}
    (hb : s.buckets[i]? = some b) (h1 : b'.start = s.tmp) (h2 : b'.other = b.other) (h3 : b'.cap = b.cap)
    (h4 : b'.size ≤ b'.cap) {m : List E} (hm : m.length = s.mem.length) (n : ℕ) :
    Ok c { s with mem := m, buckets := s.buckets.set i b', tmp := b.start, count := n } := by
  have hcaps := Ok.map_cap_set (b' := b') hb h3
  have hl := last_congr (s := s) (s' := { s with mem := m, buckets := s.buckets.set i b', tmp := b.start, count := n }) hcaps
  refine h.rename (Equiv.swap (.main i) .tmp) (Equiv.injective _) ?_ hm hcaps ?_ ?_ h.tmp2
  · intro id'
    by_cases e1 : id' = .main i
    · subst e1
      rw [Equiv.swap_apply_left]
      simp only [State.area, hl, Ok.get_set b' hb i, if_true, Option.map_some, h1, if_pos hst]
    · by_cases e2 : id' = .tmp
      · subst e2
        rw [Equiv.swap_apply_right]
        simp only [State.area, hl, hb, Option.map_some, if_pos hst]
      · rw [Equiv.swap_apply_of_ne_of_ne e1 e2]
        cases id' with
        | main j =>
          have e : j ≠ i := fun e => e1 (by rw [e])
          simp only [State.area, hl, Ok.get_set b' hb j, if_neg e]
        | other j =>
          simp only [State.area, Ok.get_set b' hb j]
          by_cases e : j = i
          · subst e
            simp [hb, h2, h3]
          · rw [if_neg e]
        | tmp => exact absurd rfl e2
        | tmp2 => simp only [State.area, hl]
  · intro x hx
    rcases List.mem_or_eq_of_mem_set hx with hx | rfl
    · exact h.fits x hx
    · exact h4
  · intro x hx
    rcases List.mem_or_eq_of_mem_set hx with hx | rfl
    · exact h.double x hx
    · rw [h2]
      exact h.double b (List.mem_of_getElem? hb)

/-- With double buffers, bucket `i` swaps its two areas. -/
theorem Ok.swap_other {s : State E} (h : Ok c s) (hst : c.storage = .doubleBuffer) {i o : ℕ} {b b' : Bucket E}
    (hb : s.buckets[i]? = some b) (ho : b.other = some o) (h1 : b'.start = o) (h2 : b'.other = some b.start)
    (h3 : b'.cap = b.cap) (h4 : b'.size ≤ b'.cap) {m : List E} (hm : m.length = s.mem.length) (n : ℕ) :
    Ok c { s with mem := m, buckets := s.buckets.set i b', count := n } := by
  have hcaps := Ok.map_cap_set (b' := b') hb h3
  have hl := last_congr (s := s) (s' := { s with mem := m, buckets := s.buckets.set i b', count := n }) hcaps
  have hns : c.storage ≠ .sameSize := by rw [hst]; nofun
  refine h.rename (Equiv.swap (.main i) (.other i)) (Equiv.injective _) ?_ hm hcaps ?_ ?_ h.tmp2
  · intro id'
    by_cases e1 : id' = .main i
    · subst e1
      rw [Equiv.swap_apply_left]
      simp only [State.area, Ok.get_set b' hb i, if_true, Option.map_some, h1, h3, if_neg hns, hb, Option.bind_some, ho]
    · by_cases e2 : id' = .other i
      · subst e2
        rw [Equiv.swap_apply_right]
        simp only [State.area, hb, Ok.get_set b' hb i, if_true, Option.map_some, if_neg hns, Option.bind_some, h2, h3]
      · rw [Equiv.swap_apply_of_ne_of_ne e1 e2]
        cases id' with
        | main j =>
          have e : j ≠ i := fun e => e1 (by rw [e])
          simp only [State.area, hl, Ok.get_set b' hb j, if_neg e]
        | other j =>
          have e : j ≠ i := fun e => e2 (by rw [e])
          simp only [State.area, Ok.get_set b' hb j, if_neg e]
        | tmp => simp only [State.area, hl]
        | tmp2 => simp only [State.area, hl]
  · intro x hx
    rcases List.mem_or_eq_of_mem_set hx with hx | rfl
    · exact h.fits x hx
    · exact h4
  · intro x hx
    rcases List.mem_or_eq_of_mem_set hx with hx | rfl
    · exact h.double x hx
    · rw [h2, hst]
      rfl

/-- The two temporary areas are swapped. -/
theorem Ok.swap_tmps {s : State E} (h : Ok c s) {t : ℕ} (ht : s.tmp2 = some t) {m : List E}
    (hm : m.length = s.mem.length) (n : ℕ) :
    Ok c { s with mem := m, tmp := t, tmp2 := some s.tmp, count := n } := by
  refine h.rename (Equiv.swap .tmp .tmp2) (Equiv.injective _) ?_ hm rfl h.fits h.double ?_
  · intro id'
    by_cases e1 : id' = .tmp
    · subst e1
      rw [Equiv.swap_apply_left]
      simp only [State.area, ht, Option.map_some]
      rfl
    · by_cases e2 : id' = .tmp2
      · subst e2
        rw [Equiv.swap_apply_right]
        simp only [State.area, Option.map_some]
        rfl
      · rw [Equiv.swap_apply_of_ne_of_ne e1 e2]
        cases id' with
        | main j => rfl
        | other j => rfl
        | tmp => exact absurd rfl e1
        | tmp2 => exact absurd rfl e2
  · have := h.tmp2
    rw [ht] at this
    exact this

/-- With buffers of the same size, two buckets swap their areas. -/
theorem Ok.swap_main {s : State E} (h : Ok c s) (hst : c.storage = .sameSize) {i j : ℕ} (hij : i ≠ j)
    {b b' d d' : Bucket E} (hb : s.buckets[i]? = some b) (hd : s.buckets[j]? = some d)
    (h1 : b'.start = d.start) (h2 : b'.other = b.other) (h3 : b'.cap = b.cap) (h4 : b'.size ≤ b'.cap)
    (g1 : d'.start = b.start) (g2 : d'.other = d.other) (g3 : d'.cap = d.cap) (g4 : d'.size ≤ d'.cap) :
    Ok c ((s.setBucket i b').setBucket j d') := by
  have hd1 : (s.buckets.set i b')[j]? = some d := by rw [Ok.get_set b' hb, if_neg (fun e => hij e.symm), hd]
  have hget : ∀ k : ℕ, ((s.buckets.set i b').set j d')[k]? =
      if k = j then some d' else if k = i then some b' else s.buckets[k]? := by
    intro k
    rw [Ok.get_set d' hd1, Ok.get_set b' hb]
  have hcaps : ((s.setBucket i b').setBucket j d').buckets.map Bucket.cap = s.buckets.map Bucket.cap :=
    (Ok.map_cap_set hd1 g3).trans (Ok.map_cap_set hb h3)
  have hl := last_congr hcaps
  refine h.rename (Equiv.swap (.main i) (.main j)) (Equiv.injective _) ?_ rfl hcaps ?_ ?_ h.tmp2
  · intro id'
    by_cases e1 : id' = .main i
    · subst e1
      rw [Equiv.swap_apply_left]
      simp only [State.area, hl]
      simp only [State.setBucket, hget, if_neg hij, if_true, Option.map_some, h1, if_pos hst, hd]
    · by_cases e2 : id' = .main j
      · subst e2
        rw [Equiv.swap_apply_right]
        simp only [State.area, hl]
        simp only [State.setBucket, hget, if_true, Option.map_some, g1, if_pos hst, hb]
      · rw [Equiv.swap_apply_of_ne_of_ne e1 e2]
        cases id' with
        | main k =>
          have e : k ≠ i := fun e => e1 (by rw [e])
          have e' : k ≠ j := fun e => e2 (by rw [e])
          simp only [State.area, hl]
          simp only [State.setBucket, hget, if_neg e, if_neg e']
        | other k =>
          simp only [State.area]
          simp only [State.setBucket, hget]
          by_cases e' : k = j
          · subst e'
            simp [hd, g2, g3]
          · rw [if_neg e']
            by_cases e : k = i
            · subst e
              simp [hb, h2, h3]
            · rw [if_neg e]
        | tmp => simp only [State.area, hl]; rfl
        | tmp2 => simp only [State.area, hl]; rfl
  · intro x hx
    rcases List.mem_or_eq_of_mem_set hx with hx | rfl
    · rcases List.mem_or_eq_of_mem_set hx with hx | rfl
      · exact h.fits x hx
      · exact h4
    · exact g4
  · intro x hx
    rcases List.mem_or_eq_of_mem_set hx with hx | rfl
    · rcases List.mem_or_eq_of_mem_set hx with hx | rfl
      · exact h.double x hx
      · rw [h2]
        exact h.double b (List.mem_of_getElem? hb)
    · rw [g2]
      exact h.double d (List.mem_of_getElem? hd)

end Verif.GeoMem
