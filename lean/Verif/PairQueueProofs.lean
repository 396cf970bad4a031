import Verif.PairQueueSpec
import Verif.TourTreeXProofs

/-!
# Helper lemmas on pair queues
-/

namespace Verif.PairQueue

open TourTree (entries)

variable {D : Type}

/-- The current pair of a column. -/
def key (mem : List (Column D)) (p : ℕ) : ℕ × ℕ :=
  match mem[p]? with
  | some ⟨c, r :: _, _⟩ => (c, r)
  | _ => (0, 0)

/-- The order of the column queue while memory is as given. -/
def qc (cf : Conf D) (mem : List (Column D)) : PQConf ℕ where
  lt p q := cf.ltPair (key mem p) (key mem q)
  eq _ _ := false
  supportDedup := false
  dedup a _ := a

theorem qc_weak {cf : Conf D} (h : StrictWeak cf.ltPair) (mem : List (Column D)) :
    StrictWeak (qc cf mem).lt :=
  ⟨fun _ => h.irrefl _, fun _ _ _ => h.trans _ _ _, fun _ _ _ => h.negTrans _ _ _⟩

/-- A column as it is while in the queue. -/
structure GoodColumn (cf : Conf D) (n : ℕ) (c : Column D) : Prop where
  ne : c.rows ≠ []
  data : ∀ r ∈ c.rows.head?, c.data = some (cf.compute c.col r)
  col : c.col < n
  rows : ∀ r ∈ c.rows, r < c.col
  desc : Descending cf.ltPair (c.rows.map (fun r => (c.col, r)))

/-- The pairs of a column. -/
def colPairs (mem : List (Column D)) (p : ℕ) : List (ℕ × ℕ) :=
  match mem[p]? with
  | none => []
  | some c => c.rows.map (fun r => (c.col, r))

/-- All pairs in columns, retired or not. -/
def allPairs (s : State D) : List (ℕ × ℕ) := (entries s.queue).flatMap (colPairs s.mem)

/-- The part of the invariant that `pop` keeps in each round. -/
structure Core (cf : Conf D) (s : State D) : Prop where
  order : TourTree.Inv (qc cf s.mem) s.queue
  nodup : (entries s.queue).Nodup
  good : ∀ p ∈ entries s.queue, ∃ c, s.mem[p]? = some c ∧ GoodColumn cf s.count c
  dead : ∀ p c, s.mem[p]? = some c → p ∉ entries s.queue → c.data = none
  retLen : cf.support = true → s.ret.length = s.count

theorem compare_good {cf : Conf D} {f : Faults} (hf : ∀ a b, f.compare a b = false)
    {mem : List (Column D)} {n : ℕ} {p q : ℕ} {a b : Column D} (ha : mem[p]? = some a)
    (hb : mem[q]? = some b) (ga : GoodColumn cf n a) (gb : GoodColumn cf n b) :
    compare cf f mem p q = .val ((qc cf mem).lt p q) := by
  obtain ⟨ca, ra, da⟩ := a
  obtain ⟨cb, rb, db⟩ := b
  cases ra with
  | nil => exact absurd rfl ga.ne
  | cons ra la =>
    cases rb with
    | nil => exact absurd rfl gb.ne
    | cons rb lb =>
      have h1 := ga.data ra (by simp)
      have h2 := gb.data rb (by simp)
      simp only at h1 h2
      subst h1 h2
      simp only [compare, ha, hb, hf, qc, key, Conf.ltPair]
      simp

theorem key_congr {mem mem' : List (Column D)} {p : ℕ} (h : mem'[p]? = mem[p]?) :
    key mem' p = key mem p := by
  unfold key; rw [h]

theorem colPairs_congr {mem mem' : List (Column D)} {p : ℕ} (h : mem'[p]? = mem[p]?) :
    colPairs mem' p = colPairs mem p := by
  unfold colPairs; rw [h]

theorem top_mem {s : TourTree.State ℕ} {p : ℕ} (h : TourTree.top s = some p) : p ∈ entries s := by
  unfold TourTree.top at h
  obtain ⟨w, h1, h⟩ := Option.bind_eq_some_iff.mp h
  obtain ⟨q, h2, h⟩ := Option.bind_eq_some_iff.mp h
  cases h
  exact List.mem_map_of_mem (List.mem_of_getElem? h2)

/-- Taking the top column off the queue. -/
theorem removeTop {cf : Conf D} (hc : StrictWeak cf.ltPair) {f : Faults}
    (hf : ∀ a b, f.compare a b = false) {s : State D} (h : Core cf s) {p : ℕ}
    (hp : TourTree.top s.queue = some p) (mem' : List (Column D)) (log' : List (Event D))
    (hother : ∀ q, q ≠ p → mem'[q]? = s.mem[q]?) (hdata : ∀ c, mem'[p]? = some c → c.data = none) :
    ∃ q', TourTree.popX (compare cf f mem') s.queue = .ok q' ∧
      Core cf { s with mem := mem', queue := q', log := log' } ∧
      (p :: entries q').Perm (entries s.queue) := by
  obtain ⟨x, q', h1, h2, h3, h4, h5⟩ := TourTree.pop_spec (qc cf s.mem) h.order.toShape
    (List.ne_nil_of_mem (top_mem hp))
  rw [hp] at h1
  cases h1
  have hpn : p ∉ entries q' ∧ (entries q').Nodup := by
    have := h4.nodup_iff.mpr h.nodup
    rw [List.nodup_cons] at this
    exact this
  have hsub : ∀ a ∈ entries q', a ∈ entries s.queue := fun a ha => h4.subset (List.mem_cons_of_mem _ ha)
  have hne : ∀ a ∈ entries q', a ≠ p := by
    rintro a ha rfl
    exact hpn.1 ha
  have hlt : ∀ a ∈ entries q', ∀ b ∈ entries q', (qc cf mem').lt a b = (qc cf s.mem).lt a b := by
    intro a ha b hb
    simp only [qc]
    rw [key_congr (hother a (hne a ha)), key_congr (hother b (hne b hb))]
  refine ⟨q', TourTree.popX_eq (qc cf s.mem) _ h2 ?_, ?_, h4⟩
  · intro a ha b hb
    obtain ⟨ca, a1, a2⟩ := h.good a (hsub a ha)
    obtain ⟨cb, b1, b2⟩ := h.good b (hsub b hb)
    rw [← hother a (hne a ha)] at a1
    rw [← hother b (hne b hb)] at b1
    rw [compare_good hf a1 b1 a2 b2, hlt a ha b hb]
  · refine ⟨(h5 (qc_weak hc _) h.order).congr hlt, hpn.2, ?_, ?_, h.retLen⟩
    · intro a ha
      obtain ⟨ca, a1, a2⟩ := h.good a (hsub a ha)
      exact ⟨ca, by rw [← hother a (hne a ha)] at a1; exact a1, a2⟩
    · intro a c hac ha
      by_cases hap : a = p
      · subst hap
        exact hdata c hac
      · have hac' : s.mem[a]? = some c := by rw [← hother a hap]; exact hac
        refine h.dead a c hac' ?_
        intro hmem
        rcases List.mem_cons.mp (h4.symm.subset hmem) with h' | h'
        · exact hap h'
        · exact ha h'

/-- Changing the top column and telling the queue. -/
theorem keepTop {cf : Conf D} (hc : StrictWeak cf.ltPair) {f : Faults}
    (hf : ∀ a b, f.compare a b = false) {s : State D} (h : Core cf s) {p : ℕ}
    (hp : TourTree.top s.queue = some p) (mem' : List (Column D)) (log' : List (Event D))
    (hother : ∀ q, q ≠ p → mem'[q]? = s.mem[q]?)
    (hgood : ∃ c, mem'[p]? = some c ∧ GoodColumn cf s.count c) :
    ∃ q', TourTree.decreaseTopX (compare cf f mem') s.queue p = .ok q' ∧
      Core cf { s with mem := mem', queue := q', log := log' } ∧
      entries q' = entries s.queue := by
  obtain ⟨x, q', h1, h2, h3, i, h4, h5, h6⟩ := TourTree.decreaseTop_core (qc cf mem')
    h.order.toShape (List.ne_nil_of_mem (top_mem hp)) p
  rw [hp] at h1
  cases h1
  have he : entries q' = entries s.queue := by
    rw [h5]
    obtain ⟨hi, hi'⟩ := List.getElem?_eq_some_iff.mp h4
    rw [← hi', List.set_getElem_self]
  have hgood' : ∀ a ∈ entries s.queue, ∃ c, mem'[a]? = some c ∧ GoodColumn cf s.count c := by
    intro a ha
    by_cases hap : a = p
    · subst hap
      exact hgood
    · obtain ⟨c, h1, h2⟩ := h.good a ha
      exact ⟨c, by rw [hother a hap]; exact h1, h2⟩
  refine ⟨q', TourTree.decreaseTopX_eq (qc cf mem') _ h2 ?_, ?_, he⟩
  · intro a ha b hb
    rw [he] at ha hb
    obtain ⟨ca, a1, a2⟩ := hgood' a ha
    obtain ⟨cb, b1, b2⟩ := hgood' b hb
    exact compare_good hf a1 b1 a2 b2
  · refine ⟨h6 (qc cf s.mem) (qc_weak hc _) h.order ?_, ?_, ?_, ?_, h.retLen⟩
    · intro j k a b hj hk ha hb
      have hne : ∀ j a, j ≠ i → (entries s.queue)[j]? = some a → a ≠ p := by
        rintro j a hj ha rfl
        obtain ⟨l1, e1⟩ := List.getElem?_eq_some_iff.mp ha
        obtain ⟨l2, e2⟩ := List.getElem?_eq_some_iff.mp h4
        exact hj ((h.nodup.getElem_inj_iff).mp (e1.trans e2.symm))
      simp only [qc]
      rw [key_congr (hother a (hne j a hj ha)), key_congr (hother b (hne k b hk hb))]
    · show (entries q').Nodup
      rw [he]; exact h.nodup
    · intro a ha
      have ha : a ∈ entries q' := ha
      rw [he] at ha
      exact hgood' a ha
    · intro a c hac ha
      have ha : a ∉ entries q' := ha
      rw [he] at ha
      have hap : a ≠ p := by
        rintro rfl
        exact ha (top_mem hp)
      exact h.dead a c (by rw [← hother a hap]; exact hac) ha

/-- Whether an index counts as retired. -/
def deadI (cf : Conf D) (ret : List Bool) (i : ℕ) : Bool := cf.support && ret[i]?.getD false

/-- Whether a pair involves no retired index. -/
def aliveP (cf : Conf D) (ret : List Bool) (x : ℕ × ℕ) : Bool :=
  !deadI cf ret x.1 && !deadI cf ret x.2

theorem retired_eq {cf : Conf D} {s : State D} (h : Core cf s) {i : ℕ} (hi : i < s.count) :
    retired cf s.ret i = some (deadI cf s.ret i) := by
  unfold retired deadI
  cases hs : cf.support with
  | false => simp
  | true =>
    have := h.retLen hs
    simp [List.getElem?_eq_getElem (show i < s.ret.length by omega)]

theorem advance_spec {ret : ℕ → Option Bool} {d : ℕ → Bool} : ∀ (l : List ℕ) (prev : ℕ),
    (∀ r ∈ l, ret r = some (d r)) →
    ∃ last skipped rem, advance ret prev l = some (last, rem) ∧ l = skipped ++ rem ∧
      (∀ r ∈ skipped, d r = true) ∧ (∀ r ∈ rem.head?, d r = false) ∧
      (skipped = [] → last = prev) := by
  intro l
  induction l with
  | nil => intro prev _; exact ⟨prev, [], [], rfl, rfl, by simp, by simp, fun _ => rfl⟩
  | cons r l ih =>
    intro prev h
    have hr := h r (by simp)
    cases hd : d r with
    | false =>
      refine ⟨prev, [], r :: l, ?_, rfl, by simp, by simp [hd], fun _ => rfl⟩
      simp [advance, hr, hd]
    | true =>
      obtain ⟨last, sk, rem, h1, h2, h3, h4, _⟩ := ih r (fun x hx => h x (by simp [hx]))
      refine ⟨last, r :: sk, rem, ?_, by rw [h2]; rfl, ?_, h4, nofun⟩
      · simp [advance, hr, hd, h1]
      · intro x hx
        rcases List.mem_cons.mp hx with rfl | hx
        · exact hd
        · exact h3 x hx

theorem set_other {mem : List (Column D)} {p : ℕ} {c : Column D} :
    ∀ q, q ≠ p → (mem.set p c)[q]? = mem[q]? := by
  intro q hq
  rw [List.getElem?_set, if_neg (Ne.symm hq)]

theorem set_self {mem : List (Column D)} {p : ℕ} {c c' : Column D} (h : mem[p]? = some c') :
    (mem.set p c)[p]? = some c := by
  rw [List.getElem?_set, if_pos rfl, if_pos (List.getElem?_eq_some_iff.mp h).1]

theorem flatMap_other {mem mem' : List (Column D)} {l : List ℕ}
    (h : ∀ q ∈ l, mem'[q]? = mem[q]?) : l.flatMap (colPairs mem') = l.flatMap (colPairs mem) := by
  induction l with
  | nil => rfl
  | cons a l ih =>
    rw [List.flatMap_cons, List.flatMap_cons, colPairs_congr (h a (by simp)),
      ih (fun q hq => h q (by simp [hq]))]

theorem perm_cons_erase' {l : List ℕ} {p : ℕ} (h : p ∈ l) (hn : l.Nodup) :
    ∃ l', l.Perm (p :: l') ∧ p ∉ l' := by
  refine ⟨l.erase p, List.perm_cons_erase h, ?_⟩
  exact hn.not_mem_erase

theorem constructs_append (a b : List (Event D)) :
    constructs (a ++ b) = constructs a + constructs b := by
  induction a with
  | nil => simp [constructs]
  | cons e a ih => cases e <;> simp [constructs, ih]; omega

theorem destructs_append (a b : List (Event D)) :
    destructs (a ++ b) = destructs a + destructs b := by
  induction a with
  | nil => simp [destructs]
  | cons e a ih => cases e <;> simp [destructs, ih]; omega

/-- What `pop` does to the pairs in one round or in all: `x` is the top pair. -/
structure Round (cf : Conf D) (s s' : State D) (x : ℕ × ℕ) : Prop where
  core : Core cf s'
  ret : s'.ret = s.ret
  count : s'.count = s.count
  pairs : ∃ removed, (allPairs s).Perm (removed ++ allPairs s') ∧ removed ≠ [] ∧
    removed.filter (aliveP cf s.ret) = [x].filter (aliveP cf s.ret) ∧
    (cf.support = false → removed = [x])
  log : ∃ new, s'.log = s.log ++ new ∧ constructs new = 0 ∧
    destructs new + (entries s'.queue).length = (entries s.queue).length ∧
    (∀ c r, .compute c r ∈ new → aliveP cf s.ret (c, r) = true) ∧
    ((∀ i, deadI cf s.ret i = false) → ∀ c r d, .destruct c r d ∈ new → d = cf.compute c r)

theorem popBody_spec {cf : Conf D} (hc : StrictWeak cf.ltPair) {f : Faults}
    (hf : ∀ a b, f.compare a b = false) (hf' : ∀ a b, f.compute a b = false) {s : State D}
    (h : Core cf s) {p : ℕ} (hp : TourTree.top s.queue = some p) :
    ∃ s', popBody cf f s p = .ok s' ∧ Round cf s s' (key s.mem p) := by
  obtain ⟨⟨c, rows, data⟩, hm, hg⟩ := h.good p (top_mem hp)
  have hcol : c < s.count := hg.col
  have hrows : ∀ r ∈ rows, r < c := hg.rows
  cases rows with
  | nil => exact absurd rfl hg.ne
  | cons r l =>
  have hd : data = some (cf.compute c r) := hg.data r (by simp)
  subst hd
  have hkey : key s.mem p = (c, r) := by simp [key, hm]
  obtain ⟨rest, hrest, hpr⟩ := perm_cons_erase' (top_mem hp) h.nodup
  have hpairs : (allPairs s).Perm ((r :: l).map (fun x => (c, x)) ++ rest.flatMap (colPairs s.mem)) := by
    unfold allPairs
    refine (hrest.flatMap_right _).trans ?_
    rw [List.flatMap_cons]
    simp [colPairs, hm]
  -- a column that is taken off
  have hremove : ∀ (mem' : List (Column D)) (log' : List (Event D))
      (q' : TourTree.State ℕ), (∀ q, q ≠ p → mem'[q]? = s.mem[q]?) →
      (p :: entries q').Perm (entries s.queue) →
      (allPairs s).Perm ((r :: l).map (fun x => (c, x)) ++
        allPairs { s with mem := mem', queue := q', log := log' }) := by
    intro mem' log' q' ho hpe
    refine hpairs.trans (List.Perm.append_left _ ?_)
    unfold allPairs
    have hpe' : (entries q').Perm rest := by
      have := hpe.trans hrest
      exact List.Perm.cons_inv this
    rw [flatMap_other (mem := s.mem) (mem' := mem')]
    · exact (hpe'.symm.flatMap_right _)
    · intro q hq
      refine ho q ?_
      rintro rfl
      exact hpr (hpe'.subset hq)
  have hlen : ∀ q' : TourTree.State ℕ, (p :: entries q').Perm (entries s.queue) →
      1 + (entries q').length = (entries s.queue).length := by
    intro q' hpe
    have := hpe.length_eq
    simp only [List.length_cons] at this
    omega
  unfold popBody
  simp only [hm]
  rw [retired_eq h hcol]
  cases hdc : deadI cf s.ret c with
  | true =>
    simp only
    obtain ⟨q', g1, g2, g3⟩ := removeTop hc hf h hp (s.mem.set p ⟨c, r :: l, none⟩)
      (s.log ++ [.destruct c r (cf.compute c r)]) set_other
      (by intro x hx; rw [set_self hm] at hx; cases hx; rfl)
    refine ⟨_, ?_, g2, rfl, rfl, ?_, ?_⟩
    · simp only [destroyTop, destructColumn, hm, g1, Res.map]
    · refine ⟨(r :: l).map (fun x => (c, x)), hremove _ _ q' set_other g3, by simp, ?_, ?_⟩
      · rw [hkey]
        have h0 : ∀ x : ℕ, aliveP cf s.ret (c, x) = false := by intro x; simp [aliveP, hdc]
        rw [List.filter_eq_nil_iff.mpr, List.filter_eq_nil_iff.mpr]
        · intro x hx
          simp only [List.mem_singleton] at hx
          rw [hx, h0]; simp
        · intro x hx
          obtain ⟨y, _, rfl⟩ := List.mem_map.mp hx
          rw [h0]; simp
      · intro hs
        simp [deadI, hs] at hdc
    · refine ⟨[.destruct c r (cf.compute c r)], rfl, rfl, ?_, by simp, ?_⟩
      rotate_left
      · intro hno
        rw [hno] at hdc
        cases hdc
      have := hlen q' g3
      simp only [destructs]
      omega
  | false =>
    simp only
    obtain ⟨last, sk, rem, a1, a2, a3, a4, a5⟩ := advance_spec (ret := retired cf s.ret)
      (d := deadI cf s.ret) l r (fun x hx => retired_eq h (lt_trans (hrows x (by simp [hx])) hcol))
    have hsk : ((r :: sk).map (fun x => (c, x))).filter (aliveP cf s.ret) =
        [(c, r)].filter (aliveP cf s.ret) := by
      rw [List.map_cons, List.filter_cons, List.filter_cons, List.filter_nil]
      have : (sk.map (fun x => (c, x))).filter (aliveP cf s.ret) = [] := by
        rw [List.filter_eq_nil_iff]
        intro x hx
        obtain ⟨y, hy, rfl⟩ := List.mem_map.mp hx
        simp [aliveP, a3 y hy]
      rw [this]
    have hsup : cf.support = false → sk = [] := by
      intro hs
      cases sk with
      | nil => rfl
      | cons y sk =>
        have := a3 y (by simp)
        simp [deadI, hs] at this
    cases rem with
    | nil =>
      have hinc : increment cf f s p =
          .ok { s with mem := s.mem.set p ⟨c, [], none⟩,
                       log := s.log ++ [.destruct c last (cf.compute c r)] } := by
        simp only [increment, hm, a1]
      rw [hinc]
      simp only [set_self hm, if_true]
      obtain ⟨q', g1, g2, g3⟩ := removeTop hc hf h hp (s.mem.set p ⟨c, [], none⟩)
        (s.log ++ [.destruct c last (cf.compute c r)]) set_other
        (by intro x hx; rw [set_self hm] at hx; cases hx; rfl)
      refine ⟨_, ?_, g2, rfl, rfl, ?_, ?_⟩
      · simp only [destroyTop, destructColumn, set_self hm, g1, Res.map]
      · have hl : l = sk := by rw [a2, List.append_nil]
        refine ⟨(r :: l).map (fun x => (c, x)), hremove _ _ q' set_other g3, by simp, ?_, ?_⟩
        · rw [hkey, hl]
          exact hsk
        · intro hs
          rw [hl, hsup hs, hkey]
          rfl
      · refine ⟨[.destruct c last (cf.compute c r)], rfl, rfl, ?_, by simp, ?_⟩
        rotate_left
        · intro hno a b d hd
          have hsk0 : sk = [] := by
            cases sk with
            | nil => rfl
            | cons y sk =>
              have := a3 y (by simp)
              rw [hno] at this
              cases this
          simp only [List.mem_singleton, Event.destruct.injEq] at hd
          rw [hd.1, hd.2.1, hd.2.2, a5 hsk0]
        have := hlen q' g3
        simp only [destructs]
        omega
    | cons r' l' =>
      have hinc : increment cf f s p =
          .ok { s with mem := s.mem.set p ⟨c, r' :: l', some (cf.compute c r')⟩,
                       log := s.log ++ [.compute c r'] } := by
        simp [increment, hm, a1, hf']
      rw [hinc]
      simp only [set_self hm]
      rw [if_neg (by simp)]
      have hsub : ∀ x ∈ r' :: l', x ∈ r :: l := by
        intro x hx
        rw [a2]
        simp only [List.mem_cons, List.mem_append] at hx ⊢
        tauto
      obtain ⟨q', g1, g2, g3⟩ := keepTop hc hf h hp
        (s.mem.set p ⟨c, r' :: l', some (cf.compute c r')⟩) (s.log ++ [.compute c r']) set_other
        ⟨_, set_self hm, by simp, by simp, hcol, fun x hx => hrows x (hsub x hx), by
          have := hg.desc
          simp only at this
          rw [a2, ← List.cons_append, List.map_append] at this
          exact (List.pairwise_append.mp this).2.1⟩
      refine ⟨_, ?_, g2, rfl, rfl, ?_, ?_⟩
      · simp only [g1, Res.map]
      · refine ⟨(r :: sk).map (fun x => (c, x)), ?_, by simp, ?_, ?_⟩
        · refine hpairs.trans ?_
          have : (allPairs ⟨s.mem.set p ⟨c, r' :: l', some (cf.compute c r')⟩, q', s.count, s.ret,
                s.log ++ [.compute c r']⟩).Perm
              ((r' :: l').map (fun x => (c, x)) ++ rest.flatMap (colPairs s.mem)) := by
            unfold allPairs
            simp only [g3]
            refine (hrest.flatMap_right _).trans ?_
            rw [List.flatMap_cons]
            simp only [colPairs, set_self hm]
            rw [flatMap_other]
            intro q hq
            refine set_other q ?_
            rintro rfl
            exact hpr hq
          refine List.Perm.trans ?_ (this.symm.append_left _)
          rw [a2, ← List.append_assoc, ← List.map_append]
          simp
        · rw [hkey]; exact hsk
        · intro hs
          rw [hsup hs, hkey]
          rfl
      · refine ⟨[.compute c r'], rfl, rfl, ?_, ?_, by simp⟩
        · show 0 + (entries q').length = _
          rw [g3]; omega
        · intro a b hab
          simp only [List.mem_singleton, Event.compute.injEq] at hab
          rw [hab.1, hab.2]
          simp [aliveP, hdc, a4 r' (by simp)]

theorem pairTotal_eq (s : State D) : pairTotal s = (allPairs s).length := by
  unfold pairTotal allPairs
  rw [List.length_flatMap]
  congr 1
  apply List.map_congr_left
  intro p _
  unfold rowsLeft colPairs
  cases s.mem[p]? <;> simp

theorem involves_eq {cf : Conf D} {s : State D} (h : Core cf s) {p : ℕ}
    (hp : p ∈ entries s.queue) :
    involvesRetired cf s p = some (!aliveP cf s.ret (key s.mem p)) := by
  obtain ⟨⟨c, rows, data⟩, hm, hg⟩ := h.good p hp
  have hcol : c < s.count := hg.col
  cases rows with
  | nil => exact absurd rfl hg.ne
  | cons r l =>
    have hr : r < c := hg.rows r (by simp)
    unfold involvesRetired
    simp only [hm]
    rw [retired_eq h hcol]
    have hk : key s.mem p = (c, r) := by simp [key, hm]
    rw [hk]
    cases hd : deadI cf s.ret c with
    | true => simp [aliveP, hd]
    | false =>
      simp only
      rw [retired_eq h (lt_trans hr hcol)]
      simp [aliveP, hd]

theorem Round.trans {cf : Conf D} {s s₁ s₂ : State D} {x y : ℕ × ℕ} (h₁ : Round cf s s₁ x)
    (h₂ : Round cf s₁ s₂ y) (hs : cf.support = true) (hy : aliveP cf s₁.ret y = false) :
    Round cf s s₂ x := by
  obtain ⟨c1, r1, n1, ⟨m1, p1, q1, f1, _⟩, ⟨l1, e1, k1, d1, a1, b1⟩⟩ := h₁
  obtain ⟨c2, r2, n2, ⟨m2, p2, q2, f2, _⟩, ⟨l2, e2, k2, d2, a2, b2⟩⟩ := h₂
  refine ⟨c2, r2.trans r1, n2.trans n1, ⟨m1 ++ m2, ?_, by simp [q1], ?_, by simp [hs]⟩,
    ⟨l1 ++ l2, ?_, ?_, ?_, ?_, ?_⟩⟩
  · rw [List.append_assoc]
    exact p1.trans (p2.append_left _)
  · rw [List.filter_append, f1, ← r1, f2]
    simp [hy]
  · rw [e2, e1, List.append_assoc]
  · rw [constructs_append, k1, k2]
  · rw [destructs_append]
    omega
  · intro c r hcr
    rcases List.mem_append.mp hcr with h | h
    · exact a1 c r h
    · rw [← r1]; exact a2 c r h
  · intro hno c r d hcr
    rcases List.mem_append.mp hcr with h | h
    · exact b1 hno c r d h
    · exact b2 (by rw [r1]; exact hno) c r d h

theorem top_some {s : TourTree.State ℕ} (h : TourTree.Shape s) (hne : s.tree.length ≠ 0) :
    ∃ p, TourTree.top s = some p := by
  have hn : entries s ≠ [] := fun h0 => hne ((TourTree.nonempty_tree h).mpr h0)
  obtain ⟨x, _, h1, _⟩ := TourTree.pop_spec ⟨fun _ _ => false, fun _ _ => false, false, fun a _ => a⟩ h hn
  exact ⟨x, h1⟩

theorem popLoop_spec {cf : Conf D} (hc : StrictWeak cf.ltPair) {f : Faults}
    (hf : ∀ a b, f.compare a b = false) (hf' : ∀ a b, f.compute a b = false) :
    ∀ (n : ℕ) (s : State D) (p : ℕ), Core cf s → TourTree.top s.queue = some p →
      pairTotal s < n →
      ∃ s', popLoop cf f n s p = .ok s' ∧ Round cf s s' (key s.mem p) ∧
        (cf.support = true → ∀ q, TourTree.top s'.queue = some q →
          aliveP cf s'.ret (key s'.mem q) = true) := by
  intro n
  induction n with
  | zero => intro s p _ _ hn; omega
  | succ n ih =>
    intro s p h hp hn
    obtain ⟨s₁, h1, h2⟩ := popBody_spec hc hf hf' h hp
    unfold popLoop
    rw [h1]
    simp only
    by_cases he : cf.support = false ∨ s₁.queue.tree.length = 0
    · rw [if_pos he]
      refine ⟨s₁, rfl, h2, ?_⟩
      intro hs q hq
      rcases he with he | he
      · rw [hs] at he; cases he
      · have := top_mem hq
        rw [(TourTree.nonempty_tree h2.core.order.toShape).mp he] at this
        cases this
    · rw [if_neg he]
      push Not at he
      have hs : cf.support = true := by
        cases hh : cf.support with
        | true => rfl
        | false => exact absurd hh he.1
      obtain ⟨p₁, hp₁⟩ := top_some h2.core.order.toShape he.2
      rw [hp₁]
      simp only
      rw [involves_eq h2.core (top_mem hp₁)]
      cases ha : aliveP cf s₁.ret (key s₁.mem p₁) with
      | true =>
        refine ⟨s₁, rfl, h2, ?_⟩
        intro _ q hq
        rw [hp₁] at hq
        cases hq
        exact ha
      | false =>
        simp only [Bool.not_false]
        have hlt : pairTotal s₁ < n := by
          obtain ⟨m, g1, g2, _⟩ := h2.pairs
          have := g1.length_eq
          rw [List.length_append] at this
          have : m.length ≠ 0 := fun h0 => g2 (List.length_eq_zero_iff.mp h0)
          rw [pairTotal_eq] at hn ⊢
          omega
        obtain ⟨s₂, k1, k2, k3⟩ := ih s₁ p₁ h2.core hp₁ hlt
        exact ⟨s₂, k1, h2.trans k2 hs ha, k3⟩

theorem pop_spec {cf : Conf D} (hc : StrictWeak cf.ltPair) {f : Faults}
    (hf : ∀ a b, f.compare a b = false) (hf' : ∀ a b, f.compute a b = false) {s : State D}
    (h : Core cf s) {p : ℕ} (hp : TourTree.top s.queue = some p) :
    ∃ s', pop cf f s = .ok s' ∧ Round cf s s' (key s.mem p) ∧
        (cf.support = true → ∀ q, TourTree.top s'.queue = some q →
          aliveP cf s'.ret (key s'.mem q) = true) := by
  unfold pop
  rw [hp]
  exact popLoop_spec hc hf hf' _ s p h hp (by omega)

theorem topPair_eq {cf : Conf D} {s : State D} (h : Core cf s) {p : ℕ}
    (hp : TourTree.top s.queue = some p) : topPair s = some (key s.mem p) := by
  obtain ⟨⟨c, rows, data⟩, hm, hg⟩ := h.good p (top_mem hp)
  cases rows with
  | nil => exact absurd rfl hg.ne
  | cons r l => simp [topPair, hp, hm, key]

theorem topPairData_eq {cf : Conf D} {s : State D} (h : Core cf s) {p : ℕ}
    (hp : TourTree.top s.queue = some p) :
    topPairData s = some (cf.compute (key s.mem p).1 (key s.mem p).2) := by
  obtain ⟨⟨c, rows, data⟩, hm, hg⟩ := h.good p (top_mem hp)
  cases rows with
  | nil => exact absurd rfl hg.ne
  | cons r l =>
    have : data = some (cf.compute c r) := hg.data r (by simp)
    subst this
    simp [topPairData, hp, hm, key]

theorem key_mem {cf : Conf D} {s : State D} (h : Core cf s) {p : ℕ} (hp : p ∈ entries s.queue) :
    key s.mem p ∈ allPairs s := by
  obtain ⟨⟨c, rows, data⟩, hm, hg⟩ := h.good p hp
  cases rows with
  | nil => exact absurd rfl hg.ne
  | cons r l =>
    refine List.mem_flatMap.mpr ⟨p, hp, ?_⟩
    simp [colPairs, hm, key]

/-- No pair in a column is larger than the top pair. -/
theorem top_max {cf : Conf D} (hc : StrictWeak cf.ltPair) {s : State D} (h : Core cf s) {p : ℕ}
    (hp : TourTree.top s.queue = some p) :
    ∀ y ∈ allPairs s, cf.ltPair (key s.mem p) y = false := by
  intro y hy
  obtain ⟨q, hq, hy⟩ := List.mem_flatMap.mp hy
  have h1 : (qc cf s.mem).lt p q = false := by
    have hent : TourTree.entAt s.queue.players s.queue.tree 1 = some p := by
      unfold TourTree.top at hp
      obtain ⟨w, e1, hp⟩ := Option.bind_eq_some_iff.mp hp
      obtain ⟨x, e2, hp⟩ := Option.bind_eq_some_iff.mp hp
      cases hp
      exact TourTree.entAt_of e1 e2
    obtain ⟨x, hx, rfl⟩ := List.mem_map.mp hq
    obtain ⟨i, hi⟩ := List.mem_iff_getElem?.mp hx
    have hlr := TourTree.leaf_range h.order.toShape hi
    exact TourTree.root_max (qc_weak hc _) h.order hent x.2 (by omega) x.1
      (TourTree.entAt_of (h.order.leafTree i x hi) hi)
  obtain ⟨⟨c, rows, data⟩, hm, hg⟩ := h.good q hq
  cases rows with
  | nil => exact absurd rfl hg.ne
  | cons r l =>
    have h2 : cf.ltPair (c, r) y = false := by
      simp only [colPairs, hm] at hy
      have hd := hg.desc
      simp only [List.map_cons] at hd hy
      rcases List.mem_cons.mp hy with rfl | hy
      · exact hc.irrefl _
      · exact (List.pairwise_cons.mp hd).1 y hy
    have h3 : key s.mem q = (c, r) := by simp [key, hm]
    simp only [qc, h3] at h1
    exact hc.ge_trans h1 h2

theorem empty_iff {cf : Conf D} {s : State D} (h : Core cf s) :
    empty s = true ↔ allPairs s = [] := by
  unfold empty
  rw [beq_iff_eq, TourTree.nonempty_tree h.order.toShape]
  constructor
  · intro h0; simp [allPairs, h0]
  · intro h0
    by_contra hne
    obtain ⟨p, hp⟩ := List.exists_mem_of_ne_nil _ hne
    have := key_mem h hp
    rw [h0] at this
    cases this

theorem store_eq {col row : ℕ} (h : row < col) (hcol : col ≤ indexMax) : store col row = row := by
  unfold store big indexMax at *
  split
  · exact Nat.mod_eq_of_lt (by omega)
  · rename_i hb
    simp only [ge_iff_le, decide_eq_true_eq, not_le] at hb
    exact Nat.mod_eq_of_lt (by omega)

/-- Adding a column whose pair data can be constructed. -/
theorem push_ok {cf : Conf D} (hc : StrictWeak cf.ltPair) {f : Faults}
    (hf : ∀ a b, f.compare a b = false) {s : State D} (h : Core cf s) (c : Column D)
    (hg : GoodColumn cf (s.count + 1) c) (ret' : List Bool)
    (hret : cf.support = true → ret'.length = s.count + 1) (log' : List (Event D)) :
    ∃ q', TourTree.pushX (compare cf f (s.mem ++ [c])) s.queue s.mem.length = .ok q' ∧
      Core cf ⟨s.mem ++ [c], q', s.count + 1, ret', log'⟩ ∧
      entries q' = entries s.queue ++ [s.mem.length] ∧
      (TourTree.top q' = some s.mem.length ∨ TourTree.top q' = TourTree.top s.queue) := by
  obtain ⟨q', h1, h2, h3, h4⟩ := TourTree.push_spec (qc cf (s.mem ++ [c])) h.order.toShape s.mem.length
  have hold : ∀ a ∈ entries s.queue, (s.mem ++ [c])[a]? = s.mem[a]? := by
    intro a ha
    obtain ⟨x, hx, _⟩ := h.good a ha
    have := (List.getElem?_eq_some_iff.mp hx).1
    rw [List.getElem?_append_left this]
  have hnew : (s.mem ++ [c])[s.mem.length]? = some c := by simp
  have hgood : ∀ a ∈ entries q', ∃ x, (s.mem ++ [c])[a]? = some x ∧ GoodColumn cf (s.count + 1) x := by
    intro a ha
    rw [h3] at ha
    rcases List.mem_append.mp ha with ha | ha
    · obtain ⟨x, hx, gx⟩ := h.good a ha
      exact ⟨x, by rw [hold a ha]; exact hx, gx.ne, gx.data, by have := gx.col; omega, gx.rows, gx.desc⟩
    · rw [List.mem_singleton.mp ha]
      exact ⟨c, hnew, hg⟩
  have hfresh : s.mem.length ∉ entries s.queue := by
    intro hmem
    obtain ⟨x, hx, _⟩ := h.good _ hmem
    have := (List.getElem?_eq_some_iff.mp hx).1
    omega
  refine ⟨q', TourTree.pushX_eq _ _ h1 ?_, ⟨?_, ?_, hgood, ?_, hret⟩, h3, TourTree.push_top _ h.order.toShape h1⟩
  · intro a ha b hb
    obtain ⟨x, hx, gx⟩ := hgood a ha
    obtain ⟨y, hy, gy⟩ := hgood b hb
    exact compare_good hf hx hy gx gy
  · refine h4 (qc_weak hc _) (h.order.congr ?_)
    intro a ha b hb
    simp only [qc]
    rw [key_congr (hold a ha), key_congr (hold b hb)]
  · show (entries q').Nodup
    rw [h3, List.nodup_append]
    refine ⟨h.nodup, by simp, ?_⟩
    rintro a ha b hb rfl
    rw [List.mem_singleton.mp hb] at ha
    exact hfresh ha
  · intro p x hx hp
    have hx : (s.mem ++ [c])[p]? = some x := hx
    have hp : p ∉ entries q' := hp
    rw [h3] at hp
    simp only [List.mem_append, List.mem_singleton, not_or] at hp
    have hlt : p < s.mem.length := by
      have := (List.getElem?_eq_some_iff.mp hx).1
      simp only [List.length_append, List.length_singleton] at this
      omega
    rw [List.getElem?_append_left hlt] at hx
    exact h.dead p x hx hp.1

/-- The invariant: the state is as the ledger says. -/
structure Inv (cf : Conf D) (L : Ledger) (s : State D) : Prop where
  core : Core cf s
  count : s.count = L.count
  cap : s.count ≤ indexMax
  retLt : ∀ i ∈ L.retired, i < L.count
  ret : ∀ i, i < L.count → deadI cf s.ret i = decide (i ∈ L.retired)
  held : L.held.Perm ((allPairs s).filter (aliveP cf s.ret))
  top : ∀ q, TourTree.top s.queue = some q → aliveP cf s.ret (key s.mem q) = true

/-- What a call does to pair data. -/
structure LogStep (cf : Conf D) (L' : Ledger) (s s' : State D) (f : Faults) : Prop where
  grow : ∃ new, s'.log = s.log ++ new ∧
    (∀ c r, .compute c r ∈ new → Alive L'.retired (c, r)) ∧
    ((∀ c r, f.compute c r = false) →
      constructs new + (entries s.queue).length = destructs new + (entries s'.queue).length) ∧
    (L'.retired = [] → ∀ c r d, .destruct c r d ∈ new → d = cf.compute c r)

theorem inv_init (cf : Conf D) : Inv cf (ledger []) (init : State D) := by
  refine ⟨⟨⟨TourTree.shape_init, ?_⟩, ?_, ?_, ?_, ?_⟩, rfl, by simp [init], ?_, ?_, ?_, ?_⟩
  · intro i _ h2
    simp [init, TourTree.init, TourTree.reallocate] at h2
  · simp [init, TourTree.init, TourTree.reallocate, entries]
  · simp [init, TourTree.init, TourTree.reallocate, entries]
  · simp [init]
  · simp [init]
  · simp [ledger]
  · simp [ledger]
  · simp [ledger, init, allPairs, TourTree.init, TourTree.reallocate, entries]
  · intro q hq
    have := top_mem hq
    simp [init, TourTree.init, TourTree.reallocate, entries] at this

theorem pair_lt {cf : Conf D} {s : State D} (h : Core cf s) {x : ℕ × ℕ} (hx : x ∈ allPairs s) :
    x.1 < s.count ∧ x.2 < s.count := by
  obtain ⟨q, hq, hx⟩ := List.mem_flatMap.mp hx
  obtain ⟨c, hm, hg⟩ := h.good q hq
  simp only [colPairs, hm, List.mem_map] at hx
  obtain ⟨r, hr, rfl⟩ := hx
  exact ⟨hg.col, lt_trans (hg.rows r hr) hg.col⟩

theorem Inv.alive_iff {cf : Conf D} {L : Ledger} {s : State D} (h : Inv cf L s) {x : ℕ × ℕ}
    (h1 : x.1 < L.count) (h2 : x.2 < L.count) :
    aliveP cf s.ret x = decide (Alive L.retired x) := by
  unfold aliveP
  rw [h.ret _ h1, h.ret _ h2, Bool.eq_iff_iff, decide_eq_true_iff]
  simp [Alive]

theorem deadI_append (cf : Conf D) (ret : List Bool) (i : ℕ) :
    deadI cf (if cf.support then ret ++ [false] else ret) i = deadI cf ret i := by
  unfold deadI
  split
  · rcases lt_trichotomy i ret.length with h | h | h
    · rw [List.getElem?_append_left h]
    · subst h; simp
    · rw [List.getElem?_eq_none (by simp; omega), List.getElem?_eq_none (by omega)]
  · rfl

theorem aliveP_append (cf : Conf D) (ret : List Bool) (x : ℕ × ℕ) :
    aliveP cf (if cf.support then ret ++ [false] else ret) x = aliveP cf ret x := by
  unfold aliveP
  rw [deadI_append, deadI_append]

theorem add_spec {cf : Conf D} (hc : StrictWeak cf.ltPair) {f : Faults} {L : Ledger} {s : State D}
    (h : Inv cf L s) {rows : List ℕ} (hl : Legal cf L (.add rows)) (hf : Benign (.add rows) f) :
    (∃ s', addColumn cf f s rows = .ok s' ∧ Inv cf (L.after (.add rows) .done) s' ∧
      LogStep cf (L.after (.add rows) .done) s s' f ∧
      (f.ctor = false → ∀ r ∈ rows.head?, f.compute L.count r = false ∧ L.count < indexMax) ∧
      allPairs s' = allPairs s ++ rows.map (fun r => (L.count, r))) ∨
    (∃ log', addColumn cf f s rows = .exn { s with log := log' } ∧
      LogStep cf L s { s with log := log' } f ∧
      (L.count ≥ indexMax ∨ f.ctor = true ∨ ∃ r ∈ rows.head?, f.compute L.count r = true)) := by
  have hcount := h.count
  obtain ⟨hrows, hdesc⟩ := hl
  unfold addColumn
  by_cases hmax : s.count ≥ indexMax
  · right
    rw [if_pos hmax]
    exact ⟨s.log, rfl, ⟨[], by simp, by simp, fun _ => rfl, by simp⟩, Or.inl (by omega)⟩
  rw [if_neg hmax]
  have hretlen : cf.support = true →
      (if cf.support then s.ret ++ [false] else s.ret).length = s.count + 1 := by
    intro hs
    simp [hs, h.core.retLen hs]
  have hretI : ∀ i, i < L.count + 1 →
      deadI cf (if cf.support then s.ret ++ [false] else s.ret) i = decide (i ∈ L.retired) := by
    intro i hi
    rw [deadI_append]
    by_cases h' : i < L.count
    · exact h.ret i h'
    · have h1 : i ∉ L.retired := fun hm => h' (h.retLt i hm)
      have h2 : i = s.count := by omega
      subst h2
      simp only [h1, decide_false, deadI]
      cases hs : cf.support with
      | false => rfl
      | true => rw [List.getElem?_eq_none (by rw [h.core.retLen hs])]; rfl
  have hretLt : ∀ i ∈ L.retired, i < L.count + 1 := fun i hi => by have := h.retLt i hi; omega
  cases rows with
  | nil =>
    left
    refine ⟨_, rfl, ?_, ⟨[], by simp, by simp, fun _ => rfl, by simp⟩, by simp, by simp [allPairs]⟩
    refine ⟨⟨h.core.order, h.core.nodup, ?_, h.core.dead, hretlen⟩, ?_, ?_, hretLt, hretI, ?_, ?_⟩
    · intro p hp
      obtain ⟨c, h1, h2⟩ := h.core.good p hp
      exact ⟨c, h1, h2.ne, h2.data, by have := h2.col; show _ < s.count + 1; omega, h2.rows, h2.desc⟩
    · show s.count + 1 = L.count + 1
      omega
    · show s.count + 1 ≤ indexMax
      omega
    · show (L.held ++ _).Perm _
      simp only [List.map_nil, List.append_nil]
      have : (aliveP cf (if cf.support then s.ret ++ [false] else s.ret)) = aliveP cf s.ret :=
        funext (aliveP_append cf s.ret)
      rw [this]
      exact h.held
    · intro q hq
      rw [aliveP_append]
      exact h.top q hq
  | cons r rows =>
    have hr := hrows r (by simp)
    have hrm : r % 4294967296 = r := by
      apply Nat.mod_eq_of_lt
      unfold indexMax at hmax
      omega
    simp only
    by_cases hk : f.ctor = true
    · right
      refine ⟨s.log ++ [], ?_, ⟨[], rfl, by simp, fun _ => rfl, by simp⟩, Or.inr (Or.inl hk)⟩
      simp [create, hk]
    have hk : f.ctor = false := by simpa using hk
    by_cases hcomp : f.compute s.count r = true
    · right
      refine ⟨s.log ++ [.construct s.count r], ?_, ⟨[.construct s.count r], rfl, by simp, ?_, by simp⟩,
        Or.inr (Or.inr ⟨r, by simp, by rw [← hcount]; exact hcomp⟩)⟩
      · simp [create, hk, hrm, hcomp]
      · intro hno
        rw [hno] at hcomp
        cases hcomp
    have hcomp : f.compute s.count r = false := by simpa using hcomp
    left
    have hstore : (r :: rows).map (store s.count) = r :: rows := by
      conv_rhs => rw [← List.map_id (r :: rows)]
      apply List.map_congr_left
      intro x hx
      exact store_eq (by have := (hrows x hx).1; omega) (by omega)
    have hcreate : create cf f s.count r rows =
        .column ⟨s.count, r :: rows, some (cf.compute s.count r)⟩
          [.construct s.count r, .compute s.count r] := by
      simp [create, hk, hrm, hcomp, hstore]
    rw [hcreate]
    simp only
    obtain ⟨q', g1, g2, g3, g4⟩ := push_ok hc hf.1 h.core
      ⟨s.count, r :: rows, some (cf.compute s.count r)⟩
      ⟨by simp, by simp, by show s.count < s.count + 1; omega,
        fun x hx => by have := (hrows x hx).1; show x < s.count; omega,
        by rw [← hcount] at hdesc; exact hdesc⟩
      (if cf.support then s.ret ++ [false] else s.ret) hretlen
      (s.log ++ [.construct s.count r, .compute s.count r])
    rw [g1]
    have hold : (entries s.queue).flatMap
        (colPairs (s.mem ++ [⟨s.count, r :: rows, some (cf.compute s.count r)⟩])) = allPairs s := by
      unfold allPairs
      apply flatMap_other
      intro a ha
      obtain ⟨x, hx, _⟩ := h.core.good a ha
      rw [List.getElem?_append_left (List.getElem?_eq_some_iff.mp hx).1]
    have hall : (entries q').flatMap
          (colPairs (s.mem ++ [⟨s.count, r :: rows, some (cf.compute s.count r)⟩])) =
        allPairs s ++ (r :: rows).map (fun x => (L.count, x)) := by
      rw [g3, List.flatMap_append, hold, ← hcount]
      simp [colPairs]
    have halive : ∀ x ∈ (r :: rows).map (fun x => (L.count, x)), aliveP cf s.ret x = true := by
      intro x hx
      obtain ⟨y, hy, rfl⟩ := List.mem_map.mp hx
      have h1 := hretI L.count (by omega)
      rw [deadI_append] at h1
      have h2 := h.ret y (hrows y hy).1
      have h3 : L.count ∉ L.retired := fun hm => by have := h.retLt _ hm; omega
      simp [aliveP, h1, h2, h3, (hrows y hy).2]
    refine ⟨_, rfl, ⟨g2, ?_, ?_, hretLt, hretI, ?_, ?_⟩, ?_, ?_, hall⟩
    · show s.count + 1 = L.count + 1
      omega
    · show s.count + 1 ≤ indexMax
      omega
    · show (L.held ++ _).Perm (List.filter _ (List.flatMap _ _))
      rw [funext (aliveP_append cf s.ret), hall, List.filter_append,
        List.filter_eq_self.mpr halive]
      exact h.held.append_right _
    · intro q hq
      rw [aliveP_append]
      rcases g4 with g4 | g4
      · rw [g4] at hq
        cases hq
        have : key (s.mem ++ [⟨s.count, r :: rows, some (cf.compute s.count r)⟩]) s.mem.length =
            (L.count, r) := by simp [key, hcount]
        rw [this]
        exact halive _ (by simp)
      · rw [g4] at hq
        obtain ⟨x, hx, _⟩ := h.core.good q (top_mem hq)
        rw [key_congr (List.getElem?_append_left (List.getElem?_eq_some_iff.mp hx).1)]
        exact h.top q hq
    · refine ⟨[.construct s.count r, .compute s.count r], rfl, ?_, ?_, by simp⟩
      · intro a b hab
        simp only [List.mem_cons, reduceCtorEq, Event.compute.injEq, List.not_mem_nil, or_false,
          false_or] at hab
        have h3 : L.count ∉ L.retired := fun hm => by have := h.retLt _ hm; omega
        refine ⟨?_, ?_⟩
        · show a ∉ L.retired
          rw [hab.1, hcount]; exact h3
        · show b ∉ L.retired
          rw [hab.2]; exact hr.2
      · intro _
        show 1 + (entries s.queue).length = 0 + (entries q').length
        rw [g3]
        simp; omega
    · intro _ x hx
      simp only [List.head?_cons, Option.mem_def, Option.some.injEq] at hx
      rw [← hx, ← hcount]
      exact ⟨hcomp, by omega⟩

theorem aliveP_unsupported {cf : Conf D} (hs : cf.support = false) (ret : List Bool) (x : ℕ × ℕ) :
    aliveP cf ret x = true := by simp [aliveP, deadI, hs]

theorem compute_lt_of_alive {cf : Conf D} {L : Ledger} {s : State D} (h : Inv cf L s) {x : ℕ × ℕ}
    (ha : aliveP cf s.ret x = true) : Alive L.retired x := by
  unfold aliveP at ha
  simp only [Bool.and_eq_true, Bool.not_eq_true'] at ha
  refine ⟨fun hm => ?_, fun hm => ?_⟩
  · rw [h.ret _ (h.retLt _ hm)] at ha
    simp [hm] at ha
  · rw [h.ret _ (h.retLt _ hm)] at ha
    simp [hm] at ha

theorem held_ne {cf : Conf D} {L : Ledger} {s : State D} (h : Inv cf L s) (hne : L.held ≠ []) :
    ∃ p, TourTree.top s.queue = some p := by
  apply top_some h.core.order.toShape
  intro h0
  apply hne
  have h1 := (empty_iff h.core).mp (by simp [empty, h0])
  have := h.held
  rw [h1] at this
  exact List.Perm.eq_nil this

theorem top_held {cf : Conf D} {L : Ledger} {s : State D} (h : Inv cf L s) {p : ℕ}
    (hp : TourTree.top s.queue = some p) : key s.mem p ∈ L.held :=
  h.held.symm.subset (List.mem_filter.mpr ⟨key_mem h.core (top_mem hp), h.top p hp⟩)

/-- A `pop` from a state where the top pair may already be retired. -/
theorem round_held {cf : Conf D} {s s' : State D} {x : ℕ × ℕ} (h : Round cf s s' x) :
    ((allPairs s).filter (aliveP cf s.ret)).Perm
      ([x].filter (aliveP cf s.ret) ++ (allPairs s').filter (aliveP cf s'.ret)) := by
  obtain ⟨m, h1, _, h3, _⟩ := h.pairs
  have := h1.filter (aliveP cf s.ret)
  rw [List.filter_append, h3] at this
  rw [h.ret]
  exact this

theorem round_log {cf : Conf D} {L : Ledger} {s s' : State D} {x : ℕ × ℕ} (h : Round cf s s' x)
    (hI : ∀ y, aliveP cf s.ret y = true → Alive L.retired y)
    (hD : L.retired = [] → ∀ i, deadI cf s.ret i = false) (f : Faults) :
    LogStep cf L s s' f := by
  obtain ⟨new, h1, h2, h3, h4, h5⟩ := h.log
  exact ⟨new, h1, fun c r hcr => hI _ (h4 c r hcr), fun _ => by omega, fun hr => h5 (hD hr)⟩

theorem dead_none {cf : Conf D} {L : Ledger} {s : State D} (h : Inv cf L s) (hr : L.retired = []) :
    ∀ i, deadI cf s.ret i = false := by
  intro i
  by_cases hi : i < L.count
  · rw [h.ret i hi, hr]; simp
  · unfold deadI
    cases hs : cf.support with
    | false => rfl
    | true =>
      have := h.core.retLen hs
      have := h.count
      rw [List.getElem?_eq_none (by omega)]
      rfl

theorem popOp_spec {cf : Conf D} (hc : StrictWeak cf.ltPair) {f : Faults} {L : Ledger} {s : State D}
    (h : Inv cf L s) (hl : Legal cf L .pop) (hf : Benign .pop f) :
    ∃ x s', topPair s = some x ∧ IsMax cf.ltPair x L.held ∧ pop cf f s = .ok s' ∧
      Inv cf (L.after .pop (.popped x)) s' ∧ LogStep cf L s s' f ∧
      ∃ removed, (allPairs s).Perm (x :: removed ++ allPairs s') := by
  obtain ⟨p, hp⟩ := held_ne h hl
  obtain ⟨s', h1, h2, h3⟩ := pop_spec hc hf.1 hf.2 h.core hp
  have halive := h.top p hp
  have hperm : L.held.Perm
      (key s.mem p :: (allPairs s').filter (aliveP cf s'.ret)) := by
    have := round_held h2
    simp only [List.filter_cons, halive, if_true, List.filter_nil, List.singleton_append] at this
    exact h.held.trans this
  refine ⟨key s.mem p, s', topPair_eq h.core hp, ⟨top_held h hp, ?_⟩, h1, ?_, ?_, ?_⟩
  · intro y hy
    exact top_max hc h.core hp y (List.mem_filter.mp (h.held.subset hy)).1
  · refine ⟨h2.core, h2.count.trans h.count, by rw [h2.count]; exact h.cap, h.retLt, ?_, ?_, ?_⟩
    · intro i hi
      rw [h2.ret]
      exact h.ret i hi
    · show (L.held.erase _).Perm _
      have := hperm.erase (key s.mem p)
      rw [List.erase_cons_head] at this
      exact this
    · intro q hq
      cases hs : cf.support with
      | false => exact aliveP_unsupported hs _ _
      | true => exact h3 hs q hq
  · exact round_log h2 (fun y => compute_lt_of_alive h) (dead_none h) f
  · obtain ⟨m, g1, g2, g3, _⟩ := h2.pairs
    simp only [List.filter_cons, halive, if_true, List.filter_nil] at g3
    have hmem : key s.mem p ∈ m := by
      have : key s.mem p ∈ m.filter (aliveP cf s.ret) := by rw [g3]; simp
      exact (List.mem_filter.mp this).1
    exact ⟨m.erase (key s.mem p), g1.trans ((List.perm_cons_erase hmem).append_right _)⟩

theorem deadI_set {cf : Conf D} (hs : cf.support = true) {ret : List Bool} {i : ℕ}
    (hi : i < ret.length) (j : ℕ) :
    deadI cf (ret.set i true) j = (decide (j = i) || deadI cf ret j) := by
  unfold deadI
  rw [List.getElem?_set]
  by_cases h : i = j
  · subst h
    simp [hi, hs]
  · rw [if_neg h]
    simp [Ne.symm h]

theorem retire_spec {cf : Conf D} (hc : StrictWeak cf.ltPair) {f : Faults} {L : Ledger} {s : State D}
    (h : Inv cf L s) {i : ℕ} (hl : Legal cf L (.retire i)) (hf : Benign (.retire i) f) :
    ∃ s', retireIndex cf f s i = .ok s' ∧ Inv cf (L.after (.retire i) .done) s' ∧
      LogStep cf (L.after (.retire i) .done) s s' f ∧
      ∃ removed, (allPairs s).Perm (removed ++ allPairs s') := by
  obtain ⟨hs, hi⟩ := hl
  have hlen : i < s.ret.length := by
    have := h.core.retLen hs
    have := h.count
    omega
  unfold retireIndex
  rw [if_neg (by simp [hs]; omega)]
  simp only
  generalize hs1 : ({ s with ret := s.ret.set i true } : State D) = s1
  have hmem : s1.mem = s.mem := by rw [← hs1]
  have hqueue : s1.queue = s.queue := by rw [← hs1]
  have hcount : s1.count = s.count := by rw [← hs1]
  have hlog : s1.log = s.log := by rw [← hs1]
  have hret : s1.ret = s.ret.set i true := by rw [← hs1]
  have hcore : Core cf s1 := by
    rw [← hs1]
    exact ⟨h.core.order, h.core.nodup, h.core.good, h.core.dead,
      fun hh => by simpa using h.core.retLen hh⟩
  have hall : allPairs s1 = allPairs s := by unfold allPairs; rw [hmem, hqueue]
  have hretI : ∀ j, j < L.count → deadI cf s1.ret j = decide (j ∈ i :: L.retired) := by
    intro j hj
    rw [hret, deadI_set hs hlen, h.ret j hj]
    simp
  have hretLt : ∀ j ∈ i :: L.retired, j < L.count := by
    intro j hj
    rcases List.mem_cons.mp hj with rfl | hj
    · exact hi
    · exact h.retLt j hj
  have halive : ∀ x, aliveP cf s1.ret x = (aliveP cf s.ret x && decide (x.1 ≠ i ∧ x.2 ≠ i)) := by
    intro x
    rw [hret]
    unfold aliveP
    rw [deadI_set hs hlen, deadI_set hs hlen]
    by_cases h1 : x.1 = i <;> by_cases h2 : x.2 = i <;> simp [h1, h2]
  have hheld : (L.held.filter (fun x => decide (Alive (i :: L.retired) x))).Perm
      ((allPairs s1).filter (aliveP cf s1.ret)) := by
    rw [hall]
    refine (h.held.filter _).trans ?_
    rw [List.filter_filter]
    apply List.Perm.of_eq
    apply List.filter_congr
    intro x hx
    have hb := pair_lt h.core hx
    rw [halive, h.alive_iff (by rw [← h.count]; exact hb.1) (by rw [← h.count]; exact hb.2),
      Bool.eq_iff_iff]
    simp only [Bool.and_eq_true, decide_eq_true_eq]
    simp only [Alive, List.mem_cons, not_or]
    tauto
  have hIalive : ∀ y, aliveP cf s1.ret y = true → Alive (i :: L.retired) y := by
    intro y hy
    rw [halive, Bool.and_eq_true, decide_eq_true_eq] at hy
    have := compute_lt_of_alive h hy.1
    simp only [Alive, List.mem_cons, not_or] at this ⊢
    tauto
  have hsame : (∀ q, TourTree.top s1.queue = some q → aliveP cf s1.ret (key s1.mem q) = true) →
      ∃ s', Res.ok s1 = Res.ok s' ∧ Inv cf (L.after (.retire i) .done) s' ∧
        LogStep cf (L.after (.retire i) .done) s s' f ∧
        ∃ removed, (allPairs s).Perm (removed ++ allPairs s') := by
    intro htop
    refine ⟨s1, rfl, ⟨hcore, hcount.trans h.count, by rw [hcount]; exact h.cap, hretLt, hretI, hheld,
      htop⟩, ⟨[], by simp [hlog], by simp, fun _ => by rw [hqueue]; rfl, by simp⟩, [], by rw [hall]; simp⟩
  by_cases he : empty s1 = true
  · rw [if_pos he]
    apply hsame
    intro q hq
    have := (TourTree.nonempty_tree hcore.order.toShape).mp (by simpa [empty] using he)
    have hm := top_mem hq
    rw [this] at hm
    cases hm
  · rw [if_neg he]
    obtain ⟨p, hp⟩ := top_some hcore.order.toShape (by simpa [empty] using he)
    rw [topPair_eq hcore hp]
    rcases hk : key s1.mem p with ⟨a, b⟩
    simp only
    by_cases hab : a = i ∨ b = i
    · rw [if_pos hab]
      obtain ⟨s', g1, g2, g3⟩ := pop_spec hc hf.1 hf.2 hcore hp
      have hdead : aliveP cf s1.ret (key s1.mem p) = false := by
        rw [halive, hk, Bool.and_eq_false_iff]
        right
        simp only [ne_eq, decide_eq_false_iff_not]
        tauto
      refine ⟨s', g1, ⟨g2.core, by rw [g2.count, hcount]; exact h.count,
        by rw [g2.count, hcount]; exact h.cap, hretLt, ?_, ?_, fun q hq => g3 hs q hq⟩, ?_, ?_⟩
      · intro j hj
        rw [g2.ret]
        exact hretI j hj
      · have := round_held g2
        simp only [List.filter_cons, hdead, Bool.false_eq_true, if_false, List.filter_nil,
          List.nil_append] at this
        exact hheld.trans this
      · obtain ⟨new, k1, k2, k3, k4, _⟩ := g2.log
        refine ⟨new, by rw [k1, hlog], fun c r hcr => hIalive _ (k4 c r hcr), fun _ => ?_, nofun⟩
        rw [hqueue] at k3
        omega
      · obtain ⟨m, k1, _⟩ := g2.pairs
        exact ⟨m, by rw [← hall]; exact k1⟩
    · rw [if_neg hab]
      apply hsame
      intro q hq
      rw [hp] at hq
      cases hq
      push Not at hab
      rw [halive, hk, Bool.and_eq_true]
      refine ⟨?_, by simp [hab.1, hab.2]⟩
      have := h.top p (by rw [← hqueue]; exact hp)
      rw [← hk, hmem]
      exact this

/-- What is known of a call that the documentation allows. -/
structure StepInfo (cf : Conf D) (L : Ledger) (f : Faults) (s s' : State D) (op : Op) (o : Outcome) :
    Prop where
  inv : Inv cf (L.after op o) s'
  log : LogStep cf (L.after op o) s s' f
  threw : o = .threw → (∃ log', s' = { s with log := log' }) ∧ ∃ rows, op = .add rows ∧
    (L.count ≥ indexMax ∨ f.ctor = true ∨ ∃ r ∈ rows.head?, f.compute L.count r = true)
  popped : ∀ x, o = .popped x → op = .pop ∧ IsMax cf.ltPair x L.held
  pairs : ∃ removed, (allPairs s ++ match op, o with
    | .add rows, .done => rows.map (fun r => (L.count, r))
    | _, _ => []).Perm ((match o with | .popped x => [x] | _ => []) ++ removed ++ allPairs s')

theorem Inv.log {cf : Conf D} {L : Ledger} {s : State D} (h : Inv cf L s) (log' : List (Event D)) :
    Inv cf L { s with log := log' } :=
  ⟨⟨h.core.order, h.core.nodup, h.core.good, h.core.dead, h.core.retLen⟩, h.count, h.cap, h.retLt,
    h.ret, h.held, h.top⟩

/-- Every allowed call with benign faults ends as it should. -/
theorem step_exists {cf : Conf D} (hc : StrictWeak cf.ltPair) {f : Faults} {L : Ledger} {s : State D}
    (h : Inv cf L s) {op : Op} (hl : Legal cf L op) (hf : Benign op f) :
    ∃ o s', Seen cf f s op o s' ∧ StepInfo cf L f s s' op o := by
  cases op with
  | add rows =>
    rcases add_spec hc h hl hf with ⟨s', h1, h2, h3, h4, h5⟩ | ⟨log', h1, h2, h3⟩
    · exact ⟨.done, s', .add h1, h2, h3, nofun, nofun, [], by simp [h5]⟩
    · exact ⟨.threw, _, .threw h1, h.log log', h2, fun _ => ⟨⟨log', rfl⟩, rows, rfl, h3⟩, nofun, [],
        by simp [allPairs]⟩
  | pop =>
    obtain ⟨x, s', h1, h2, h3, h4, h5, m, h6⟩ := popOp_spec hc h hl hf
    refine ⟨.popped x, s', .pop h1 h3, h4, ⟨h5.grow⟩, nofun, ?_, m, by simpa using h6⟩
    intro y hy
    cases hy
    exact ⟨rfl, h2⟩
  | retire i =>
    obtain ⟨s', h1, h2, h3, m, h4⟩ := retire_spec hc h hl hf
    exact ⟨.done, s', .retire h1, h2, h3, nofun, nofun, m, by simpa using h4⟩

theorem Seen.unique {cf : Conf D} {f : Faults} {s s₁ s₂ : State D} {op : Op} {o₁ o₂ : Outcome}
    (h₁ : Seen cf f s op o₁ s₁) (h₂ : Seen cf f s op o₂ s₂) : o₁ = o₂ ∧ s₁ = s₂ := by
  cases h₁ with
  | add h =>
    cases h₂ with
    | add h' => rw [h] at h'; cases h'; exact ⟨rfl, rfl⟩
    | threw h' => rw [h] at h'; cases h'
  | pop hx h =>
    cases h₂ with
    | pop hx' h' => rw [h] at h'; cases h'; rw [hx] at hx'; cases hx'; exact ⟨rfl, rfl⟩
    | threw h' => rw [h] at h'; cases h'
  | retire h =>
    cases h₂ with
    | retire h' => rw [h] at h'; cases h'; exact ⟨rfl, rfl⟩
    | threw h' => rw [h] at h'; cases h'
  | threw h =>
    cases h₂ with
    | add h' => rw [h] at h'; cases h'
    | pop _ h' => rw [h] at h'; cases h'
    | retire h' => rw [h] at h'; cases h'
    | threw h' => rw [h] at h'; cases h'; exact ⟨rfl, rfl⟩

theorem step_info {cf : Conf D} (hc : StrictWeak cf.ltPair) {f : Faults} {L : Ledger} {s s' : State D}
    (h : Inv cf L s) {op : Op} {o : Outcome} (hl : Legal cf L op) (hf : Benign op f)
    (hseen : Seen cf f s op o s') : StepInfo cf L f s s' op o := by
  obtain ⟨o', s'', h1, h2⟩ := step_exists hc h hl hf
  obtain ⟨rfl, rfl⟩ := hseen.unique h1
  exact h2

theorem hist_inv {cf : Conf D} (hc : StrictWeak cf.ltPair) {h : List (Op × Outcome)} {s : State D}
    (hh : Hist cf Benign h s) : Inv cf (ledger h) s := by
  induction hh with
  | start => exact inv_init cf
  | call hs hl hf hseen ih => exact (step_info hc ih hl hf hseen).inv

theorem Hist.mono {cf : Conf D} {P Q : Op → Faults → Prop} (hPQ : ∀ op f, P op f → Q op f)
    {h : List (Op × Outcome)} {s : State D} (hh : Hist cf P h s) : Hist cf Q h s := by
  induction hh with
  | start => exact .start
  | call hs hl hf hseen ih => exact .call ih hl (hPQ _ _ hf) hseen

theorem noCompute_benign : ∀ op f, NoCompute op f → Benign op f := by
  intro op f hf
  refine ⟨hf.1, ?_⟩
  cases op
  · trivial
  · exact hf.2
  · exact hf.2

/-- Destructing columns of the queue one after the other. -/
theorem destructAll_spec {cf : Conf D} {n : ℕ} : ∀ (l : List ℕ) (s : State D), l.Nodup →
    (∀ p ∈ l, ∃ c, s.mem[p]? = some c ∧ GoodColumn cf n c) →
    ∃ s', destructAll s l = some s' ∧ constructs s'.log = constructs s.log ∧
      destructs s'.log = destructs s.log + l.length ∧
      (∀ p ∈ l, ∀ c, s'.mem[p]? = some c → c.data = none) ∧
      ∀ p, p ∉ l → s'.mem[p]? = s.mem[p]? := by
  intro l
  induction l with
  | nil => intro s _ _; exact ⟨s, rfl, rfl, rfl, by simp, fun _ _ => rfl⟩
  | cons p l ih =>
    intro s hn hg
    obtain ⟨hpl, hnl⟩ := List.nodup_cons.mp hn
    obtain ⟨⟨c, rows, data⟩, hm, gc⟩ := hg p (by simp)
    cases rows with
    | nil => exact absurd rfl gc.ne
    | cons r t =>
      have hd : data = some (cf.compute c r) := gc.data r (by simp)
      subst hd
      obtain ⟨s', h1, h2, h3, h4, h5⟩ := ih
        { s with mem := s.mem.set p ⟨c, r :: t, none⟩,
                 log := s.log ++ [.destruct c r (cf.compute c r)] } hnl (by
          intro q hq
          obtain ⟨x, hx, gx⟩ := hg q (by simp [hq])
          refine ⟨x, ?_, gx⟩
          rw [← hx]
          refine set_other q ?_
          rintro rfl
          exact hpl hq)
      refine ⟨s', ?_, ?_, ?_, ?_, ?_⟩
      · simp only [destructAll, destructColumn, hm]
        exact h1
      · rw [h2, constructs_append]; rfl
      · rw [h3, destructs_append]
        simp [destructs]; omega
      · intro q hq x hx
        rcases List.mem_cons.mp hq with rfl | hq
        · rw [h5 q hpl] at hx
          simp only [set_self hm] at hx
          cases hx
          rfl
        · exact h4 q hq x hx
      · intro q hq
        simp only [List.mem_cons, not_or] at hq
        rw [h5 q hq.2]
        exact set_other q hq.1

end Verif.PairQueue
