import Verif.KDMemHeapProofs
import Verif.KDAgree

/-!
# Lemmas on KD trees in memory: searches and calls do there what they do on trees
-/

namespace Verif.KDMem

open Verif.DivMask (Ext Bits Mask)
open Verif.KDTree (Conf Flow Arr Kind Node Path Inv SizeOk Op Ret ext sizes)

variable {T N : Type} {c : Conf T} {I : Impl T N}

/-! ## Searches -/

theorem loop_sim {σ τ : Type} (L : Layout I c) (k : Kind T) (A : Path → Addr) {actA : Path → σ → Option (σ × Flow)}
    {actC : Addr → Heap N × τ → Option ((Heap N × τ) × Flow)} {R : σ → Heap N × τ → Prop}
    (hact : ∀ p s s' flow x, R s x → actA p s = some (s', flow) →
      ∃ x', actC (A p) x = some (x', flow) ∧ R s' x' ∧ ∀ q n, L.Spine x.1 A q n → L.Spine x'.1 A q n) :
    ∀ (z : ℕ) (cur : Path × Node T) (stack : List (Path × Node T)) (s : σ) (x : Heap N × τ), sizes (cur :: stack) = z → R s x →
      L.Spine x.1 A cur.1 cur.2 → (∀ y ∈ stack, L.Spine x.1 A y.1 y.2) → ∀ s' flow tmp,
      KDTree.loop c k actA s cur stack = some (s', flow, tmp) →
      ∃ x', loop I c k actC x (A cur.1) (stack.map (fun y => A y.1)) = some (x', flow, tmp.map A) ∧ R s' x' := by
  intro z
  induction z using Nat.strong_induction_on with
  | _ z ih =>
    intro cur stack s x hz hR h1 h2 s' flow tmp h
    have hsz := KDTree.expand_sizes c k cur.1 cur.2
    rw [KDTree.loop] at h
    rw [loop, L.expand_ok k _ h1]
    simp only [Option.bind_eq_bind, Option.bind_some]
    have hpre := L.spine_pre k h1
    have hpost := L.spine_post k h1
    cases hleaf : (KDTree.expand c cur.1 cur.2 k).leaf with
    | none =>
      rw [hleaf] at h
      simp only [Option.map_none] at h ⊢
      split at h
      · rename_i hnil
        rw [List.append_eq_nil_iff] at hnil
        rw [hnil.1, hnil.2]
        cases h
        exact ⟨x, rfl, hR⟩
      · rename_i next rest hcons
        have hmap : (KDTree.expand c cur.1 cur.2 k).pre.map (fun y => A y.1) ++ stack.map (fun y => A y.1) = A next.1 :: rest.map (fun y => A y.1) := by
          rw [← List.map_append, hcons, List.map_cons]
        rw [hmap]
        have hall : ∀ y ∈ next :: rest, L.Spine x.1 A y.1 y.2 := by
          intro y hy
          rw [← hcons, List.mem_append] at hy
          rcases hy with hy | hy
          · exact hpre y hy
          · exact h2 y hy
        refine ih _ ?_ next rest s x rfl hR (hall next (by simp)) (fun y hy => hall y (by simp [hy])) s' flow tmp h
        rw [← hz, ← hcons, KDTree.sizes_append]
        simp only [sizes, List.map_cons, List.sum_cons] at *
        omega
    | some p =>
      rw [hleaf] at h
      simp only [Option.map_some] at h ⊢
      cases ha : actA p s with
      | none => rw [ha] at h; cases h
      | some q =>
        obtain ⟨s1, f1⟩ := q
        rw [ha] at h
        obtain ⟨x1, c1, c2, c3⟩ := hact p s s1 f1 x hR ha
        rw [c1]
        simp only [Option.bind_some]
        cases f1 with
        | stop => cases h; exact ⟨x1, rfl, c2⟩
        | threw =>
          cases h
          refine ⟨x1, ?_, c2⟩
          simp [List.map_append, Function.comp_def]
        | go =>
          simp only at h ⊢
          rw [L.post_ok k _ (c3 _ _ h1)]
          simp only [Option.bind_some]
          split at h
          · rename_i hnil
            rw [List.append_eq_nil_iff, List.append_eq_nil_iff] at hnil
            rw [hnil.1, hnil.2.1, hnil.2.2]
            cases h
            exact ⟨x1, rfl, c2⟩
          · rename_i next rest hcons
            have hmap : (KDTree.expand c cur.1 cur.2 k).post.map (fun y => A y.1) ++ ((KDTree.expand c cur.1 cur.2 k).pre.map (fun y => A y.1) ++
                stack.map (fun y => A y.1)) = A next.1 :: rest.map (fun y => A y.1) := by
              rw [← List.map_append, ← List.map_append, hcons, List.map_cons]
            rw [hmap]
            have hall : ∀ y ∈ next :: rest, L.Spine x1.1 A y.1 y.2 := by
              intro y hy
              rw [← hcons, List.mem_append, List.mem_append] at hy
              apply c3
              rcases hy with hy | hy | hy
              · exact hpost y hy
              · exact hpre y hy
              · exact h2 y hy
            refine ih _ ?_ next rest s1 x1 rfl c2 (hall next (by simp)) (fun y hy => hall y (by simp [hy])) s' flow tmp h
            rw [← hz, ← hcons, KDTree.sizes_append, KDTree.sizes_append]
            simp only [sizes, List.map_cons, List.sum_cons] at *
            omega

/-- Where the nodes of a tree are, if there is one. -/
def locOf (t : Option (AT T)) (p : Path) : Addr := match t with | none => 0 | some t => t.loc p

/-- A pointer to an entry in a tree and in memory. -/
def ptr (t : Option (AT T)) (p : KDTree.Ptr) : Ptr := (locOf t p.1, p.2)

theorem enumerate_stack (L : Layout I c) {h : Heap N} {t : AT T} (hm : Mem L.Holds L.addrs h t) {stack : List (Path × Node T)}
    (hsp : ∀ y ∈ stack, L.Spine h t.loc y.1 y.2) {k : Kind T} {f : List T → Arr T → Option (List T × Flow)} {got : List T} {flow : Flow}
    {tmp : List Path} (hs : KDTree.loop c k (KDTree.actVisit f t.erase) [] ([], t.erase) stack = some (got, flow, tmp)) :
    enumerate I c ⟨h, some t.addr, stack.map (fun y => t.loc y.1)⟩ k f = some (got, flow, ⟨h, some t.addr, tmp.map t.loc⟩) := by
  obtain ⟨x, r1, r2⟩ := loop_sim L k t.loc (actC := actVisit I f) (R := fun g x => x = (h, g)) (by
    rintro p s s' fl x rfl ha
    rw [KDTree.actVisit] at ha
    cases hp : t.erase.arrAt p with
    | none => rw [hp] at ha; cases ha
    | some a =>
      rw [hp] at ha
      simp only at ha
      refine ⟨(h, s'), ?_, rfl, fun _ _ hx => hx⟩
      rw [actVisit]
      simp only [(L.getArr_ok hm.holds hp).1, Option.bind_eq_bind, Option.bind_some, arr_ofArr, ha]) _ _ _ _ _ rfl rfl
    (L.spine_root hm.holds) hsp _ _ _ hs
  subst r2
  rw [AT.loc_nil] at r1
  rw [enumerate]
  simp only [r1, Option.bind_eq_bind, Option.bind_some]

theorem enumerate_sim (L : Layout I c) {h : Heap N} {t : Option (AT T)} {tr tr' : KDTree.Tree T} (hm : MemRoot L.Holds L.addrs h t)
    (he : t.map AT.erase = tr.root) (ht : tr.tmp = []) {k : Kind T} {f : List T → Arr T → Option (List T × Flow)} {got : List T} {flow : Flow}
    (hs : tr.enumerate c k f = some (got, flow, tr')) :
    enumerate I c ⟨h, t.map AT.addr, []⟩ k f = some (got, flow, ⟨h, t.map AT.addr, tr'.tmp.map (locOf t)⟩) := by
  rw [KDTree.Tree.enumerate, ← he] at hs
  cases t with
  | none => cases hs; simp [ht, enumerate]
  | some t =>
    simp only [Option.map_some, KDTree.search, ht] at hs ⊢
    have hnil : ([] : List Path).mapM (fun p => (t.erase.sub p).map (p, ·)) = some [] := rfl
    rw [hnil] at hs
    simp only at hs
    cases hl : KDTree.loop c k (KDTree.actVisit f t.erase) [] ([], t.erase) [] with
    | none => rw [hl] at hs; cases hs
    | some q =>
      obtain ⟨g, fl, tmp⟩ := q
      rw [hl] at hs
      cases hs
      exact enumerate_stack L hm (fun y hy => by cases hy) hl

theorem findDivisor_sim (L : Layout I c) {h : Heap N} {t : Option (AT T)} {tr tr' : KDTree.Tree T} (hm : MemRoot L.Holds L.addrs h t)
    (he : t.map AT.erase = tr.root) (ht : tr.tmp = []) {m : Ext T} {r : Option KDTree.Ptr} (hs : tr.findDivisor c m = some (r, tr')) :
    findDivisor I c ⟨h, t.map AT.addr, []⟩ m = some (r.map (ptr t), ⟨h, t.map AT.addr, tr'.tmp.map (locOf t)⟩) := by
  rw [KDTree.Tree.findDivisor, ← he] at hs
  rw [findDivisor]
  cases t with
  | none => cases hs; simp [ht]
  | some t =>
    have hm : Mem L.Holds L.addrs h t := hm
    simp only [Option.map_some, KDTree.search, ht] at hs ⊢
    have hnil : ([] : List Path).mapM (fun p => (t.erase.sub p).map (p, ·)) = some [] := rfl
    rw [hnil] at hs
    simp only at hs
    cases hl : KDTree.loop c (.divisors m) (KDTree.actDivisor c m t.erase) none ([], t.erase) [] with
    | none => rw [hl] at hs; cases hs
    | some q =>
      obtain ⟨g, fl, tmp⟩ := q
      rw [hl] at hs
      cases hs
      obtain ⟨x, r1, r2⟩ := loop_sim L (.divisors m) t.loc (actC := actDivisor I c m)
        (R := fun r x => x = (h, r.map (ptr (some t)))) (by
        rintro p s s' fl x rfl ha
        rw [KDTree.actDivisor] at ha
        cases hp : t.erase.arrAt p with
        | none => rw [hp] at ha; cases ha
        | some a =>
          rw [hp] at ha
          simp only at ha
          rw [actDivisor]
          simp only [(L.getArr_ok hm.holds hp).1, Option.bind_eq_bind, Option.bind_some, arr_ofArr]
          cases hf : a.findDivisor c m with
          | none => rw [hf] at ha; cases ha
          | some i =>
            rw [hf] at ha
            cases i with
            | none => cases ha; exact ⟨_, rfl, rfl, fun _ _ hx => hx⟩
            | some i => cases ha; exact ⟨_, rfl, rfl, fun _ _ hx => hx⟩) _ _ _ _ (h, none) rfl rfl
        (L.spine_root hm.holds) (fun y hy => by cases hy) _ _ _ hl
      subst r2
      rw [AT.loc_nil, List.map_nil] at r1
      rw [r1]
      rfl

theorem removeMultiples_sim (L : Layout I c) {h : Heap N} {t : Option (AT T)} {tr tr' : KDTree.Tree T} (hm : MemRoot L.Holds L.addrs h t)
    (he : t.map AT.erase = tr.root) (ht : tr.tmp = []) {m : Ext T} {out : List T} {n : ℕ} (hs : tr.removeMultiples c m = some (out, n, tr')) :
    ∃ h' t', removeMultiples I c ⟨h, t.map AT.addr, []⟩ m = some (out, n, ⟨h', t'.map AT.addr, tr'.tmp.map (locOf t)⟩) ∧
      MemRoot L.Holds L.addrs h' t' ∧ t'.map AT.erase = tr'.root ∧ locOf t' = locOf t := by
  rw [KDTree.Tree.removeMultiples, ← he] at hs
  rw [removeMultiples]
  cases t with
  | none => cases hs; exact ⟨h, none, by simp [ht], hm, he, rfl⟩
  | some t =>
    have hm : Mem L.Holds L.addrs h t := hm
    simp only [Option.map_some, KDTree.search, ht] at hs ⊢
    have hnil : ([] : List Path).mapM (fun p => (t.erase.sub p).map (p, ·)) = some [] := rfl
    rw [hnil] at hs
    simp only at hs
    cases hl : KDTree.loop c (.multiples m) (KDTree.actRemove c m) (t.erase, [], 0) ([], t.erase) [] with
    | none => rw [hl] at hs; cases hs
    | some q =>
      obtain ⟨⟨nd, o, cnt⟩, fl, tmp⟩ := q
      rw [hl] at hs
      cases hs
      obtain ⟨⟨h', x⟩, r1, r2⟩ := loop_sim L (.multiples m) t.loc (actC := actRemove I c m)
        (R := fun s x => x.2 = s.2 ∧ ∃ t', Mem L.Holds L.addrs x.1 t' ∧ t'.erase = s.1 ∧ t'.loc = t.loc) (by
        rintro p ⟨nd, o, cnt⟩ s' fl ⟨h1, x⟩ ⟨rfl, t1, m1, m2, m3⟩ ha
        rw [KDTree.actRemove] at ha
        simp only at ha m1 m2
        subst m2
        cases hp : t1.erase.arrAt p with
        | none => rw [hp] at ha; cases ha
        | some a =>
          rw [hp] at ha
          simp only at ha
          cases hr : a.removeMultiples c m with
          | none => rw [hr] at ha; cases ha
          | some q =>
            obtain ⟨a', o', n'⟩ := q
            rw [hr] at ha
            cases ha
            obtain ⟨g1, g2⟩ := L.getArr_ok m1.holds hp
            obtain ⟨g3, g4⟩ := removeMultiples_ofArr g2 hr
            obtain ⟨h2, g5, g6⟩ := L.putArr_ok m1 hp g4
            rw [m3] at g1 g5
            refine ⟨(h2, o ++ o', cnt + n'), ?_, ⟨rfl, _, g6, AT.setArr_erase _ _ _, ?_⟩, fun _ _ hx => L.spine_put hx g5⟩
            · rw [actRemove]
              simp only [g1, g3, g5, Option.bind_eq_bind, Option.bind_some]
            · rw [AT.setArr_loc, m3]) _ _ _ _ (h, [], 0) rfl ⟨rfl, t, hm, rfl, rfl⟩
        (L.spine_root hm.holds) (fun y hy => by cases hy) _ _ _ hl
      obtain ⟨rfl, t', m1, m2, m3⟩ := r2
      rw [AT.loc_nil, List.map_nil] at r1
      rw [r1]
      refine ⟨h', some t', ?_, m1, by simp [m2], by funext p; simp [locOf, m3]⟩
      have : t'.addr = t.addr := by rw [← AT.loc_nil, ← AT.loc_nil, m3]
      simp [this, locOf]

theorem deref_sim (L : Layout I c) {h : Heap N} {t : Option (AT T)} {tr : KDTree.Tree T} (hm : MemRoot L.Holds L.addrs h t)
    (he : t.map AT.erase = tr.root) {p : KDTree.Ptr} {e : T} (hd : tr.deref p = some e) :
    deref I ⟨h, t.map AT.addr, []⟩ (ptr t p) = some e := by
  rw [KDTree.Tree.deref, ← he] at hd
  cases t with
  | none => cases hd
  | some t =>
    have hm : Mem L.Holds L.addrs h t := hm
    simp only [Option.map_some] at hd
    cases hp : t.erase.arrAt p.1 with
    | none => rw [hp] at hd; cases hd
    | some a =>
      rw [hp] at hd
      simp only [Option.map_eq_some_iff] at hd
      obtain ⟨x, hx, rfl⟩ := hd
      obtain ⟨hi, hx⟩ := List.getElem?_eq_some_iff.mp hx
      have e1 : (ptr (some t) p).1 = t.loc p.1 := rfl
      have e2 : (ptr (some t) p).2 = p.2 := rfl
      rw [deref, e1, e2]
      simp only [(L.getArr_ok hm.holds hp).1, Option.bind_eq_bind, Option.bind_some, ofArr]
      rw [read_raw hi, hx]
      rfl

/-! ## Calls -/

/-- The state in memory, without the cache. -/
structure Rel (L : Layout I c) (t : Option (AT T)) (h : Heap N) (s : KDTree.State T) (m : State N) : Prop where
  tree : m.tree = ⟨h, t.map AT.addr, []⟩
  mem : MemRoot L.Holds L.addrs h t
  erase : t.map AT.erase = s.tree.root
  bits : m.bits = s.bits
  changes : m.changes = s.changes
  size : m.size = s.size

/-- The cache. -/
def CacheRel (c : Conf T) (t : Option (AT T)) (s : KDTree.State T) (m : State N) : Prop :=
  c.useDivisorCache = true → m.cache = s.cache.map (ptr t)

/-- The state in memory. -/
def Sim (L : Layout I c) (s : KDTree.State T) (m : State N) : Prop := ∃ t h, Rel L t h s m ∧ CacheRel c t s m

/-- `size` is at least the number of entries. -/
def SizeGe (s : KDTree.State T) : Prop := s.contents.length ≤ s.size

theorem resetChanges_sim (L : Layout I c) {t : Option (AT T)} {h : Heap N} {s : KDTree.State T} {m : State N} (hr : Rel L t h s m) :
    Sim L (KDTree.resetChanges c s) (resetChanges c m) := by
  refine ⟨t, h, ?_, ?_⟩
  · unfold KDTree.resetChanges resetChanges
    cases c.useDivisorCache <;> cases c.doAutomaticRebuilds <;> constructor <;> simp [hr.tree, hr.mem, hr.erase, hr.bits, hr.changes, hr.size]
  · intro hu
    unfold KDTree.resetChanges resetChanges
    rw [hu]
    cases c.doAutomaticRebuilds <;> simp

theorem init_sim (L : Layout I c) {s : KDTree.State T} (hs : KDTree.init c = some s) : ∃ m : State N, init c = some m ∧ Sim L s m := by
  rw [KDTree.init] at hs
  rw [init]
  cases hc : KDTree.calcInit c with
  | none => rw [hc] at hs; cases hs
  | some bits =>
    rw [hc] at hs
    cases hs
    exact ⟨_, rfl, resetChanges_sim L (t := none) (h := []) ⟨rfl, fun y => rfl, rfl, rfl, rfl, rfl⟩⟩

theorem rebuild_sim (hl : c.Lawful) (L : Layout I c) {t : Option (AT T)} {h : Heap N} {s : KDTree.State T} {m : State N} (hi : Inv c s)
    (hz : SizeGe s) (hr : Rel L t h s m) : ∃ s' m', KDTree.rebuild c s = .ok s' ∧ rebuild I c m = .ok m' ∧ Sim L s' m' := by
  obtain ⟨got, flow, t', g1, g2, g3, g4⟩ := KDTree.tree_forAll_ok hi.tree hi.tmp (fun _ => Flow.go)
  have hp := KDTree.delivered_go g3
  obtain ⟨bits, b1, b2⟩ := KDTree.calcRebuild_ok hl got
  obtain ⟨tr, t1, t2, t3, t4⟩ := KDTree.tree_reset_ok hl (bits := bits) (l := got)
    (fun x => by rw [KDTree.copies_perm x hp]; exact KDTree.tree_copies hi.tree x)
  have hen := enumerate_sim L hr.mem hr.erase hi.tmp g1
  have hnt : t' = s.tree := g4 (KDTree.not_threw g3 (fun _ => by decide))
  rw [hnt, hi.tmp, List.map_nil] at hen
  obtain ⟨h2, a2, q1, q2, q3⟩ := L.reset_ok hr.mem t1
  refine ⟨_, _, by rw [KDTree.rebuild, g1]; simp only [b1, t1], ?_, resetChanges_sim L (t := a2) (h := h2)
    (s := { s with tree := tr, bits := bits }) (m := { m with tree := ⟨h2, a2.map AT.addr, []⟩, bits := bits })
    ⟨rfl, q2, q3, rfl, hr.changes, hr.size⟩⟩
  rw [rebuild, hr.tree, hen]
  have hlen : ¬ m.size < got.length := by
    have := hp.length_eq
    have hz : s.tree.contents.length ≤ s.size := hz
    rw [hr.size]; omega
  simp only [if_neg hlen, b1, q1]

theorem reportChanges_sim (hl : c.Lawful) (L : Layout I c) {t : Option (AT T)} {h : Heap N} {s : KDTree.State T} {m : State N} (additions removals : ℕ)
    (h1 : KDTree.Calc c s.bits) (h2 : s.tree.Ok c s.bits) (h3 : s.tree.tmp = [])
    (h4 : additions + removals = 0 → c.useDivisorCache = true → ∀ p, s.cache = some p → ∃ e, s.tree.deref p = some e)
    (hr : Rel L t h s m) (hc : additions + removals = 0 → CacheRel c t s m) (hz : s.contents.length ≤ s.size + additions - removals) :
    ∃ s' m', KDTree.reportChanges c s additions removals = .ok s' ∧ reportChanges I c m additions removals = .ok m' ∧
      Sim L s' m' ∧ SizeGe s' := by
  obtain ⟨s', g1, g2, g3, g4⟩ := KDTree.reportChanges_ok hl additions removals h1 h2 h3 h4
  have hge : SizeGe s' := by unfold SizeGe; rw [g3.length_eq, g4]; exact hz
  refine ⟨s', ?_⟩
  have key : ∃ m', reportChanges I c m additions removals = .ok m' ∧ Sim L s' m' := by
    unfold KDTree.reportChanges at g1
    unfold reportChanges
    have k1 : ∃ (s1 : KDTree.State T) (m1 : State N), (if c.useDivisorCache && (additions + removals != 0) then { s with cache := none } else s) = s1 ∧
        (if c.useDivisorCache && (additions + removals != 0) then { m with cache := none } else m) = m1 ∧
        Rel L t h s1 m1 ∧ CacheRel c t s1 m1 ∧ s1.bits = s.bits ∧ s1.tree = s.tree ∧ s1.size = s.size ∧
        (c.useDivisorCache = true → ∀ p, s1.cache = some p → ∃ e, s1.tree.deref p = some e) := by
      cases hu : c.useDivisorCache with
      | false => exact ⟨s, m, rfl, rfl, hr, (fun h => by rw [hu] at h; cases h), rfl, rfl, rfl, nofun⟩
      | true =>
        by_cases h0 : additions + removals = 0
        · exact ⟨s, m, by simp [h0], by simp [h0], hr, hc h0, rfl, rfl, rfl, fun _ => h4 h0 hu⟩
        · exact ⟨_, _, if_pos (by simpa using h0), if_pos (by simpa using h0), ⟨hr.tree, hr.mem, hr.erase, hr.bits, hr.changes, hr.size⟩,
            fun _ => rfl, rfl, rfl, rfl, fun _ => nofun⟩
    obtain ⟨s1, m1, e1, e2, r1, r2, r3, r4, r5, r6⟩ := k1
    rw [e1] at g1
    rw [e2]
    simp only at g1 ⊢
    have hsz : m1.size + additions - removals = s1.size + additions - removals := by rw [r1.size]
    have hR : Rel L t h { s1 with size := s1.size + additions - removals } { m1 with size := m1.size + additions - removals } :=
      ⟨r1.tree, r1.mem, r1.erase, r1.bits, r1.changes, hsz⟩
    split at g1
    · rename_i ha
      rw [if_pos ha]
      cases g1
      exact ⟨_, rfl, t, h, hR, r2⟩
    · rename_i ha
      rw [if_neg ha]
      have hch : m1.changes = s1.changes := r1.changes
      split at g1
      · rename_i hb
        rw [if_pos (by rw [hch]; exact hb)]
        cases g1
        exact ⟨_, rfl, t, h, ⟨r1.tree, r1.mem, r1.erase, r1.bits, by show m1.changes - _ = _; rw [hch], hsz⟩, r2⟩
      · rename_i hb
        rw [if_neg (by rw [hch]; exact hb)]
        obtain ⟨s2, m2, q1, q2, q3⟩ := rebuild_sim hl L (s := { s1 with size := s1.size + additions - removals })
          ⟨by rw [r3]; exact h1, by rw [r3, r4]; exact h2, by rw [r4]; exact h3, r6⟩ (by
            unfold SizeGe
            show s1.tree.contents.length ≤ s1.size + additions - removals
            rw [r4, r5]; exact hz) hR
        rw [g1] at q1
        cases q1
        exact ⟨m2, q2, q3⟩
  obtain ⟨m', k1, k2⟩ := key
  exact ⟨m', g1, k1, k2, hge⟩

theorem findDivisorTree_sim (hl : c.Lawful) (L : Layout I c) {t : Option (AT T)} {h : Heap N} {s : KDTree.State T} {m : State N} (hi : Inv c s)
    (hr : Rel L t h s m) (hc : CacheRel c t s m) (x : T) : ∃ r s' m', KDTree.findDivisorTree c s x = .ok (r, s') ∧
      findDivisorTree I c m x = .ok (r, m') ∧ Rel L t h s' m' ∧ CacheRel c t s' m' := by
  have hx : KDTree.IsExt c s.bits (ext c s x) := rfl
  have hbits : Ext.make c.dm m.bits x = ext c s x := by rw [hr.bits]; rfl
  rcases KDTree.tree_findDivisor_ok hl hi.masks hx hi.tree hi.tmp with ⟨p, e, h1, h2, h3⟩ | ⟨h1, h2⟩
  · have q1 := findDivisor_sim L hr.mem hr.erase hi.tmp h1
    have q2 := deref_sim L hr.mem hr.erase h2
    rw [hi.tmp, List.map_nil] at q1
    refine ⟨.entry (some e), { s with cache := if c.useDivisorCache then some p else s.cache },
      { m with cache := if c.useDivisorCache then some (ptr t p) else m.cache }, ?_, ?_, ⟨hr.tree, hr.mem, hr.erase, hr.bits, hr.changes, hr.size⟩, ?_⟩
    · rw [KDTree.findDivisorTree, h1]
      simp only [h2]
    · rw [findDivisorTree, hbits, hr.tree, q1]
      simp only [Option.map_some, q2]
    · intro hu
      simp [hu]
  · have q1 := findDivisor_sim L hr.mem hr.erase hi.tmp h1
    rw [hi.tmp, List.map_nil] at q1
    refine ⟨.entry none, s, m, ?_, ?_, hr, hc⟩
    · rw [KDTree.findDivisorTree, h1]
    · rw [findDivisorTree, hbits, hr.tree, q1]
      simp only [Option.map_none]
      rw [← hr.tree]

theorem find_sim (hl : c.Lawful) (L : Layout I c) {t : Option (AT T)} {h : Heap N} {s : KDTree.State T} {m : State N} (hi : Inv c s)
    (hr : Rel L t h s m) (hc : CacheRel c t s m) (x : T) : ∃ r s' m', KDTree.findDivisor c s x = .ok (r, s') ∧
      find I c m x = .ok (r, m') ∧ Rel L t h s' m' ∧ CacheRel c t s' m' := by
  have hd := findDivisorTree_sim hl L hi hr hc x
  unfold KDTree.findDivisor find
  cases hu : c.useDivisorCache with
  | false => exact hd
  | true =>
    rw [hc hu]
    cases hp : s.cache with
    | none => exact hd
    | some p =>
      obtain ⟨e, he⟩ := hi.cache hu p hp
      simp only [Option.map_some, he, hr.tree, deref_sim L hr.mem hr.erase he]
      split
      · exact ⟨_, _, _, rfl, rfl, hr, hc⟩
      · exact hd

theorem enum_sim (L : Layout I c) {t : Option (AT T)} {h : Heap N} {s s' : KDTree.State T} {m : State N} (hi : Inv c s) (hr : Rel L t h s m)
    (hc : CacheRel c t s m) {k : Kind T} {f : List T → Arr T → Option (List T × Flow)} {r : Ret T}
    (hs : KDTree.gotRes s (s.tree.enumerate c k f) = .ok (r, s')) (hi' : Inv c s') :
    ∃ m', gotRes m (enumerate I c m.tree k f) = .ok (r, m') ∧ Sim L s' m' := by
  cases he : s.tree.enumerate c k f with
  | none => rw [he] at hs; cases hs
  | some q =>
    obtain ⟨got, flow, t'⟩ := q
    rw [he] at hs
    cases hs
    have q1 := enumerate_sim L hr.mem hr.erase hi.tmp he
    have htmp : t'.tmp = [] := hi'.tmp
    have hroot : t'.root = s.tree.root := by
      rw [KDTree.Tree.enumerate] at he
      split at he
      · cases he; rfl
      · split at he
        · cases he
        · cases he; rfl
    rw [htmp, List.map_nil] at q1
    refine ⟨m, ?_, t, h, ⟨hr.tree, hr.mem, by rw [hr.erase]; exact hroot.symm, hr.bits, hr.changes, hr.size⟩, hc⟩
    rw [hr.tree, q1, gotRes, ← hr.tree]

theorem step_sim (hl : c.Lawful) (L : Layout I c) {s : KDTree.State T} {m : State N} (hi : Inv c s) (hz : SizeGe s) (hs : Sim L s m)
    (op : Op T) (h1 : op.NoThrow) (h2 : op.ElementOk c) :
    ∃ r s' m', KDTree.step c s op = .ok (r, s') ∧ step I c m op = .ok (r, m') ∧ Inv c s' ∧ SizeGe s' ∧ Sim L s' m' := by
  obtain ⟨r, s', g1, g2, g3, g4⟩ := KDTree.step_spec hl hi op h2
  have hinv := g4 h1
  have hext : ∀ m, KDTree.IsExt c s.bits (ext c s m) := fun _ => rfl
  obtain ⟨t, h, hr, hc⟩ := hs
  have hbits : ∀ x, Ext.make c.dm m.bits x = ext c s x := fun x => by rw [hr.bits]; rfl
  have hkeep : s'.contents = s.contents → s'.size = s.size → SizeGe s' := fun e1 e2 => by
    unfold SizeGe at *; rw [e1, e2]; exact hz
  cases op with
  | insert e =>
    obtain ⟨b, tr, a1, a2, a3, a4, a5⟩ := KDTree.tree_insert_ok hl hi.tree (hext e)
    have a1' := a1
    rw [KDTree.Tree.insert, Option.map_eq_some_iff] at a1'
    obtain ⟨⟨b', n'⟩, i1, i2⟩ := a1'
    cases i2
    rw [← hr.erase] at i1
    obtain ⟨h', t', j1, j2, j3, j4⟩ := L.insert_ok hr.mem i1
    rw [KDTree.step, KDTree.insert, a1] at g1
    rw [KDTree.step, KDTree.insert, a1, step, insert, hbits, hr.tree, j1]
    cases b' with
    | true =>
      cases g1
      obtain ⟨e1, e2, e3⟩ := a4 rfl
      refine ⟨_, _, _, rfl, rfl, hinv, hkeep e2 rfl, some t', h', ⟨rfl, j2, by simp [j3], hr.bits, hr.changes, hr.size⟩, ?_⟩
      intro hu
      show m.cache = s.cache.map _
      rw [hc hu]
      cases hp : s.cache with
      | none => rfl
      | some p =>
        cases t with
        | none =>
          obtain ⟨x, hx⟩ := hi.cache hu p hp
          rw [KDTree.Tree.deref, ← hr.erase] at hx
          cases hx
        | some t₀ => simp [ptr, locOf, j4 rfl t₀ rfl]
    | false =>
      obtain ⟨e1, e2⟩ := a5 rfl
      obtain ⟨s2, m2, q1, q2, q3, q4⟩ := reportChanges_sim hl L (s := { s with tree := { s.tree with root := some n' } })
        (m := { m with tree := ⟨h', some t'.addr, []⟩ }) (t := some t') (h := h') 1 0 hi.masks a2 (by rw [← hi.tmp, ← a3]) (by omega)
        ⟨rfl, j2, by simp [j3], hr.bits, hr.changes, hr.size⟩ (by omega) (by
          have e3 := e2.length_eq
          have hz : s.tree.contents.length ≤ s.size := hz
          rw [List.length_cons] at e3
          show ({ s.tree with root := some n' } : KDTree.Tree T).contents.length ≤ s.size + 1 - 0
          have e4 : ({ s.tree with root := some n' } : KDTree.Tree T).contents.length = s.tree.contents.length + 1 := e3
          omega)
      simp only at g1 ⊢
      rw [q1] at g1
      cases g1
      rw [q1, q2]
      exact ⟨_, _, _, rfl, rfl, hinv, q4, q3⟩
  | removeMultiples x =>
    rw [KDTree.step, KDTree.removeMultiples] at g1
    rw [KDTree.step, KDTree.removeMultiples, step, remove, hbits]
    cases ha : c.allowRemovals with
    | false =>
      rw [ha] at g1
      cases g1
      exact ⟨_, _, _, rfl, rfl, hinv, hz, t, h, hr, hc⟩
    | true =>
      rw [ha] at g1
      obtain ⟨out, tr, a1, a2, a3, a4, a5, a6⟩ := KDTree.tree_removeMultiples_ok hl hi.masks (hext x) hi.tree ha hi.tmp
      simp only [Bool.not_true, Bool.false_eq_true, if_false] at g1 ⊢
      obtain ⟨h', t', j1, j2, j3, j4⟩ := removeMultiples_sim L hr.mem hr.erase hi.tmp a1
      rw [a3, List.map_nil] at j1
      obtain ⟨s2, m2, q1, q2, q3, q4⟩ := reportChanges_sim hl L (s := { s with tree := tr })
        (m := { m with tree := ⟨h', t'.map AT.addr, []⟩ }) (t := t') (h := h') 0 out.length hi.masks a2 a3 (by
          intro h0 hu p hp
          have hnil : out = [] := List.length_eq_zero_iff.mp (by omega)
          rw [a6 hnil]
          exact hi.cache hu p hp) ⟨rfl, j2, j3, hr.bits, hr.changes, hr.size⟩ (by
          intro _ hu
          show m.cache = s.cache.map _
          have : ptr t' = ptr t := by funext p; simp [ptr, j4]
          rw [this]
          exact hc hu) (by
          have e1 : out.length = (s.tree.contents.filter (c.dm.divides (ext c s x).t)).length := a4.length_eq
          have e2 := a5.length_eq
          rw [KDTree.filter_len] at e2
          have e3 : (s.tree.contents.filter (c.dm.divides (ext c s x).t)).length ≤ s.tree.contents.length := List.length_filter_le _ _
          have hz : s.tree.contents.length ≤ s.size := hz
          show tr.contents.length ≤ s.size + 0 - out.length
          omega)
      rw [a1] at g1 ⊢
      rw [hr.tree, j1]
      simp only at g1 ⊢
      rw [q1] at g1
      cases g1
      rw [q1, q2]
      exact ⟨_, _, _, rfl, rfl, hinv, q4, q3⟩
  | removeElement x =>
    obtain ⟨hp, hu⟩ := h2
    rw [KDTree.step, KDTree.removeElement, hp] at g1
    rw [KDTree.step, KDTree.removeElement, hp, step, removeElement]
    cases ha : c.allowRemovals with
    | false =>
      rw [ha] at g1
      cases g1
      exact ⟨_, _, _, rfl, rfl, hinv, hz, t, h, hr, hc⟩
    | true =>
      rw [ha] at g1
      simp only [Bool.not_true, Bool.false_eq_true, if_false] at g1 ⊢
      have hcr : ∀ t (s : KDTree.State T) (m : State N), CacheRel c t s m := fun _ _ _ h => by rw [hu] at h; cases h
      cases ht : t with
      | none =>
        have hroot : s.tree.root = none := by rw [← hr.erase, ht]; rfl
        rw [KDTree.Tree.removeElement, hroot] at g1 ⊢
        simp only at g1 ⊢
        cases g1
        have htree := hr.tree
        rw [ht] at htree
        rw [htree, Option.map_none, L.removeElement_none hp]
        exact ⟨_, _, _, rfl, rfl, hinv, hz, t, h, ⟨by rw [ht]; rfl, hr.mem, hr.erase, hr.bits, hr.changes, hr.size⟩, hcr _ _ _⟩
      | some t₀ =>
        subst ht
        have hroot : s.tree.root = some t₀.erase := by rw [← hr.erase]; rfl
        obtain ⟨b, n', r1, r2, r3, r4⟩ := KDTree.removeElementNode_ok (m := x) t₀.erase (hi.tree.wf _ hroot)
        obtain ⟨h', t', j1, j2, j3, j4⟩ := L.removeElement_ok hp hr.mem r1
        rw [KDTree.Tree.removeElement, hroot] at g1 ⊢
        simp only [r1, Option.map_some] at g1 ⊢
        cases g1
        rw [hr.tree, Option.map_some, j1]
        refine ⟨_, _, _, rfl, rfl, hinv, ?_, some t', h', ⟨rfl, j2, by simp [j3], hr.bits, hr.changes, hr.size⟩, hcr _ _ _⟩
        unfold SizeGe KDTree.State.contents KDTree.Tree.contents at hz
        rw [hroot] at hz
        show n'.contents.length ≤ s.size
        simp only at hz
        refine le_trans ?_ hz
        rw [KDTree.contents_exts, KDTree.contents_exts, List.length_map, List.length_map]
        cases b with
        | false => rw [(r3 rfl).1]
        | true =>
          obtain ⟨e, _, e2⟩ := r4 rfl
          rw [e2.length_eq, List.length_cons]
          omega
  | findDivisor x =>
    obtain ⟨r2, s2, m2, q1, q2, q3, q4⟩ := find_sim hl L hi hr hc x
    obtain ⟨r3, s3, p1, _, _, p2, p3⟩ := KDTree.findDivisor_ok hl hi x
    rw [KDTree.step] at g1 ⊢
    rw [q1] at g1 p1
    cases g1
    cases p1
    exact ⟨_, _, _, q1, q2, hinv, hkeep p2 p3, t, h, q3, q4⟩
  | findAllDivisors x p =>
    have g1' := g1
    rw [KDTree.step, KDTree.Tree.findAllDivisors] at g1'
    obtain ⟨m', q1, q2⟩ := enum_sim L hi hr hc g1' hinv
    refine ⟨_, _, m', g1, by rw [step, hbits]; exact q1, hinv, ?_, q2⟩
    obtain ⟨t2, h2', r2, _⟩ := q2
    cases he : s.tree.enumerate c (.divisors (ext c s x)) (fun got a => a.findAllDivisors c (ext c s x) p got) with
    | none => rw [he] at g1'; cases g1'
    | some q =>
      rw [he] at g1'
      cases g1'
      rw [KDTree.Tree.enumerate] at he
      refine hkeep ?_ rfl
      unfold KDTree.State.contents KDTree.Tree.contents
      simp only
      split at he
      · cases he; rfl
      · split at he
        · cases he
        · cases he; rfl
  | findAllMultiples x p =>
    have g1' := g1
    rw [KDTree.step, KDTree.Tree.findAllMultiples] at g1'
    obtain ⟨m', q1, q2⟩ := enum_sim L hi hr hc g1' hinv
    refine ⟨_, _, m', g1, by rw [step, hbits]; exact q1, hinv, ?_, q2⟩
    cases he : s.tree.enumerate c (.multiples (ext c s x)) (fun got a => a.findAllMultiples c (ext c s x) p got) with
    | none => rw [he] at g1'; cases g1'
    | some q =>
      rw [he] at g1'
      cases g1'
      rw [KDTree.Tree.enumerate] at he
      refine hkeep ?_ rfl
      unfold KDTree.State.contents KDTree.Tree.contents
      simp only
      split at he
      · cases he; rfl
      · split at he
        · cases he
        · cases he; rfl
  | forAll p =>
    have g1' := g1
    rw [KDTree.step, KDTree.Tree.forAll] at g1'
    obtain ⟨m', q1, q2⟩ := enum_sim L hi hr hc g1' hinv
    refine ⟨_, _, m', g1, by rw [step]; exact q1, hinv, ?_, q2⟩
    cases he : s.tree.enumerate c .all (fun got a => a.forAll c p got) with
    | none => rw [he] at g1'; cases g1'
    | some q =>
      rw [he] at g1'
      cases g1'
      rw [KDTree.Tree.enumerate] at he
      refine hkeep ?_ rfl
      unfold KDTree.State.contents KDTree.Tree.contents
      simp only
      split at he
      · cases he; rfl
      · split at he
        · cases he
        · cases he; rfl
  | rebuild =>
    obtain ⟨s2, m2, q1, q2, q3⟩ := rebuild_sim hl L hi hz hr
    obtain ⟨s3, p1, p2, p3, p4⟩ := KDTree.rebuild_ok hl hi
    rw [KDTree.step, q1] at g1
    rw [q1] at p1
    cases p1
    cases g1
    refine ⟨_, _, _, by rw [KDTree.step, q1]; rfl, by rw [step, q2]; rfl, hinv, ?_, q3⟩
    unfold SizeGe
    rw [p3.length_eq, p4]
    exact hz
  | size =>
    cases g1
    exact ⟨_, _, _, rfl, by rw [step, hr.size], hinv, hz, t, h, hr, hc⟩

theorem run_sim (hl : c.Lawful) (L : Layout I c) : ∀ (ops : List (Op T)) {s : KDTree.State T} {m : State N}, Inv c s → SizeGe s → Sim L s m →
    (∀ op ∈ ops, op.NoThrow ∧ op.ElementOk c) →
    ∃ rs s' m', KDTree.run c s ops = .ok (rs, s') ∧ run I c m ops = .ok (rs, m') ∧ Inv c s' ∧ SizeGe s' ∧ Sim L s' m' := by
  intro ops
  induction ops with
  | nil => intro s m h1 h2 h3 _; exact ⟨[], s, m, rfl, rfl, h1, h2, h3⟩
  | cons op ops ih =>
    intro s m h1 h2 h3 hops
    obtain ⟨o1, o2⟩ := hops op (by simp)
    obtain ⟨r, s', m', g1, g2, g3, g4, g5⟩ := step_sim hl L h1 h2 h3 op o1 o2
    obtain ⟨rs, s'', m'', r1, r2, r3, r4, r5⟩ := ih g3 g4 g5 (fun o ho => hops o (List.mem_cons_of_mem _ ho))
    exact ⟨r :: rs, s'', m'', by rw [KDTree.run, g1]; simp only [r1], by rw [run, g2]; simp only [r2], r3, r4, r5⟩

theorem sim_live (L : Layout I c) {s : KDTree.State T} {m : State N} (hs : Sim L s m) :
    (liveEntries I.slots m.tree.heap).Perm s.contents := by
  obtain ⟨t, h, hr, _⟩ := hs
  rw [hr.tree]
  unfold KDTree.State.contents KDTree.Tree.contents
  rw [← hr.erase]
  cases t with
  | none =>
    have hm : ∀ y, get h y = none := hr.mem
    show (liveEntries I.slots h).Perm []
    exact liveEntries_perm (slots := I.slots) (h := h) (L := []) .nil nofun (fun y n hy => by rw [hm] at hy; cases hy)
  | some t => exact L.live hr.mem

theorem sim_clear (L : Layout I c) {s : KDTree.State T} {m : State N} (hs : Sim L s m) :
    ∃ mt, I.clear c m.tree = some mt ∧ ∀ y, get mt.heap y = none := by
  obtain ⟨t, h, hr, _⟩ := hs
  obtain ⟨h', g1, g2⟩ := L.clear_ok hr.mem
  exact ⟨_, by rw [hr.tree]; exact g1, g2⟩

theorem run_append (I : Impl T N) : ∀ (ops ops' : List (Op T)) {m m' : State N} {rs : List (Ret T)}, run I c m ops = .ok (rs, m') →
    run I c m' ops' = .ub → run I c m (ops ++ ops') = .ub := by
  intro ops
  induction ops with
  | nil => intro ops' m m' rs h h'; cases h; exact h'
  | cons op ops ih =>
    intro ops' m m' rs h h'
    rw [List.cons_append, run]
    rw [run] at h
    cases hs : step I c m op with
    | ub => rfl
    | broken t => rw [hs] at h; cases h
    | ok q =>
      obtain ⟨r, m1⟩ := q
      rw [hs] at h
      simp only at h ⊢
      cases hr : run I c m1 ops with
      | ub => rw [hr] at h; cases h
      | broken t => rw [hr] at h; cases h
      | ok q =>
        obtain ⟨rs1, m2⟩ := q
        rw [hr] at h
        cases h
        rw [ih ops' hr h']

/-! ## After an exception of an output object -/

/-- After an output object has thrown at the first divisor of `x`, `rebuild` would record more than `size()` entries. -/
def overflows (c : Conf T) (s : KDTree.State T) (x : T) : Bool :=
  match s.tree.root with
  | none => false
  | some n =>
    match KDTree.loop c (.divisors (ext c s x))
        (KDTree.actVisit (fun got a => a.findAllDivisors c (ext c s x) (fun _ => .threw) got) n) [] ([], n) [],
      KDTree.loop c .all (KDTree.actVisit (fun got a => a.forAll c (fun _ => .go) got) n) [] ([], n)
        (KDTree.expand c [] n (.divisors (ext c s x))).pre with
    | some (_, _, tmp), some (l, _, _) =>
      decide (tmp = (KDTree.expand c [] n (.divisors (ext c s x))).pre.map Prod.fst) && decide (s.size < l.length)
    | _, _ => false

theorem overflow_ub (L : Layout I c) {s : KDTree.State T} {m : State N} (hs : Sim L s m) {x : T} (ho : overflows c s x = true) :
    run I c m [.findAllDivisors x (fun _ => .threw), .rebuild] = .ub := by
  obtain ⟨t, h, hr, _⟩ := hs
  unfold overflows at ho
  rw [← hr.erase] at ho
  cases t with
  | none => cases ho
  | some t =>
    have hm : Mem L.Holds L.addrs h t := hr.mem
    simp only [Option.map_some] at ho
    split at ho
    · rename_i g f tmp l f' tmp' h1 h2
      rw [Bool.and_eq_true, decide_eq_true_iff, decide_eq_true_iff] at ho
      obtain ⟨ho1, ho2⟩ := ho
      have hsp := L.spine_pre (.divisors (ext c s x)) (L.spine_root hm.holds)
      have e1 := enumerate_stack L hm (fun y hy => by cases hy) h1
      have e2 := enumerate_stack L hm hsp h2
      rw [List.map_nil] at e1
      rw [ho1, List.map_map] at e1
      have hx : Ext.make c.dm m.bits x = ext c s x := by rw [hr.bits]; rfl
      rw [run, step, hr.tree, hx]
      simp only [Option.map_some]
      rw [e1]
      simp only [gotRes, run, step, rebuild]
      have hco : (t.loc ∘ Prod.fst : Path × Node T → Addr) = fun y => t.loc y.1 := rfl
      rw [hco, e2]
      simp only [hr.size, if_pos ho2]
      rfl
    · cases ho

/-! ## After `removeElement` with a divisor cache -/

/-- The entry that the cache points to is gone after `removeElement(x)`. -/
def dangles (c : Conf T) (s : KDTree.State T) (x : T) : Bool :=
  match s.tree.root, s.cache with
  | some n, some p =>
    match KDTree.removeElementNode c x n with
    | none => false
    | some (_, n') =>
      match n'.arrAt p.1 with
      | none => false
      | some a => decide (a.es.length ≤ p.2)
  | _, _ => false

theorem read_ge {l : List (Ext T)} {k i : ℕ} (hi : l.length ≤ i) : read (raw l k) i = none := by
  by_cases h : i < l.length + k
  · rw [read, raw_get_ge hi h]
  · rw [read, List.getElem?_eq_none (by simp [raw]; omega)]

theorem dangle_ub (L : Layout I c) (hp : c.packed = true) (ha : c.allowRemovals = true) (hu : c.useDivisorCache = true)
    {s : KDTree.State T} {m : State N} (hs : Sim L s m) {x y : T} (ho : dangles c s x = true) :
    run I c m [.removeElement x, .findDivisor y] = .ub := by
  obtain ⟨t, h, hr, hc⟩ := hs
  have hc := hc hu
  unfold dangles at ho
  rw [← hr.erase] at ho
  cases t with
  | none => cases ho
  | some t =>
    have hm : Mem L.Holds L.addrs h t := hr.mem
    simp only [Option.map_some] at ho
    cases hca : s.cache with
    | none => rw [hca] at ho; cases ho
    | some p =>
      rw [hca] at ho hc
      simp only at ho
      cases hrm : KDTree.removeElementNode c x t.erase with
      | none => rw [hrm] at ho; cases ho
      | some q =>
        obtain ⟨b, n'⟩ := q
        rw [hrm] at ho
        simp only at ho
        cases harr : n'.arrAt p.1 with
        | none => rw [harr] at ho; cases ho
        | some a =>
          rw [harr] at ho
          simp only [decide_eq_true_iff] at ho
          obtain ⟨h', t', j1, j2, j3, j4⟩ := L.removeElement_ok hp hm hrm
          rw [← j3] at harr
          have hg := (L.getArr_ok j2.holds harr).1
          rw [j4] at hg
          have hd : deref I ⟨h', some t'.addr, []⟩ (ptr (some t) p) = none := by
            have e1 : (ptr (some t) p).1 = t.loc p.1 := rfl
            have e2 : (ptr (some t) p).2 = p.2 := rfl
            rw [deref, e1, e2]
            simp only [hg, Option.bind_eq_bind, Option.bind_some, ofArr]
            rw [read_ge ho]
            rfl
          rw [run, step, removeElement, hr.tree, ha]
          simp only [Option.map_some, Bool.not_true, Bool.false_eq_true, if_false, j1]
          rw [run, step, find, hu, hc]
          simp only [Option.map_some, hd]

end Verif.KDMem
