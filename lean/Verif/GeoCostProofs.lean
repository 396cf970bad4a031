import Verif.GeoTraceProofs
import Verif.GeoInsertProofs
import Mathlib.Tactic.Linarith
import Mathlib.Tactic.Ring

/-!
# Lemmas on the number of comparisons of the geobucket: front, merges and insertion
-/

namespace Verif

/-- Whenever `x` is defined, its result and the number of pairs that it compares are as `P` says. -/
def Tr.Costs {E α : Type} (x : Tr E α) (P : α → ℕ → Prop) : Prop := ∀ a, x.1 = some a → P a x.2.length

namespace Tr

variable {E α β : Type}

theorem Costs.lift {o : Option α} {P : α → ℕ → Prop} (h : ∀ a, o = some a → P a 0) : Costs (Tr.lift o : Tr E α) P := h

theorem Costs.mono {x : Tr E α} {P Q : α → ℕ → Prop} (h : Costs x P) (h' : ∀ a n, x.1 = some a → P a n → Q a n) :
    Costs x Q := fun a ha => h' a _ ha (h a ha)

theorem Costs.bind {x : Tr E α} {f : α → Tr E β} {P : β → ℕ → Prop}
    (h : Costs x (fun a n => Costs (f a) (fun b m => P b (n + m)))) : Costs (x >>= f) P := by
  obtain ⟨x1, x2⟩ := x
  intro b hb
  cases x1 with
  | none => cases hb
  | some a =>
    have h1 := h a rfl b hb
    have e : ((Tr.bind (some a, x2) f) : Tr E β).2.length = x2.length + (f a).2.length := List.length_append
    rw [show ((some a, x2) >>= f : Tr E β).2.length = _ from e]
    exact h1

theorem Costs.liftBind {o : Option α} {f : α → Tr E β} {P : β → ℕ → Prop} (h : ∀ a, o = some a → Costs (f a) P) :
    Costs (Tr.lift o >>= f) P := by
  refine .bind fun a ha => ?_
  refine (h a ha).mono fun b n _ hb => ?_
  have e : (Tr.lift o : Tr E α).2.length + n = n := Nat.zero_add n
  rw [e]
  exact hb

theorem Costs.ask {f : Unit → Tr E β} {P : β → ℕ → Prop} {a b : E} (h : Costs (f ()) (fun b m => P b (m + 1))) :
    Costs (Tr.ask a b >>= f) P := by
  refine .bind fun u _ => ?_
  refine h.mono fun b n _ hb => ?_
  rw [show (Tr.ask a _ : Tr E Unit).2.length + n = n + 1 from Nat.add_comm 1 n]
  exact hb

theorem Costs.ite {Q : Prop} [Decidable Q] {x x' : Tr E α} {P : α → ℕ → Prop} (h : Q → Costs x P)
    (h' : ¬ Q → Costs x' P) : Costs (if Q then x else x') P := by
  by_cases hQ : Q
  · rw [if_pos hQ]; exact h hQ
  · rw [if_neg hQ]; exact h' hQ

end Tr

end Verif

namespace Verif.Geobucket

open Verif.Tr (lift ask Costs)

variable {E : Type} {c : Conf E}

/-! ## The front -/

theorem wrSlot_len {f f' : Front} {i b : ℕ} (h : f.wrSlot i b = some f') :
    i < f.slots.length ∧ f'.slots.length = f.slots.length ∧ f'.fend = f.fend ∧ f'.pos = f.pos := by
  unfold Front.wrSlot at h
  split at h
  · cases h; exact ⟨by assumption, List.length_set, rfl, rfl⟩
  · cases h

theorem setPos_len {f f' : Front} {b : ℕ} {t : Tok} (h : f.setPos b t = some f') :
    f'.slots = f.slots ∧ f'.fend = f.fend ∧ f'.pos = f.pos.set b t ∧ b < f.pos.length := by
  unfold Front.setPos at h
  split at h
  · cases h; exact ⟨rfl, rfl, rfl, by assumption⟩
  · cases h

theorem settle_len {f f' : Front} {p b : ℕ} (h : settle f p b = some f') :
    p < f.slots.length ∧ f'.slots.length = f.slots.length := by
  unfold settle at h
  rcases h1 : f.wrSlot p b with - | f₁
  · rw [h1] at h; cases h
  · rw [h1] at h
    obtain ⟨k1, k2, -⟩ := wrSlot_len h1
    exact ⟨k1, by rw [(setPos_len h).1, k2]⟩

theorem incLoopT_costs (bs : List (Bucket E)) (b : ℕ) : ∀ (p : ℕ) (f : Front),
    Costs (incLoopT c bs b p f) (fun r n => r.2.slots.length = f.slots.length ∧ n ≤ p ∧
      (r.1 = p ∨ p < f.slots.length)) := by
  intro p
  induction p with
  | zero => intro f; exact .lift fun r hr => by cases hr; exact ⟨rfl, le_rfl, .inl rfl⟩
  | succ p ih =>
    intro f
    refine .liftBind fun q _ => .liftBind fun y _ => .liftBind fun x _ => .ask ?_
    refine .ite (fun _ => .liftBind fun f₁ h1 => .liftBind fun f₂ h2 => (ih f₂).mono fun r n _ h => ?_)
      fun _ => .lift fun r hr => by cases hr; exact ⟨rfl, by omega, .inl rfl⟩
    obtain ⟨k1, k2, -⟩ := wrSlot_len h1
    have k3 := (setPos_len h2).1
    refine ⟨by rw [h.1, k3, k2], by omega, .inr k1⟩

theorem keyIncreasedTT_costs (bs : List (Bucket E)) (f : Front) (b : ℕ) :
    Costs (keyIncreasedTT c bs f b) (fun f' n => f'.slots.length = f.slots.length ∧ n + 1 ≤ f.slots.length ∧
      ∀ p, f.pos[b]? = some (.slot p) → n ≤ p) := by
  unfold keyIncreasedTT keyIncreasedFrom
  rcases f.pos[b]? with - | (- | p | -)
  · exact .lift nofun
  · exact .lift nofun
  · refine .bind ((incLoopT_costs bs b p f).mono fun r n _ h => .lift fun f' hf => ?_)
    obtain ⟨k1, k2⟩ := settle_len hf
    obtain ⟨h1, h2, h3⟩ := h
    refine ⟨by omega, by omega, fun p' hp => ?_⟩
    cases hp
    omega
  · exact .lift nofun

/-- The array of the front is no longer than the list of buckets. -/
def Slots (c : Conf E) (s : State E) : Prop := c.trackFront = true → s.front.slots.length ≤ s.buckets.length

/-- Only the front changes, and no cell is added to it. -/
structure Still (s s' : State E) : Prop where
  buckets : s'.buckets = s.buckets
  count : s'.count = s.count
  slots : s'.front.slots.length = s.front.slots.length

theorem Still.ok {s s' : State E} (h : Still s s') (hs : Slots c s) : Slots c s' := fun ht => by
  rw [h.buckets, h.slots]; exact hs ht

theorem keyIncreasedTr_costs (s : State E) (b : ℕ) (hs : Slots c s) :
    Costs (keyIncreasedTr c s b) (fun s' n => Still s s' ∧ n ≤ s.buckets.length - 1) := by
  refine .ite (fun ht => .bind ((keyIncreasedTT_costs _ _ _).mono fun f n _ h => .lift fun s' hs' => ?_))
    fun _ => .lift fun s' hs' => ?_
  · cases hs'
    have := hs ht
    exact ⟨⟨rfl, rfl, h.1⟩, by omega⟩
  · cases hs'
    exact ⟨⟨rfl, rfl, rfl⟩, Nat.zero_le _⟩

theorem reserveCapacity_len {f f' : Front} {n : ℕ} (h : reserveCapacity f n = some f') :
    f'.slots.length ≤ max n 1 ∧ f'.fend = f.fend ∧ f'.pos.length = f.pos.length := by
  unfold reserveCapacity at h
  simp only at h
  generalize hm : (if n = 0 then 1 else n) = m at h
  have h1 : m ≤ max n 1 := by
    rw [← hm]
    split <;> omega
  split at h
  · cases h
    refine ⟨?_, rfl, by simp⟩
    simp only [List.length_append, List.length_take, List.length_replicate]
    omega
  · cases h

theorem frontInsertTr_costs (s : State E) (b : ℕ) (hs : Slots c s)
    (hf : c.trackFront = true → s.front.fend < s.buckets.length) :
    Costs (frontInsertTr c s b) (fun s' n => s'.buckets = s.buckets ∧ s'.count = s.count ∧ Slots c s' ∧
      n ≤ s.buckets.length - 1) := by
  refine .ite (fun ht => .liftBind fun f₁ h1 => .liftBind fun f₂ h2 => .liftBind fun f₃ h3 =>
    .bind ((keyIncreasedTT_costs _ _ _).mono fun f n _ h => .lift fun s' hs' => ?_)) fun hn => .lift fun s' hs' => ?_
  · cases hs'
    have k0 := hs ht
    have k1 := hf ht
    have e1 : f₁.slots.length ≤ s.buckets.length ∧ f₁.fend = s.front.fend := by
      split at h1
      · obtain ⟨m1, m2, -⟩ := reserveCapacity_len h1
        exact ⟨by omega, m2⟩
      · cases h1; exact ⟨k0, rfl⟩
    obtain ⟨k3, k4, k5, -⟩ := wrSlot_len h2
    obtain ⟨k6, -, k8, k9⟩ := setPos_len h3
    obtain ⟨m1, m2, m3⟩ := h
    have k10 : f₃.slots.length = f₁.slots.length := by rw [k6]; exact k4
    refine ⟨rfl, rfl, fun _ => ?_, ?_⟩
    · show f.slots.length ≤ s.buckets.length
      omega
    · have := e1.1
      omega
  · cases hs'
    exact ⟨rfl, rfl, fun ht => absurd ht hn, Nat.zero_le _⟩

theorem removeLoop_len : ∀ (n i : ℕ) (f f' : Front), removeLoop n i f = some f' →
    f'.slots.length = f.slots.length := by
  intro n
  induction n with
  | zero => intro i f f' h; cases h; rfl
  | succ n ih =>
    intro i f f' h
    simp only [removeLoop, Option.bind_eq_bind, Option.bind_eq_some_iff] at h
    obtain ⟨q, -, f₁, h1, f₂, h2, h3⟩ := h
    rw [ih _ _ _ h3, (setPos_len h2).1, (wrSlot_len h1).2.1]

theorem removeT_len {f f' : Front} {b : ℕ} (h : removeT f b = some f') : f'.slots.length = f.slots.length := by
  unfold removeT at h
  split at h
  · split at h
    · simp only [Option.bind_eq_bind, Option.bind_eq_some_iff] at h
      obtain ⟨f₁, h1, h2⟩ := h
      rw [(setPos_len h2).1]
      exact (removeLoop_len _ _ _ f₁ h1 : f₁.slots.length = _)
    · cases h
  · cases h

theorem frontRemove_still {s s' : State E} {b : ℕ} (h : frontRemove c s b = some s') : Still s s' := by
  unfold frontRemove at h
  split at h
  · rw [Option.map_eq_some_iff] at h
    obtain ⟨f, h1, rfl⟩ := h
    exact ⟨rfl, rfl, removeT_len h1⟩
  · cases h; exact ⟨rfl, rfl, rfl⟩

theorem writeBack_len {f f' : Front} {a : ℕ} (h : writeBack f a = some f') : f'.slots.length = f.slots.length := by
  unfold writeBack at h
  split at h
  · cases h; rfl
  · exact (wrSlot_len h).2.1
  · cases h

theorem swapKeys_still {s s' : State E} {a b : ℕ} (h : swapKeys c s a b = some s') : Still s s' := by
  unfold swapKeys at h
  split at h
  · simp only [Option.bind_eq_bind, Option.bind_eq_some_iff] at h
    obtain ⟨ta, -, tb, -, f₁, h1, f₂, h2, f₃, h3, f₄, h4, h5⟩ := h
    cases h5
    refine ⟨rfl, rfl, ?_⟩
    show f₄.slots.length = _
    rw [writeBack_len h4, writeBack_len h3, (setPos_len h2).1, (setPos_len h1).1]
  · cases h; exact ⟨rfl, rfl, rfl⟩

/-! ## The potential -/

/-- The number of entries, each counted as often as there are buckets from its own on, out of `K`. -/
def pot (K : ℕ) : List (Bucket E) → ℕ
  | [] => 0
  | b :: bs => K * b.es.length + pot (K - 1) bs

theorem pot_set {bs : List (Bucket E)} {i : ℕ} {b : Bucket E} (b' : Bucket E) : ∀ {K : ℕ}, bs[i]? = some b →
    pot K (bs.set i b') + (K - i) * b.es.length = pot K bs + (K - i) * b'.es.length := by
  induction bs generalizing i with
  | nil => intro K h; cases h
  | cons a bs ih =>
    intro K h
    cases i with
    | zero =>
      cases h
      simp only [List.set_cons_zero, pot, Nat.sub_zero]
      omega
    | succ i =>
      have := ih (i := i) (K := K - 1) h
      have e : K - (i + 1) = K - 1 - i := by omega
      simp only [List.set_cons_succ, pot, e]
      omega

theorem pot_append {bs bs' : List (Bucket E)} (h : ∀ b ∈ bs', b.es = []) : ∀ K, pot K (bs ++ bs') = pot K bs := by
  have h0 : ∀ K, pot K bs' = 0 := by
    induction bs' with
    | nil => intro K; rfl
    | cons b bs' ih =>
      intro K
      rw [pot, ih fun x hx => h x (List.mem_cons_of_mem _ hx), h b List.mem_cons_self]
      rfl
  induction bs with
  | nil => intro K; exact h0 K
  | cons b bs ih => intro K; rw [List.cons_append, pot, ih, pot]

/-- Setting a bucket to one with fewer entries. -/
theorem pot_set_le {bs : List (Bucket E)} {i n K : ℕ} {b b' : Bucket E} (h : bs[i]? = some b)
    (hn : b'.es.length ≤ b.es.length + n) : pot K (bs.set i b') ≤ pot K bs + (K - i) * n := by
  have h1 := pot_set (K := K) b' h
  have h2 : (K - i) * b'.es.length ≤ (K - i) * b.es.length + (K - i) * n := by
    rw [← Nat.mul_add]; exact Nat.mul_le_mul_left _ hn
  omega

/-- Moving entries one bucket up. -/
theorem pot_move {bs : List (Bucket E)} {i n K : ℕ} {b d b' d' : Bucket E} (hb : bs[i]? = some b)
    (hd : bs[i + 1]? = some d) (hK : bs.length ≤ K) (he : b'.es = [])
    (hn : d'.es.length ≤ d.es.length + b.es.length + n) :
    pot K ((bs.set (i + 1) d').set i b') + b.es.length ≤ pot K bs + (K - (i + 1)) * n := by
  have hl : i + 1 < bs.length := (List.getElem?_eq_some_iff.1 hd).1
  have hb1 : (bs.set (i + 1) d')[i]? = some b := by rw [List.getElem?_set_ne (by omega)]; exact hb
  have h1 := pot_set (K := K) d' hd
  have h2 := pot_set (K := K) b' hb1
  have e : K - i = K - (i + 1) + 1 := by omega
  rw [he, e] at h2
  have h3 : (K - (i + 1)) * d'.es.length ≤
      (K - (i + 1)) * d.es.length + (K - (i + 1)) * b.es.length + (K - (i + 1)) * n := by
    rw [← Nat.mul_add, ← Nat.mul_add]; exact Nat.mul_le_mul_left _ hn
  simp only [List.length_nil, Nat.mul_zero, Nat.add_zero, Nat.add_mul, Nat.one_mul] at h2
  omega

/-! ## Merges -/

theorem mergeT_len (l₁ l₂ : List E) : (mergeT c l₁ l₂).2.length ≤ l₁.length + l₂.length ∧
    (mergeT c l₁ l₂).1.1.length ≤ l₁.length + l₂.length := by
  induction l₁, l₂ using mergeT.induct c with
  | case1 l₂ => rw [mergeT]; simp
  | case2 a l₁ => rw [mergeT]; simp
  | case3 a l₁ b l₂ h ih =>
    rw [mergeT, if_pos h]
    simp only [List.length_cons] at ih ⊢
    omega
  | case4 a l₁ b l₂ h h' ih =>
    rw [mergeT, if_neg h, if_pos h']
    simp only [List.length_cons] at ih ⊢
    omega
  | case5 a l₁ b l₂ h h' ih =>
    rw [mergeT, if_neg h, if_neg h']
    simp only [List.length_cons] at ih ⊢
    omega

theorem mergeT_pairs (l₁ l₂ : List E) :
    (l₁ = [] ∨ l₂ = [] → (mergeT c l₁ l₂).2 = []) ∧
    (l₁ ≠ [] → l₂ ≠ [] → (mergeT c l₁ l₂).2.length < l₁.length + l₂.length) ∧
    ∀ p ∈ (mergeT c l₁ l₂).2, p.1 ∈ l₁ ∧ p.2 ∈ l₂ := by
  have step : ∀ (a b : E) (l₁ l₂ m₁ m₂ : List E) (r : List (E × E)), (m₁ = [] ∨ m₂ = [] → r = []) →
      (m₁ ≠ [] → m₂ ≠ [] → r.length < m₁.length + m₂.length) → (∀ p ∈ r, p.1 ∈ m₁ ∧ p.2 ∈ m₂) →
      m₁ ⊆ a :: l₁ → m₂ ⊆ b :: l₂ → m₁.length + m₂.length ≤ l₁.length + l₂.length + 1 →
      (a :: l₁ = [] ∨ b :: l₂ = [] → (a, b) :: r = []) ∧
      (a :: l₁ ≠ [] → b :: l₂ ≠ [] → ((a, b) :: r).length < (a :: l₁).length + (b :: l₂).length) ∧
      ∀ p ∈ (a, b) :: r, p.1 ∈ a :: l₁ ∧ p.2 ∈ b :: l₂ := by
    intro a b l₁ l₂ m₁ m₂ r h1 h2 h3 h4 h5 h6
    refine ⟨by simp, fun _ _ => ?_, ?_⟩
    · simp only [List.length_cons]
      by_cases hm : m₁ = [] ∨ m₂ = []
      · rw [h1 hm]; simp only [List.length_nil]; omega
      · rw [not_or] at hm
        have := h2 hm.1 hm.2
        omega
    · intro p hp
      rcases List.mem_cons.mp hp with rfl | hp
      · exact ⟨List.mem_cons_self, List.mem_cons_self⟩
      · exact ⟨h4 (h3 p hp).1, h5 (h3 p hp).2⟩
  induction l₁, l₂ using mergeT.induct c with
  | case1 l₂ => rw [mergeT]; simp
  | case2 a l₁ => rw [mergeT]; simp
  | case3 a l₁ b l₂ h ih =>
    rw [mergeT, if_pos h]
    exact step a b l₁ l₂ _ _ _ ih.1 ih.2.1 ih.2.2 (List.subset_cons_self _ _) (fun _ h => h) (by simp; omega)
  | case4 a l₁ b l₂ h h' ih =>
    rw [mergeT, if_neg h, if_pos h']
    exact step a b l₁ l₂ _ _ _ ih.1 ih.2.1 ih.2.2 (fun _ h => h) (List.subset_cons_self _ _) (by simp; omega)
  | case5 a l₁ b l₂ h h' ih =>
    rw [mergeT, if_neg h, if_neg h']
    exact step a b l₁ l₂ _ _ _ ih.1 ih.2.1 ih.2.2 (List.subset_cons_self _ _) (List.subset_cons_self _ _) (by omega)

theorem mergeTr_costs (l₁ l₂ : List E) : Costs (mergeTr c l₁ l₂) (fun r n => n ≤ l₁.length + l₂.length ∧
    r.1.length ≤ l₁.length + l₂.length) := by
  intro r hr
  cases hr
  exact mergeT_len l₁ l₂

theorem mergeResT_costs (tmp : ℕ) (es l : List E) : Costs (mergeResT c tmp es l) (fun r n => n ≤ es.length + l.length ∧
    r.1.length ≤ es.length + l.length) := by
  unfold mergeResT
  rcases c.storage with - | - | -
  · refine .ite (fun _ => (mergeTr_costs l es).mono fun r n _ h => ?_) fun _ => .lift nofun
    omega
  · exact mergeTr_costs es l
  · exact mergeTr_costs es l

theorem fill_len {b b' : Bucket E} {l : List E} (h : b.fill l = some b') : b'.es = l ∧ b'.cap = b.cap ∧ l.length ≤ b.cap := by
  unfold Bucket.fill at h
  split at h
  · cases h; exact ⟨rfl, rfl, by assumption⟩
  · cases h

theorem mergeToNonEmptyT_costs {s : State E} {into : ℕ} {l : List E} {b : Bucket E} (hs : Slots c s)
    (hb : s.buckets[into]? = some b) :
    Costs (mergeToNonEmptyT c s into l) (fun s' n => Slots c s' ∧ s'.count ≤ s.count ∧
      n ≤ b.es.length + l.length + (s.buckets.length - 1) ∧
      ∃ b', s'.buckets = s.buckets.set into b' ∧ b'.cap = b.cap ∧ b'.es.length ≤ b.es.length + l.length) := by
  refine .liftBind fun b₀ h0 => ?_
  cases hb.symm.trans h0
  refine .bind ((mergeResT_costs _ _ _).mono fun r n _ h => .liftBind fun b' hf => ?_)
  obtain ⟨k1, k2, -⟩ := fill_len hf
  have hs' : Slots c { s.setBucket into b' with count := s.count - r.2 } := fun ht => by
    show _ ≤ (s.buckets.set into b').length
    rw [List.length_set]; exact hs ht
  refine (keyIncreasedTr_costs _ into hs').mono fun s' m _ h' => ?_
  obtain ⟨h1, h2⟩ := h'
  have e : ({ s.setBucket into b' with count := s.count - r.2 } : State E).buckets.length = s.buckets.length := List.length_set
  rw [e] at h2
  exact ⟨h1.ok hs', by rw [h1.count]; exact Nat.sub_le _ _, by omega, b', h1.buckets, k2, by rw [k1]; exact h.2⟩

theorem mergeBucketsT_costs {s : State E} {dst src : ℕ} {sb db : Bucket E} (hs : Slots c s) (hsd : src ≠ dst)
    (hb : s.buckets[src]? = some sb) (hd : s.buckets[dst]? = some db) :
    Costs (mergeBucketsT c s dst src) (fun s' n => Slots c s' ∧ s'.count ≤ s.count ∧
      n ≤ db.es.length + sb.es.length + (s.buckets.length - 1) ∧
      ∃ db', s'.buckets = (s.buckets.set dst db').set src sb.clear ∧ db'.cap = db.cap ∧
        db'.es.length ≤ db.es.length + sb.es.length) := by
  refine .liftBind fun swap _ => .liftBind fun s₁ h1 => ?_
  have hst : Still s s₁ := by
    split at h1
    · exact swapKeys_still h1
    · cases h1; exact ⟨rfl, rfl, rfl⟩
  refine .liftBind fun fb h2 => ?_
  rw [hst.buckets] at h2
  cases hb.symm.trans h2
  refine .bind ((mergeToNonEmptyT_costs (hst.ok hs) (by rw [hst.buckets]; exact hd)).mono fun s₂ n _ h =>
    .liftBind fun fb h3 => .lift fun s' h4 => ?_)
  obtain ⟨k1, k2, k3, db', k4, k5, k6⟩ := h
  have hfb : fb = sb := by
    rw [k4, hst.buckets, List.getElem?_set_ne (Ne.symm hsd)] at h3
    exact Option.some.inj (h3.symm.trans hb)
  subst hfb
  have hst' := frontRemove_still h4
  have hs' : Slots c (s₂.setBucket src fb.clear) := fun ht => by
    show _ ≤ (s₂.buckets.set src fb.clear).length
    rw [List.length_set]; exact k1 ht
  refine ⟨hst'.ok hs', ?_, ?_, db', ?_, k5, k6⟩
  · rw [hst'.count]
    show s₂.count ≤ _
    rw [← hst.count]; exact k2
  · rw [hst.buckets] at k3; omega
  · rw [hst'.buckets, show (s₂.setBucket src fb.clear).buckets = s₂.buckets.set src fb.clear from rfl, k4, hst.buckets]

theorem mergeToEmptyT_costs {s : State E} {dst src : ℕ} {l : List E} {sb db : Bucket E} (hs : Slots c s)
    (hb : s.buckets[src]? = some sb) (hd : s.buckets[dst]? = some db) :
    Costs (mergeToEmptyT c s dst src l) (fun s' n => Slots c s' ∧ s'.count ≤ s.count ∧
      n ≤ l.length + sb.es.length + (s.buckets.length - 1) ∧
      ∃ db', s'.buckets = (s.buckets.set dst db').set src sb.clear ∧ db'.cap = db.cap ∧
        db'.es.length ≤ l.length + sb.es.length) := by
  refine .liftBind fun fb h0 => ?_
  cases hb.symm.trans h0
  refine .liftBind fun tb h0 => ?_
  cases hd.symm.trans h0
  refine .bind ((mergeTr_costs l _).mono fun r n _ h => .liftBind fun tb hf => .liftBind fun s₁ h1 => ?_)
  obtain ⟨k1, k2, -⟩ := fill_len hf
  have hst := swapKeys_still h1
  have hs' : Slots c { (s.setBucket dst tb).setBucket src sb.clear with count := s.count - r.2 } := fun ht => by
    show _ ≤ ((s.buckets.set dst tb).set src sb.clear).length
    rw [List.length_set, List.length_set]; exact hs ht
  refine (keyIncreasedTr_costs _ dst (hst.ok hs')).mono fun s' m _ h' => ?_
  obtain ⟨h2, h3⟩ := h'
  have e : s₁.buckets = (s.buckets.set dst tb).set src sb.clear := hst.buckets
  rw [e, List.length_set, List.length_set] at h3
  refine ⟨h2.ok (hst.ok hs'), ?_, by omega, tb, ?_, k2, by rw [k1]; exact h.2⟩
  · rw [h2.count, hst.count]; exact Nat.sub_le _ _
  · rw [h2.buckets, e]

theorem assignNewT_costs {s : State E} {i : ℕ} {l : List E} {b : Bucket E} (hs : Slots c s) (hb : s.buckets[i]? = some b)
    (hf : c.trackFront = true → s.front.fend < s.buckets.length) :
    Costs (assignNewT c s i l) (fun s' n => Slots c s' ∧ s'.count ≤ s.count ∧ n ≤ s.buckets.length - 1 ∧
      ∃ b', s'.buckets = s.buckets.set i b' ∧ b'.cap = b.cap ∧ b'.es.length ≤ l.length) := by
  refine .liftBind fun bb h0 => ?_
  cases hb.symm.trans h0
  refine .liftBind fun b' hfl => ?_
  obtain ⟨k1, k2, -⟩ := fill_len hfl
  have e : (s.setBucket i b').buckets.length = s.buckets.length := List.length_set
  refine (frontInsertTr_costs _ i (fun ht => ?_) (fun ht => ?_)).mono fun s' n _ h => ?_
  · rw [e]; exact hs ht
  · rw [e]; exact hf ht
  · rw [e] at h
    exact ⟨h.2.2.1, h.2.1.le, h.2.2.2, b', h.1, k2, by rw [k1]⟩

theorem mergeToTmpT_costs {s : State E} {i : ℕ} {l : List E} {b : Bucket E} (hs : Slots c s) (hb : s.buckets[i]? = some b) :
    Costs (mergeToTmpT c s i l) (fun r n => Slots c r.2 ∧ r.2.count ≤ s.count ∧ n ≤ l.length + b.es.length ∧
      r.2.buckets = s.buckets.set i b.clear ∧ r.1.length ≤ l.length + b.es.length) := by
  refine .liftBind fun bb h0 => ?_
  cases hb.symm.trans h0
  refine .bind ((mergeTr_costs l _).mono fun r n _ h => .ite (fun _ => .liftBind fun s' h1 => .lift fun r' hr => ?_)
    fun _ => .lift nofun)
  cases hr
  have hst := frontRemove_still h1
  have hs' : Slots c { s.setBucket i b.clear with count := s.count - r.2 } := fun ht => by
    show _ ≤ (s.buckets.set i b.clear).length
    rw [List.length_set]; exact hs ht
  exact ⟨hst.ok hs', by rw [hst.count]; exact Nat.sub_le _ _, by omega, hst.buckets, h.2⟩

end Verif.Geobucket
