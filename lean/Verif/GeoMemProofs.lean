import Verif.GeoMemSpec

/-!
# Helper lemmas: reading and writing the memory of a geobucket
-/

namespace Verif.GeoMem

open Geobucket (Conf Storage Front Place)

variable {E : Type}

/-! ## Writing a list -/

/-- The memory after the entries of `l` have been written from position `p` on. -/
def put (m : List E) : ℕ → List E → List E
  | _, [] => m
  | p, e :: l => put (m.set p e) (p + 1) l

@[simp] theorem put_nil (m : List E) (p : ℕ) : put m p [] = m := rfl

theorem put_cons (m : List E) (p : ℕ) (e : E) (l : List E) : put m p (e :: l) = put (m.set p e) (p + 1) l := rfl

@[simp] theorem put_length (l : List E) : ∀ (m : List E) (p : ℕ), (put m p l).length = m.length := by
  induction l with
  | nil => intro m p; rfl
  | cons e l ih => intro m p; rw [put_cons, ih, List.length_set]

theorem put_get (l : List E) : ∀ (m : List E) (p : ℕ), p + l.length ≤ m.length → ∀ i : ℕ,
    (put m p l)[i]? = if p ≤ i ∧ i < p + l.length then l[i - p]? else m[i]? := by
  induction l with
  | nil =>
    intro m p _ i
    rw [if_neg (by simp only [List.length_nil]; omega)]
    rfl
  | cons e l ih =>
    intro m p h i
    rw [List.length_cons] at h
    rw [put_cons, ih _ _ (by rw [List.length_set]; omega), List.length_cons]
    by_cases h1 : p + 1 ≤ i ∧ i < p + 1 + l.length
    · rw [if_pos h1, if_pos ⟨by omega, by omega⟩]
      obtain ⟨k, rfl⟩ : ∃ k, i = p + 1 + k := ⟨i - (p + 1), by omega⟩
      rw [show p + 1 + k - p = k + 1 by omega, List.getElem?_cons_succ]
      congr 1
      omega
    · rw [if_neg h1]
      by_cases h2 : i = p
      · subst h2
        rw [if_pos ⟨by omega, by omega⟩, List.getElem?_set_self (by omega)]
        simp
      · rw [if_neg (by omega), List.getElem?_set_ne (by omega)]

theorem slice_get (m : List E) (p n i : ℕ) : (slice m p n)[i]? = if i < n then m[p + i]? else none := by
  rw [slice, List.getElem?_take]
  split
  · rw [List.getElem?_drop]
  · rfl

theorem slice_length {m : List E} {p n : ℕ} (h : p + n ≤ m.length) : (slice m p n).length = n := by
  rw [slice, List.length_take, List.length_drop]
  omega

theorem slice_zero (m : List E) (p : ℕ) : slice m p 0 = [] := by
  rw [slice, List.take_zero]

/-- Writing elsewhere does not change what is in a range. -/
theorem slice_put_ne {m : List E} {p q n : ℕ} {l : List E} (hp : p + l.length ≤ m.length)
    (h : ∀ i, q ≤ i → i < q + n → i < p ∨ p + l.length ≤ i) : slice (put m p l) q n = slice m q n := by
  apply List.ext_getElem?
  intro i
  rw [slice_get, slice_get]
  split
  · rw [put_get l m p hp, if_neg]
    intro h2
    have := h (q + i) (by omega) (by omega)
    omega
  · rfl

theorem slice_put_self {m : List E} {p : ℕ} {l : List E} (hp : p + l.length ≤ m.length) :
    slice (put m p l) p l.length = l := by
  apply List.ext_getElem?
  intro i
  rw [slice_get]
  split
  · rename_i h
    rw [put_get l m p hp, if_pos ⟨by omega, by omega⟩]
    congr 1
    omega
  · rename_i h
    rw [List.getElem?_eq_none (by omega)]

theorem slice_succ {m : List E} {p n : ℕ} {x : E} {l : List E} (h : slice m p (n + 1) = x :: l) :
    m[p]? = some x ∧ slice m (p + 1) n = l := by
  constructor
  · have := slice_get m p (n + 1) 0
    rw [h, if_pos (by omega)] at this
    simpa using this.symm
  · have : slice m (p + 1) n = (slice m p (n + 1)).tail := by
      rw [slice, slice, ← List.drop_one, List.drop_take, List.drop_drop]
      rfl
    rw [this, h]
    rfl

theorem slice_last {m : List E} {p n : ℕ} (h : p + n ≤ m.length) (hn : 0 < n) :
    (slice m p n).getLast? = m[p + n - 1]? := by
  rw [List.getLast?_eq_getElem?, slice_length h, slice_get, if_pos (by omega)]
  congr 1
  omega

theorem wr_eq {m : List E} {p : ℕ} {e : E} (h : p < m.length) : wr m p e = some (put m p [e]) := by
  rw [wr, if_pos h]
  rfl

theorem wr_eq' {m : List E} {p : ℕ} {e : E} (h : p < m.length) : wr m p e = some (m.set p e) := if_pos h

/-! ## Ranges -/

/-- The entries in a range. -/
def Src.content (m : List E) : Src E → List E
  | .ext l => l
  | .mem p n => slice m p n

/-- The range lies in the memory. -/
def Src.In (m : List E) : Src E → Prop
  | .ext _ => True
  | .mem p n => p + n ≤ m.length

/-- No position of the range is from `lo` to before `hi`. -/
def Src.Clear : Src E → ℕ → ℕ → Prop
  | .ext _, _, _ => True
  | .mem p n, lo, hi => ∀ i, p ≤ i → i < p + n → i < lo ∨ hi ≤ i

theorem Src.Clear.mono {a : Src E} {lo hi lo' hi' : ℕ} (h : a.Clear lo hi) (h1 : lo ≤ lo') (h2 : hi' ≤ hi) :
    a.Clear lo' hi' := by
  cases a with
  | ext l => trivial
  | mem p n =>
    intro i h3 h4
    have := h i h3 h4
    omega

theorem Src.Clear.tail {a : Src E} {lo hi : ℕ} (h : a.Clear lo hi) (hl : 0 < a.len) : a.tail.Clear lo hi := by
  cases a with
  | ext l => trivial
  | mem p n =>
    intro i h3 h4
    have hl : 0 < n := hl
    exact h i (by omega) (by omega)

theorem Src.In.of_length {m m' : List E} {a : Src E} (h : a.In m) (hm : m'.length = m.length) : a.In m' := by
  cases a with
  | ext l => trivial
  | mem p n =>
    show p + n ≤ m'.length
    rw [hm]
    exact h

theorem Src.content_length {m : List E} {a : Src E} (h : a.In m) : (a.content m).length = a.len := by
  cases a with
  | ext l => rfl
  | mem p n => exact slice_length h

theorem Src.content_put {m : List E} {a : Src E} {p : ℕ} {l : List E} (hp : p + l.length ≤ m.length)
    (h : a.Clear p (p + l.length)) : a.content (put m p l) = a.content m := by
  cases a with
  | ext l => rfl
  | mem q n => exact slice_put_ne hp h

theorem Src.next {m : List E} {a : Src E} {x : E} {l : List E} (h : a.In m) (hc : a.content m = x :: l) :
    a.head m = some x ∧ a.tail.In m ∧ a.tail.content m = l ∧ a.tail.len + 1 = a.len ∧ 0 < a.len := by
  cases a with
  | ext k =>
    have hc : k = x :: l := hc
    subst hc
    exact ⟨rfl, trivial, rfl, rfl, Nat.succ_pos _⟩
  | mem p n =>
    cases n with
    | zero =>
      have hc : slice m p 0 = x :: l := hc
      rw [slice_zero] at hc
      cases hc
    | succ n =>
      obtain ⟨h1, h2⟩ := slice_succ hc
      refine ⟨?_, ?_, h2, rfl, Nat.succ_pos _⟩
      · rw [Src.head, if_neg (Nat.succ_ne_zero _)]
        exact h1
      · have h : p + (n + 1) ≤ m.length := h
        show p + 1 + (n + 1 - 1) ≤ m.length
        omega

theorem Src.last_eq {m : List E} {a : Src E} (h : a.In m) : a.last m = (a.content m).getLast? := by
  cases a with
  | ext k => rfl
  | mem p n =>
    show (if n = 0 then none else m[p + n - 1]?) = (slice m p n).getLast?
    split
    · rename_i h0
      rw [h0, slice_zero]
      rfl
    · rw [slice_last h (by omega)]

theorem copyLoop_eq (l : List E) : ∀ (m : List E) (a : Src E) (res : ℕ), a.In m → a.content m = l →
    a.Clear res (res + l.length) → res + l.length ≤ m.length →
    copyLoop l.length m a res = some (put m res l, res + l.length) := by
  induction l with
  | nil => intro m a res _ _ _ _; rfl
  | cons x l ih =>
    intro m a res hin hcon hcl hlen
    obtain ⟨h1, h2, h3, h4, h5⟩ := Src.next hin hcon
    rw [List.length_cons] at hlen hcl
    rw [List.length_cons, copyLoop, h1, Option.bind_eq_bind, Option.bind_some, wr_eq (by omega), Option.bind_eq_bind,
      Option.bind_some]
    have hp : res + [x].length ≤ m.length := by simp only [List.length_singleton]; omega
    have hct : a.tail.Clear res (res + (l.length + 1)) := hcl.tail h5
    rw [ih (put m res [x]) a.tail (res + 1) (h2.of_length (put_length _ _ _))
      ((Src.content_put hp (hct.mono le_rfl (by simp only [List.length_singleton]; omega))).trans h3)
      (hct.mono (by omega) (by omega)) (by rw [put_length]; omega)]
    rw [put_cons m res x l]
    congr 2
    omega

theorem copy_eq {m : List E} {a : Src E} {res : ℕ} (hin : a.In m)
    (hcl : a.Clear res (res + a.len)) (hlen : res + a.len ≤ m.length) :
    copy m a res = some (put m res (a.content m), res + a.len) := by
  have h := Src.content_length hin
  rw [copy, ← h]
  rw [← h] at hcl hlen
  exact copyLoop_eq _ m a res hin rfl hcl hlen

variable {c : Conf E}

theorem mergeLoop_eq : ∀ (n : ℕ) (m : List E) (a b : Src E) (res : ℕ) (l₁ l₂ r : List E) (k : ℕ),
    a.len + b.len < n → a.In m → b.In m → a.content m = l₁ → b.content m = l₂ →
    Geobucket.merge c l₁ l₂ = (r, k) →
    a.Clear res (res + r.length) → b.Clear res (res + r.length) → res + r.length ≤ m.length →
    mergeLoop c n m a b res = some (put m res r, res + r.length, k) := by
  intro n
  induction n with
  | zero => intro m a b res l₁ l₂ r k h; omega
  | succ n ih =>
    intro m a b res l₁ l₂ r k hn ha hb e1 e2 hm hca hcb hlen
    have hla := Src.content_length ha
    have hlb := Src.content_length hb
    rw [e1] at hla
    rw [e2] at hlb
    rw [mergeLoop]
    cases l₁ with
    | nil =>
      rw [Geobucket.merge] at hm
      cases hm
      rw [if_pos (show a.len = 0 from hla.symm), copy_eq hb (by rwa [← hlb]) (by rwa [← hlb]), e2, ← hlb]
      rfl
    | cons x l₁ =>
      rw [if_neg (by rw [← hla]; simp)]
      cases l₂ with
      | nil =>
        rw [Geobucket.merge] at hm
        cases hm
        rw [if_pos (show b.len = 0 from hlb.symm), copy_eq ha (by rwa [← hla]) (by rwa [← hla]), e1, ← hla]
        rfl
      | cons y l₂ =>
        rw [if_neg (by rw [← hlb]; simp)]
        obtain ⟨h1, h2, h3, h4, h5⟩ := Src.next ha e1
        obtain ⟨g1, g2, g3, g4, g5⟩ := Src.next hb e2
        rw [Geobucket.merge] at hm
        rw [h1, g1, Option.bind_eq_bind, Option.bind_some, Option.bind_eq_bind, Option.bind_some]
        have step : ∀ (z : E) (a' b' : Src E) (l₁' l₂' r' : List E) (k' : ℕ), r = z :: r' →
            a'.len + b'.len < n → a'.In m → b'.In m → a'.content m = l₁' → b'.content m = l₂' →
            Geobucket.merge c l₁' l₂' = (r', k') →
            a'.Clear res (res + r.length) → b'.Clear res (res + r.length) →
            (wr m res z).bind (fun m => mergeLoop c n m a' b' (res + 1)) =
              some (put m res r, res + r.length, k') := by
          intro z a' b' l₁' l₂' r' k' er hn' ha' hb' e1' e2' hm' hca' hcb'
          subst er
          rw [List.length_cons] at hlen hca' hcb'
          have hp : res + [z].length ≤ m.length := by simp only [List.length_singleton]; omega
          rw [wr_eq (by omega), Option.bind_some]
          rw [ih (put m res [z]) a' b' (res + 1) l₁' l₂' r' k' hn' (ha'.of_length (put_length _ _ _))
            (hb'.of_length (put_length _ _ _))
            ((Src.content_put hp (hca'.mono le_rfl (by simp only [List.length_singleton]; omega))).trans e1')
            ((Src.content_put hp (hcb'.mono le_rfl (by simp only [List.length_singleton]; omega))).trans e2')
            hm' (hca'.mono (by omega) (by omega)) (hcb'.mono (by omega) (by omega))
            (by rw [put_length]; omega)]
          rw [put_cons m res z r', List.length_cons]
          congr 3
          omega
        split
        · rename_i hlt
          rw [if_pos hlt] at hm
          cases hm
          exact step x a.tail b l₁ (y :: l₂) _ _ rfl (by omega) h2 hb h3 e2 rfl (hca.tail h5) hcb
        · rename_i hlt
          rw [if_neg hlt] at hm
          split
          · rename_i hd
            rw [if_pos hd] at hm
            cases hm
            exact step y a b.tail (x :: l₁) l₂ _ _ rfl (by omega) ha g2 e1 g3 rfl hca (hcb.tail g5)
          · rename_i hd
            rw [if_neg hd] at hm
            cases hm
            have := step (c.dedup x y) a.tail b.tail l₁ l₂ _ _ rfl (by omega) h2 g2 h3 g3 rfl (hca.tail h5) (hcb.tail g5)
            rw [Option.bind_eq_some_iff] at this
            obtain ⟨m', k1, k2⟩ := this
            rw [k1, Option.bind_eq_bind, Option.bind_some, k2]
            rfl

theorem merge_eq {m : List E} {a b : Src E} {res : ℕ} {l₁ l₂ : List E} (ha : a.In m) (hb : b.In m)
    (e1 : a.content m = l₁) (e2 : b.content m = l₂)
    (hca : a.Clear res (res + (Geobucket.merge c l₁ l₂).1.length))
    (hcb : b.Clear res (res + (Geobucket.merge c l₁ l₂).1.length))
    (hlen : res + (Geobucket.merge c l₁ l₂).1.length ≤ m.length) :
    merge c m a b res = some (put m res (Geobucket.merge c l₁ l₂).1,
      res + (Geobucket.merge c l₁ l₂).1.length, (Geobucket.merge c l₁ l₂).2) :=
  mergeLoop_eq _ m a b res l₁ l₂ _ _ (by omega) ha hb e1 e2 rfl hca hcb hlen

/-- The loop of `insertAtNotEnd`. -/
theorem shiftLoop_eq : ∀ (n it : ℕ) (m : List E), n ≤ it → it < m.length →
    ∃ m', shiftLoop n it m = some m' ∧ m'.length = m.length ∧
      ∀ j : ℕ, m'[j]? = if it - n < j ∧ j ≤ it then m[j - 1]? else m[j]? := by
  intro n
  induction n with
  | zero =>
    intro it m _ _
    refine ⟨m, rfl, rfl, fun j => ?_⟩
    rw [if_neg (by omega)]
  | succ n ih =>
    intro it m h1 h2
    have hx : m[it - 1]? = some (m[it - 1]'(by omega)) := List.getElem?_eq_getElem (by omega)
    rw [shiftLoop, hx, Option.bind_eq_bind, Option.bind_some, wr_eq' h2, Option.bind_eq_bind, Option.bind_some]
    by_cases hn : n = 0
    · subst hn
      refine ⟨_, rfl, List.length_set, fun j => ?_⟩
      by_cases hj : it = j
      · subst hj
        rw [List.getElem?_set_self h2, if_pos ⟨by omega, le_rfl⟩, hx]
      · rw [List.getElem?_set_ne hj, if_neg (by omega)]
    · obtain ⟨m', e1, e2, e3⟩ := ih (it - 1) (m.set it (m[it - 1]'(by omega))) (by omega)
        (by rw [List.length_set]; omega)
      refine ⟨m', e1, e2.trans List.length_set, fun j => ?_⟩
      rw [e3]
      by_cases hj : it = j
      · subst hj
        rw [if_neg (by omega), if_pos ⟨by omega, le_rfl⟩, List.getElem?_set_self h2, hx]
      · by_cases h3 : it - 1 - n < j ∧ j ≤ it - 1
        · rw [if_pos h3, if_pos ⟨by omega, by omega⟩, List.getElem?_set_ne (by omega)]
        · rw [if_neg h3, if_neg (by omega), List.getElem?_set_ne hj]

end Verif.GeoMem
