import Verif.Names
import Verif.TextProofs

/-! # Lemmas on names -/

namespace Verif.Name

open Verif.Text (decimal decimal_inj decimal_digits decimal_ne_nil)

/-- The text does not go on with a character of the kind `p`. -/
def Ends (p : Char → Bool) (l : List Char) : Prop := ∀ c ∈ l.head?, p c = false

theorem span_eq {p : Char → Bool} : ∀ {a b r s : List Char}, (∀ c ∈ a, p c = true) → (∀ c ∈ b, p c = true) →
    Ends p r → Ends p s → a ++ r = b ++ s → a = b ∧ r = s
  | [], [], _, _, _, _, _, _, h => ⟨rfl, h⟩
  | [], y :: b, r, s, _, hb, hr, _, h => by
    rw [List.nil_append] at h
    subst h
    have h1 := hr y (by simp)
    rw [hb y (by simp)] at h1
    exact absurd h1 (by decide)
  | x :: a, [], r, s, ha, _, _, hs, h => by
    rw [List.nil_append] at h
    subst h
    have h1 := hs x (by simp)
    rw [ha x (by simp)] at h1
    exact absurd h1 (by decide)
  | x :: a, y :: b, r, s, ha, hb, hr, hs, h => by
    rw [List.cons_append, List.cons_append, List.cons.injEq] at h
    obtain ⟨h1, h2⟩ := span_eq (fun c hc => ha c (List.mem_cons_of_mem _ hc)) (fun c hc => hb c (List.mem_cons_of_mem _ hc))
      hr hs h.2
    exact ⟨by rw [h.1, h1], h2⟩

theorem decimal_append {m n : ℕ} {r s : List Char} (hr : Ends Char.isDigit r) (hs : Ends Char.isDigit s)
    (h : decimal m ++ r = decimal n ++ s) : m = n ∧ r = s := by
  obtain ⟨h1, h2⟩ := span_eq (decimal_digits m) (decimal_digits n) hr hs h
  exact ⟨decimal_inj h1, h2⟩

theorem ends_cons {p : Char → Bool} {c : Char} {l : List Char} (h : p c = false) : Ends p (c :: l) := by
  intro d hd
  simp only [List.head?_cons, Option.mem_def, Option.some.injEq] at hd
  rw [← hd, h]

theorem geoFlags_ends (a b c d e : Bool) (s : Geobucket.Storage) : Ends Char.isDigit (geoFlags a b c d e s) := by
  unfold Ends
  cases s <;> revert a b c d e <;> decide +kernel

/-- The flags as numbers, to go through all of them. -/
def storages : List Geobucket.Storage := [.plain, .doubleBuffer, .sameSize]

theorem mem_storages (s : Geobucket.Storage) : s ∈ storages := by cases s <;> decide

set_option maxRecDepth 10000 in
theorem geoFlags_all : ∀ s ∈ storages, ∀ s' ∈ storages, ∀ a b c d e a' b' c' d' e', geoFlags a b c d e s = geoFlags a' b' c' d' e' s' →
    a = a' ∧ b = b' ∧ c = c' ∧ d = d' ∧ e = e' ∧ s = s' := by
  decide +kernel

theorem listFlags_inj : ∀ s m s' m', listFlags s m = listFlags s' m' → s = s' ∧ m = m' := by
  decide +kernel

set_option maxRecDepth 10000 in
theorem treeFlags_inj : ∀ m t s k r m' t' s' k' r', (t = true → m = true) → (t' = true → m' = true) → treeFlags m t s k r = treeFlags m' t' s' k' r' →
    m = m' ∧ t = t' ∧ s = s' ∧ k = k' ∧ r = r' := by
  decide +kernel

theorem listFlags_ends (s m : Bool) : Ends Char.isDigit (listFlags s m) := by
  unfold Ends; revert s m; decide +kernel

theorem treeFlags_ends (m t s k r : Bool) : Ends Char.isDigit (treeFlags m t s k r) := by
  unfold Ends; revert m t s k r; decide +kernel

theorem listFlags_second (s m : Bool) : (listFlags s m)[1]? ≠ some 'a' := by revert s m; decide +kernel

theorem treeFlags_second (m t s k r : Bool) : (treeFlags m t s k r)[1]? ≠ some 'a' := by
  revert m t s k r; decide +kernel

theorem autob_ends {x : Bool} {r : List Char} {n : ℕ} {l : List Char} (hl : Ends Char.isDigit l) :
    Ends Char.isDigit (autob x r n ++ l) := by
  cases x
  · exact hl
  · exact ends_cons (c := ' ') (by decide)

/-- Automatic rebuilds and what comes after them can be told from the text. -/
theorem autob_append {x y : Bool} {r r' : List Char} {n n' : ℕ} {l l' : List Char} (hr : '/' ∉ r) (hr' : '/' ∉ r')
    (hl : Ends Char.isDigit l) (hl' : Ends Char.isDigit l') (h1 : l[1]? ≠ some 'a') (h1' : l'[1]? ≠ some 'a')
    (h : autob x r n ++ l = autob y r' n' ++ l') : x = y ∧ (x = true → r = r' ∧ n = n') ∧ l = l' := by
  have e1 : ∀ (r : List Char) (n : ℕ) l, autob true r n ++ l = ' ' :: 'a' :: 'u' :: 't' :: 'o' :: 'b' :: ':' :: (r ++ '/' :: (decimal n ++ l)) := by
    intro r n l
    show (" autob:".toList ++ r ++ ['/'] ++ decimal n) ++ l = _
    have : " autob:".toList = [' ', 'a', 'u', 't', 'o', 'b', ':'] := rfl
    rw [this]
    simp
  cases x <;> cases y
  · exact ⟨rfl, nofun, h⟩
  · rw [e1] at h
    exact absurd (by rw [show l = autob false r n ++ l from rfl, h]; rfl) h1
  · rw [e1] at h
    exact absurd (by rw [show l' = autob false r' n' ++ l' from rfl, ← h]; rfl) h1'
  · rw [e1, e1] at h
    simp only [List.cons.injEq, true_and] at h
    obtain ⟨h2, h3⟩ := span_eq (p := fun c => c != '/') (by intro c hc; simp; rintro rfl; exact hr hc)
      (by intro c hc; simp; rintro rfl; exact hr' hc) (ends_cons (by decide)) (ends_cons (by decide)) h
    rw [List.cons.injEq] at h3
    obtain ⟨h4, h5⟩ := decimal_append hl hl' h3.2
    exact ⟨rfl, fun _ => ⟨h2, h4⟩, h5⟩

theorem append_fixed {a b r s : List Char} (hl : a.length = b.length) (h : a ++ r = b ++ s) : a = b ∧ r = s :=
  List.append_inj h hl

theorem getLast_model (q : List Char) (hq : q.getLast? ≠ some 'p') (d : Bool) :
    ∃ x, (q ++ opt d " dectop".toList).getLast? = x ∧ (x = some 'p' ↔ d = true) := by
  refine ⟨_, rfl, ?_⟩
  cases d
  · simpa [opt] using hq
  · have : " dectop".toList = [' ', 'd', 'e', 'c', 't', 'o', 'p'] := rfl
    simp [opt, this]

/-- The two ends of the names of models differ in the last but `k`th character. -/
theorem ends_inj {a b : List Char} {x y : Bool} {u v : List Char} (k : ℕ) (hu : k < u.length) (hv : k < v.length)
    (hne : u.reverse[k]? ≠ v.reverse[k]?) (h : a ++ (if x then u else v) = b ++ (if y then u else v)) : x = y ∧ a = b := by
  have e : ∀ (a u : List Char), k < u.length → (a ++ u).reverse[k]? = u.reverse[k]? := by
    intro a u hu
    rw [List.reverse_append, List.getElem?_append_left (by rwa [List.length_reverse])]
  have h' := congrArg (fun l => l.reverse[k]?) h
  cases x <;> cases y
  · exact ⟨rfl, List.append_cancel_right h⟩
  · simp only [Bool.false_eq_true, if_false, if_true] at h'
    rw [e _ _ hv, e _ _ hu] at h'
    exact absurd h'.symm hne
  · simp only [Bool.false_eq_true, if_false, if_true] at h'
    rw [e _ _ hv, e _ _ hu] at h'
    exact absurd h' hne
  · exact ⟨rfl, List.append_cancel_right h⟩

end Verif.Name
