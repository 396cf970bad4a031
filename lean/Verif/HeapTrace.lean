import Verif.Heap

/-!
# The comparisons of `mathic::Heap` (src/mathic/Heap.h)

The functions of `Verif.Heap` once more, with the pairs of entries given to `_conf.compare` in the order of the calls.
The two questions `cmpLessThan` and `cmpEqual` are asked about one call of `compare`.
-/

namespace Verif.Heap

variable {E : Type*}

/-- `Heap::moveHoleDown` (src/mathic/Heap.h:140-159). -/
def moveHoleDownT (c : PQConf E) (t : List E) (hole : ℕ) : Option (List E × ℕ) × List (E × E) :=
  if _h0 : hole = 0 then (none, []) else
  if _hlt : hole < (t.length + 1) / 2 then
    match rd t (2 * hole), rd t (2 * hole + 1) with
    | some a, some b =>
      let child := if c.lt a b then 2 * hole + 1 else 2 * hole
      match rd t child with
      | none => (none, [(a, b)])
      | some v =>
        match hw : wr t hole v with
        | none => (none, [(a, b)])
        | some t' =>
          let r := moveHoleDownT c t' child
          (r.1, (a, b) :: r.2)
    | _, _ => (none, [])
  else if hole = (t.length + 1) / 2 ∧ t.length % 2 = 0 then
    match rd t (2 * hole) with
    | none => (none, [])
    | some v =>
      match wr t hole v with
      | none => (none, [])
      | some t' => (some (t', 2 * hole), [])
  else (some (t, hole), [])
termination_by t.length - hole
decreasing_by
  have := wr_length hw
  split <;> omega

/-- The `while` loop of `Heap::moveValueUp` up to the deduplication (src/mathic/Heap.h:165-171, 187-188). -/
def climbT (c : PQConf E) (t : List E) (pos : ℕ) (value : E) : Option (Climb E) × List (E × E) :=
  if _h0 : pos = 0 then (none, []) else
  if _h1 : pos = 1 then (some (.place t pos), []) else
  match rd t (pos / 2) with
  | none => (none, [])
  | some u =>
    if c.lt u value then
      match wr t pos u with
      | none => (none, [(u, value)])
      | some t' =>
        let r := climbT c t' (pos / 2) value
        (r.1, (u, value) :: r.2)
    else if c.supportDedup && c.eq u value then (some (.dup t pos), [(u, value)])
    else (some (.place t pos), [(u, value)])
termination_by pos
decreasing_by omega

theorem climbT_fst (c : PQConf E) (t : List E) (pos : ℕ) (value : E) :
    (climbT c t pos value).1 = climb c t pos value := by
  fun_induction climbT c t pos value with
  | case1 => rw [climb]; simp
  | case2 t h0 => rw [climb]; simp
  | case3 t pos h0 h1 h => rw [climb]; simp [h0, h1, h]
  | case4 t pos h0 h1 u hu hlt hw => rw [climb]; simp [h0, h1, hu, hlt, hw]
  | case5 t pos h0 h1 u hu hlt t' hw r ih => rw [climb]; simp [h0, h1, hu, hlt, hw, ih, r]
  | case6 t pos h0 h1 u hu hlt hd => rw [climb]; simp [h0, h1, hu, hlt, hd]
  | case7 t pos h0 h1 u hu hlt hd => rw [climb]; simp [h0, h1, hu, hlt, hd]

/-- `Heap::moveValueUp` (src/mathic/Heap.h:161-192). -/
def moveValueUpT (c : PQConf E) (t : List E) (origPos : ℕ) (value : E) : Option (List E) × List (E × E) :=
  match hc : climbT c t origPos value with
  | (none, l) => (none, l)
  | (some (.place t' pos), l) => (wr t' pos value, l)
  | (some (.dup t' pos), l) =>
    match hm : mergeUp c t' origPos pos value with
    | none => (none, l)
    | some (t₁, last) =>
      if origPos = t₁.length + 1 then (some t₁, l)
      else
        let r := moveValueUpT c t₁ origPos last
        (r.1, l ++ r.2)
termination_by t.length
decreasing_by
  have h1 := mergeUp_length hm
  have h2 := (climb_length ((climbT_fst c t origPos value).symm.trans (congrArg Prod.fst hc))).2 _ _ rfl
  omega

/-- `Heap::push` (src/mathic/Heap.h:97-102). -/
def pushT (c : PQConf E) (t : List E) (e : E) : Option (List E) × List (E × E) :=
  moveValueUpT c (t ++ [e]) (t.length + 1) e

/-- `Heap::push(It, It)` (src/mathic/Heap.h:104-109). -/
def pushRangeT (c : PQConf E) (t : List E) : List E → Option (List E) × List (E × E)
  | [] => (some t, [])
  | e :: es =>
    match pushT c t e with
    | (none, l) => (none, l)
    | (some t', l) =>
      let r := pushRangeT c t' es
      (r.1, l ++ r.2)

/-- `Heap::decreaseTop` (src/mathic/Heap.h:111-115). -/
def decreaseTopT (c : PQConf E) (t : List E) (e : E) : Option (List E) × List (E × E) :=
  match moveHoleDownT c t 1 with
  | (none, l) => (none, l)
  | (some (t', hole), l) =>
    let r := moveValueUpT c t' hole e
    (r.1, l ++ r.2)

/-- `Heap::pop` (src/mathic/Heap.h:124-133). -/
def popT (c : PQConf E) (t : List E) : Option (E × List E) × List (E × E) :=
  match rd t 1, rd t t.length with
  | some top, some moved =>
    let t₁ := t.dropLast
    if t₁.isEmpty then (some (top, t₁), [])
    else
      match moveHoleDownT c t₁ 1 with
      | (none, l) => (none, l)
      | (some (t₂, hole), l) =>
        let r := moveValueUpT c t₂ hole moved
        (r.1.map (top, ·), l ++ r.2)
  | _, _ => (none, [])

/-- The pairs that a call compares; `top` and `clear` compare nothing. -/
def compared (c : PQConf E) (t : List E) : PQOp E → List (E × E)
  | .push e => (pushT c t e).2
  | .pushRange l => (pushRangeT c t l).2
  | .top => []
  | .pop => (popT c t).2
  | .decreaseTop e => (decreaseTopT c t e).2
  | .clear => []

end Verif.Heap
