import Verif.Cli
import Verif.NameFactorySpec
import Verif.TextSpec

/-!
# What a command line means
-/

namespace Verif.Cli

open Verif.NameFactory

variable {Q A : Type}

/-- Options start with a dash. -/
def IsOption (t : Str) : Prop := ∃ rest, t = '-' :: rest

/-- The tokens of an option `p` without or with an argument. -/
def spell (g : Str × Option Str) : List Str := ('-' :: g.1) :: g.2.toList

/-- How tokens are read: empty ones do not count. First come direct options, then options with at
most one argument each, and then, if one argument was not enough, what is left over. -/
structure Layout (tokens direct : List Str) (groups : List (Str × Option Str)) (rest : List Str) : Prop where
  all : tokens.filter (fun t => t ≠ []) = direct ++ groups.flatMap spell ++ rest
  direct : ∀ t ∈ direct, ¬ IsOption t
  args : ∀ g ∈ groups, ∀ a, g.2 = some a → ¬ IsOption a
  rest : rest = [] ∨ (∃ t r, rest = t :: r ∧ ¬ IsOption t) ∧ ∃ g a, groups.getLast? = some g ∧ g.2 = some a

/-- The names of parameters do not change. -/
structure Iface.Lawful (I : Iface Q A) : Prop where
  process : ∀ q a, I.name (I.process q a).1 = I.name q
  direct : ∀ ts x, (I.direct ts x).1.params.map I.name = x.params.map I.name

/-- The options are processed from left to right, each by the parameter that its name stands for, with its
argument or with the empty string. -/
inductive Runs (I : Iface Q A) : List Q → List (Str × Option Str) → List Q → Prop
  | nil (ps : List Q) : Runs I ps [] ps
  | cons (u v : List Q) (q q' : Q) (p : Str) (a : Option Str) (gs : List (Str × Option Str)) (r : List Q) :
      StandsFor ((u ++ q :: v).map I.name) p (I.name q) → I.process q (a.getD []) = (q', none) →
      Runs I (u ++ q' :: v) gs r → Runs I (u ++ q :: v) ((p, a) :: gs) r

/-- The option cannot be processed: there is no such parameter, there are two, or the parameter
does not accept the argument. -/
def Bad (I : Iface Q A) (ps : List Q) (g : Str × Option Str) (e : Err) : Prop :=
  (NoName (ps.map I.name) g.1 ∧ ∃ msg, e = .unknownName msg) ∨
  (TwoNames (ps.map I.name) g.1 ∧ ∃ msg, e = .ambiguousName msg) ∨
  ∃ u v q q', ps = u ++ q :: v ∧ StandsFor (ps.map I.name) g.1 (I.name q) ∧
    I.process q (g.2.getD []) = (q', some e)

/-- The options end in an error: one cannot be processed, after those before it, or there is
something left over. -/
def Fails (I : Iface Q A) (ps : List Q) (groups : List (Str × Option Str)) (rest : List Str) (e : Err) : Prop :=
  (∃ g1 g g2 ps', groups = g1 ++ g :: g2 ∧ Runs I ps g1 ps' ∧ Bad I ps' g e) ∨
  (rest ≠ [] ∧ ∃ ps', Runs I ps groups ps' ∧ ∃ msg, e = .error msg)

end Verif.Cli
