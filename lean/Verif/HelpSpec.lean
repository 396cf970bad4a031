import Verif.Help
import Verif.CliSpec
import Verif.DisplaySpec
import Verif.ColumnPrinterSpec

/-!
# What the help texts are
-/

namespace Verif.Help

open Verif.NameFactory Verif.Cli Verif.Text
open Verif.Display (Shows cut Plain)

variable {Q A : Type}

/-- The longest of some strings. -/
def widest (l : List Str) : ℕ := (l.map List.length).foldr max 0

/-- The list of actions: the names flush right, the summaries flush left beside them. `l` has a name and a
summary for each action. -/
def tableText (l : List (Str × Str)) : Str :=
  l.flatMap fun a =>
    ' ' :: List.replicate (widest (l.map Prod.fst) - a.1.length) ' ' ++ a.1 ++ [' ', '-', ' '] ++
      a.2 ++ List.replicate (widest (l.map Prod.snd) - a.2.length) ' ' ++ ['\n']

/-- The text of `help`. -/
def listText (pre post : Str) (l : List (Str × Str)) : Str := pre ++ '\n' :: tableText l ++ '\n' :: post ++ ['\n']

/-- `l` has all names of registered actions in order, with their actions. -/
structure Lists (f : Factory (Action Q A)) (l : List (Str × Action Q A)) : Prop where
  order : Increasing (l.map Prod.fst)
  nodup : (l.map Prod.fst).Nodup
  all : ∀ n a, (n, a) ∈ l ↔ Registered f n (some a)

/-- A text without the characters that mean something to the printer. -/
def OneLine (s : Str) : Prop := '\n' ∉ s ∧ nul ∉ s

/-- What is printed for a parameter: a line of its own, then the description, indented by three. -/
inductive ShowsParams (T : Texts Q A) : List Q → Str → Prop
  | nil : ShowsParams T [] []
  | cons (q : Q) (rest : List Q) (descr out : Str) : Shows cut [' ', ' ', ' '] (T.paramDescription q) descr →
      ShowsParams T rest out →
      ShowsParams T (q :: rest) ("\n -".toList ++ cut (T.paramName q) ++ " ".toList ++ cut (T.argumentType q) ++
          "   (default is ".toList ++ cut (T.valueAsString q) ++ ")\n".toList ++ descr ++ out)

/-- The parameters in order. -/
def Sorted (T : Texts Q A) (params sorted : List Q) : Prop :=
  sorted.Perm params ∧ Increasing (sorted.map T.paramName)

/-- What is printed for `help` with a topic. -/
def ShowsAction (T : Texts Q A) (a : Action Q A) (out : Str) : Prop :=
  ∃ head tail sorted, Shows cut [] ("Displaying information on action: ".toList ++ T.actionName a ++ "\n\n".toList ++
      T.description a ++ "\n".toList) head ∧
    Sorted T a.params sorted ∧ ShowsParams T sorted tail ∧
    out = head ++ if sorted = [] then [] else
      "\nThe parameters accepted by ".toList ++ T.actionName a ++ " are as follows.\n".toList ++ tail

/-- Texts that `isspace` is defined for. -/
structure PlainAction (T : Texts Q A) (a : Action Q A) : Prop where
  name : Plain (T.actionName a)
  description : Plain (T.description a)
  params : ∀ q ∈ a.params, Plain (T.paramDescription q)

end Verif.Help
