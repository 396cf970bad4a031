import Verif.Cli
import Verif.ColumnPrinter
import Verif.Display

/-!
# Model of `mathic::HelpAction`

/repo/src/mathic/HelpAction.cpp. There is one parser; `_parser` is a flag that says whether the pointer
to it has been set. What is printed to `stderr` is the result.
-/

namespace Verif.Help

open Verif.NameFactory Verif.Cli

variable {Q A : Type}

/-- The virtual functions of actions and parameters that give texts, /repo/src/mathic/Action.h:28-34 and
/repo/src/mathic/CliParameter.h:12-17. Those of actions are C strings: the list holds the characters up to
the NUL. -/
structure Texts (Q A : Type) where
  actionName : Action Q A → Str
  description : Action Q A → Str
  shortDescription : Action Q A → Str
  paramName : Q → Str
  argumentType : Q → Str
  valueAsString : Q → Str
  paramDescription : Q → Str

/-- `CliParser`, /repo/src/mathic/CliParser.h:34-36. -/
structure Parser (Q A : Type) where
  actions : Factory (Action Q A)
  helpPreMessage : Str
  helpPostMessage : Str

/-- The constructor of `CliParser`, /repo/src/mathic/CliParser.cpp:29. -/
def Parser.init : Parser Q A := ⟨NameFactory.init "action".toList, [], []⟩

/-- `registerAction`, /repo/src/mathic/CliParser.h:39-47. -/
def Parser.registerAction (p : Parser Q A) (name : Str) (action : Action Q A) : Parser Q A :=
  { p with actions := registerProduct p.actions name (some action) }

/-- `pushBackRegisteredActionNames`, /repo/src/mathic/CliParser.cpp:22-26. -/
def Parser.pushBackRegisteredActionNames (p : Parser Q A) (names : List Str) : List Str :=
  namesWithPrefix p.actions [] names

/-- `createActionWithPrefix`, /repo/src/mathic/CliParser.cpp:31-35. -/
def Parser.createActionWithPrefix (p : Parser Q A) (pre : Str) : Res (Option (Action Q A)) :=
  createWithPrefix p.actions pre

/-- The members of `HelpAction`, /repo/src/mathic/HelpAction.h:33-34: whether `_parser` has been set, and
`_topic`. -/
structure Help where
  parserSet : Bool
  topic : Str
deriving DecidableEq

/-- The constructor, /repo/src/mathic/HelpAction.cpp:13: `_parser` is not initialized. -/
def Help.init : Help := ⟨false, []⟩

/-- `name`, `staticName`, /repo/src/mathic/HelpAction.cpp:15-17, 107-109. -/
def helpName : Str := "help".toList

/-- `description`, /repo/src/mathic/HelpAction.cpp:19-24. -/
def helpDescription : Str :=
  ("Giving the parameter 'help' displays a list of the available actions.\n" ++
    "Giving the parameters 'help action' displays a detailed description of that action.\n").toList

/-- `shortDescription`, /repo/src/mathic/HelpAction.cpp:26-28. -/
def helpShort : Str := "Return information about the command line interface.".toList

/-- `directOptions`, /repo/src/mathic/HelpAction.cpp:30-39: the members afterwards, and the exception if
one is thrown. -/
def Help.directOptions (h : Help) (tokens : List Str) : Help × Option Err :=
  let h := { h with parserSet := true }
  match tokens with
  | [] => (h, none)
  | [front] => ({ h with topic := front }, none)
  | _ :: second :: _ =>
    (h, some (.error ("ERROR: ".toList ++ ("Did not expect second option \"".toList ++ second ++ "\".".toList))))

/-- What `display` prints, if it is defined. -/
def displayed (msg pre : Str) : Res Str :=
  match Display.display msg pre with
  | none => .ub
  | some out => .ok out

/-- The loop over the parameters, /repo/src/mathic/HelpAction.cpp:69-76. `fprintf` prints strings up to a
NUL. -/
def displayParams (T : Texts Q A) : List Q → Res Str
  | [] => .ok []
  | q :: rest =>
    (displayed (T.paramDescription q) "   ".toList).bind fun out =>
      (displayParams T rest).bind fun out' =>
        .ok ("\n -".toList ++ Display.cstr (T.paramName q) ++ " ".toList ++ Display.cstr (T.argumentType q) ++
          "   (default is ".toList ++ Display.cstr (T.valueAsString q) ++ ")\n".toList ++ out ++ out')

/-- `sort` with `paramCmp`, /repo/src/mathic/HelpAction.cpp:44-51, 60. A merge sort here; there is a
difference at most for parameters with the same name. -/
def sortParams (T : Texts Q A) (params : List Q) : List Q :=
  params.mergeSort (fun a b => !strLt (T.paramName b) (T.paramName a))

/-- `displayActionHelp`, /repo/src/mathic/HelpAction.cpp:53-78. -/
def displayActionHelp (T : Texts Q A) (action : Action Q A) : Res Str :=
  let out := "Displaying information on action: ".toList ++ T.actionName action ++ "\n\n".toList ++
    T.description action ++ "\n".toList
  let parameters := sortParams T action.params
  (displayed out []).bind fun printed =>
    if parameters.isEmpty then .ok printed
    else
      (displayParams T parameters).bind fun list =>
        .ok (printed ++ "\nThe parameters accepted by ".toList ++ T.actionName action ++
          " are as follows.\n".toList ++ list)

/-- The loop over the names, /repo/src/mathic/HelpAction.cpp:96-101. -/
def listLoop (T : Texts Q A) (p : Parser Q A) : List Str → ColumnPrinter.State → Res ColumnPrinter.State
  | [], printer => .ok printer
  | name :: rest, printer =>
    (p.createActionWithPrefix name).bind fun created =>
      match created with
      | none => .ub
      | some action =>
        match (ColumnPrinter.write printer 0 (T.actionName action ++ ['\n'])).bind fun printer =>
            ColumnPrinter.write printer 1 (T.shortDescription action ++ ['\n']) with
        | none => .ub
        | some printer => listLoop T p rest printer

/-- The printer with its columns, /repo/src/mathic/HelpAction.cpp:90-92. -/
def listPrinter : ColumnPrinter.State :=
  ColumnPrinter.addColumn (ColumnPrinter.addColumn (ColumnPrinter.init 0) false " ".toList []) true " - ".toList []

/-- `performAction`, /repo/src/mathic/HelpAction.cpp:80-105. Using `_parser` before it is set and using
the null pointer of a factory function are undefined. -/
def Help.performAction (T : Texts Q A) (p : Parser Q A) (h : Help) : Res Str :=
  if !h.parserSet then .ub
  else if h.topic ≠ [] then
    (p.createActionWithPrefix h.topic).bind fun created =>
      match created with
      | none => .ub
      | some action => displayActionHelp T action
  else
    (listLoop T p (p.pushBackRegisteredActionNames []) listPrinter).bind fun printer =>
      match ColumnPrinter.print printer with
      | none => .ub
      | some table =>
        displayed (p.helpPreMessage ++ ['\n'] ++ table ++ ['\n'] ++ p.helpPostMessage ++ ['\n']) []

/-! ## The help action among the other actions -/

variable {B : Type}

/-- `directOptions` of an action that may be the help action: the virtual call in
/repo/src/mathic/CliParser.cpp:66. -/
def withHelp (I : Iface Q B) : Iface Q (Help ⊕ B) where
  name := I.name
  process := I.process
  direct tokens x :=
    match x.own with
    | .inl h => (⟨x.params, .inl (h.directOptions tokens).1⟩, (h.directOptions tokens).2)
    | .inr b =>
      let r := I.direct tokens ⟨x.params, b⟩
      (⟨r.1.params, .inr r.1.own⟩, r.2)

/-- A new `HelpAction`, which has no parameters (/repo/src/mathic/HelpAction.cpp:13, 41-42). -/
def helpAction : Action Q (Help ⊕ B) := ⟨[], .inl Help.init⟩

end Verif.Help
