import Verif.NameFactory
import Verif.Text

/-!
# Model of the command line interface of mathic

/repo/src/mathic/CliParser.cpp, Action.cpp, BoolParameter.cpp, IntegerParameter.cpp and
StringParameter.cpp.
-/

namespace Verif.Cli

open Verif.NameFactory Verif.Text

/-! ## Parameters -/

/-- The largest `unsigned int`, which has 32 bits. -/
def uintMax : ℕ := 2 ^ 32 - 1

/-- The value of a string of digits (library, part of `in >> n`). -/
def digitsValue : List Char → ℕ → ℕ
  | [], n => n
  | c :: rest, n => digitsValue rest (10 * n + (c.toNat - 48))

/-- `in >> value` for an `unsigned int`, used in /repo/src/mathic/IntegerParameter.cpp:26-27, as the
standard says: white space is skipped; if nothing is left then the value stays as it is; otherwise
digits are read as long as there are any, too large a number gives the largest one, and no digits
give 0. What becomes of a number with a sign is left open: `signed`. -/
def extract (signed : Str → ℕ) (argument : Str) (old : ℕ) : ℕ :=
  match argument.dropWhile isSpace with
  | [] => old
  | c :: rest =>
    if c = '+' ∨ c = '-' then signed (c :: rest)
    else min (digitsValue ((c :: rest).takeWhile Char.isDigit) 0) uintMax

/-- A `BoolParameter`, `IntegerParameter` or `StringParameter` with its name and value,
/repo/src/mathic/CliParameter.h:23-24, BoolParameter.h:29, IntegerParameter.h:29,
StringParameter.h:30. Not modelled: descriptions. -/
inductive Param where
  | bool (name : Str) (value : Bool)
  | integer (name : Str) (value : ℕ)
  | string (name : Str) (value : Str)
deriving DecidableEq

/-- `name`, /repo/src/mathic/CliParameter.h:12. -/
def Param.name : Param → Str
  | .bool n _ => n
  | .integer n _ => n
  | .string n _ => n

/-- `argumentType`, /repo/src/mathic/BoolParameter.cpp:13-15, IntegerParameter.cpp:15-17,
StringParameter.cpp:11-13. -/
def Param.argumentType : Param → Str
  | .bool _ _ => "[BOOL]".toList
  | .integer _ _ => "INTEGER".toList
  | .string _ _ => "STRING".toList

/-- `valueAsString`, /repo/src/mathic/BoolParameter.cpp:17-19, IntegerParameter.cpp:19-23,
StringParameter.cpp:15-17. -/
def Param.valueAsString : Param → Str
  | .bool _ v => if v then ['o', 'n'] else ['o', 'f', 'f']
  | .integer _ v => decimal v
  | .string _ v => v

/-- The message for a bool, /repo/src/mathic/BoolParameter.cpp:27-28. -/
def boolMsg (name argument : Str) : Str :=
  "ERROR: Option -".toList ++ name ++ " was given the argument \"".toList ++ argument ++
    "\". The only valid arguments are \"on\" and \"off\".".toList

/-- The message for an integer, /repo/src/mathic/IntegerParameter.cpp:31-33. -/
def integerMsg (name : Str) : Str :=
  "ERROR: The value given to option -".toList ++ name ++
    " was not as expected. It must be a non-negative integer in the range [0, 2^31-1].".toList

/-- `processArgument`, /repo/src/mathic/BoolParameter.cpp:21-30, IntegerParameter.cpp:25-35,
StringParameter.cpp:19-21: the parameter afterwards, and the exception if one is thrown. -/
def Param.processArgument (signed : Str → ℕ) : Param → Str → Param × Option Err
  | .bool n v, argument =>
    if argument = [] ∨ argument = ['o', 'n'] then (.bool n true, none)
    else if argument = ['o', 'f', 'f'] then (.bool n false, none)
    else (.bool n v, some (.error (boolMsg n argument)))
  | .integer n v, argument =>
    let value := extract signed argument v
    if decimal value ≠ argument then (.integer n value, some (.error (integerMsg n)))
    else (.integer n value, none)
  | .string n _, argument => (.string n argument, none)

/-! ## Actions -/

/-- An `Action` object: its parameters, in the order in which `pushBackParameters` gives them, and
all else. Simplified: the parameters are distinct objects that belong to the action. -/
structure Action (Q A : Type) where
  params : List Q
  own : A

/-- What is known of actions and parameters, /repo/src/mathic/Action.h:12-43,
/repo/src/mathic/CliParameter.h:8-27: `name` and `processArgument` of a parameter and
`directOptions` of an action. The exception that is thrown, if any, is the second result. Simplified:
`processArgument` changes nothing but its parameter. -/
structure Iface (Q A : Type) where
  name : Q → Str
  process : Q → Str → Q × Option Err
  direct : List Str → Action Q A → Action Q A × Option Err

variable {Q A : Type}

/-- `Action::directOptions`, the default, /repo/src/mathic/Action.cpp:8-16. -/
def defaultDirect (tokens : List Str) (x : Action Q A) : Action Q A × Option Err :=
  match tokens with
  | [] => (x, none)
  | front :: _ => (x, some (.error
      ("ERROR: Expected a dash (-) to indicate an option when reading \"".toList ++ front ++ "\".".toList)))

/-! ## The parser -/

/-- `makeParamNames`, /repo/src/mathic/CliParser.cpp:12-19. -/
def makeParamNames (I : Iface Q A) (params : List Q) : Factory Unit :=
  params.foldl (fun names q => registerProduct names (I.name q) none) (init "option".toList)

/-- The first loop of `parse`, /repo/src/mathic/CliParser.cpp:55-64. -/
def splitLoop : List Str → Bool → List Str → List Str → List Str × List Str
  | [], _, options, directOptions => (options, directOptions)
  | token :: rest, sawDash, options, directOptions =>
    if token = [] then splitLoop rest sawDash options directOptions
    else
      let sawDash := if token.head? = some '-' then true else sawDash
      if sawDash then splitLoop rest sawDash (options ++ [token]) directOptions
      else splitLoop rest sawDash options (directOptions ++ [token])

/-- The inner loop, /repo/src/mathic/CliParser.cpp:83-93. -/
def applyParam (I : Iface Q A) (name argument : Str) : List Q → Res (List Q)
  | [] => reportInternalError ("Processing non-existent option \"".toList ++ name ++ "\".".toList)
  | q :: rest =>
    if I.name q = name then
      match I.process q argument with
      | (q', none) => .ok (q' :: rest)
      | (_, some e) => .exn e
    else (applyParam I name argument rest).bind fun rest' => .ok (q :: rest')

/-- The second loop of `parse`, /repo/src/mathic/CliParser.cpp:69-94. The list holds the tokens from
`i` on. Reading the first character of an empty string gives a NUL. -/
def optionLoop (I : Iface Q A) (paramNames : Factory Unit) : List Str → List Q → Res (List Q)
  | [], params => .ok params
  | token :: rest, params =>
    match token with
    | '-' :: noDash =>
      (uniqueNameWithPrefix paramNames noDash).bind fun name =>
        match rest with
        | [] => (applyParam I name [] params).bind fun params => optionLoop I paramNames [] params
        | next :: rest' =>
          if next.head? ≠ some '-' then
            (applyParam I name next params).bind fun params => optionLoop I paramNames rest' params
          else (applyParam I name [] params).bind fun params => optionLoop I paramNames (next :: rest') params
    | _ => reportError ("Expected an option when reading \"".toList ++ token ++
        "\", but options start with a dash (-).\n".toList)
termination_by tokens => tokens.length

/-- `parse`, /repo/src/mathic/CliParser.cpp:42-96. Using the null pointer that a factory function may
give is undefined. -/
def parse (I : Iface Q A) (actions : Factory (Action Q A)) (commandLine : List Str) : Res (Action Q A) :=
  match commandLine with
  | [] => .exn (.unknownName (throwMsg "No action specified.".toList))
  | first :: tokens =>
    (createWithPrefix actions first).bind fun created =>
      match created with
      | none => .ub
      | some action =>
        let paramNames := makeParamNames I action.params
        let split := splitLoop tokens false [] []
        match I.direct split.2 action with
        | (_, some e) => .exn e
        | (action, none) =>
          (optionLoop I paramNames split.1 action.params).bind fun params => .ok ⟨params, action.own⟩

end Verif.Cli
