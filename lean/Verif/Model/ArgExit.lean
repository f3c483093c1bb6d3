import Verif.Model.ArgHelp
import Verif.Model.StatsTable

/-! How a command line ends: with a namespace, or with a text on standard error and an exit status; thirdparty/argparse.py (cited by
line numbers alone). What `%r` makes of a string is a parameter. -/
namespace Verif.ArgHelp
open Verif Verif.Argparse

/-- 687-697 `_get_action_name`; `SUPPRESS` and `None` are absent, and an argument without a name is not modelled (its name is empty). -/
def actionName (s : Shown) : Text :=
  if s.arg.names ≠ [] then ['/'].intercalate s.arg.names
  else match s.metavar with
    | some m => m
    | none => s.dest

/-- The argument with its texts (the first, if there are some that are the same but for the texts). -/
def named (l : List Shown) (a : Arg) : Text := actionName ((l.find? fun s => s.arg = a).getD { arg := a })

/-- 710-717: the text of an ArgumentError. -/
def argumentError (l : List Shown) (a : Arg) (m : Text) : Text := "argument ".toList ++ named l a ++ ": ".toList ++ m

/-- 1959-1966: what is missing. -/
def expectedText : Nargs → Text
  | .one => "expected one argument".toList
  | .opt => "expected at most one argument".toList
  | .plus => "expected at least one argument".toList
  | .star => "expected * argument(s)".toList
  | .num n => "expected ".toList ++ StatsTable.showInt n ++ " argument(s)".toList

/-- The messages, 2012-2015, 1796 and 1810, 1956-1967, 2166-2181 (`type` is `int`, or the string `int` in pgc_stats), 1900, 1907, 1657. -/
def message (repr : Text → Text) (l : List Shown) : Stop → Text
  | .ambiguous s ns => "ambiguous option: ".toList ++ s ++ " could match ".toList ++ ", ".toList.intercalate ns
  | .ignored a e => argumentError l a ("ignored explicit argument ".toList ++ match e with
    | none => "None".toList
    | some e => repr e)
  | .expected a => argumentError l a (expectedText a.nargs)
  | .notCallable a => argumentError l a ("'int' is not callable".toList)
  | .invalid a s => argumentError l a ("invalid int value: ".toList ++ repr s)
  | .tooFew => "too few arguments".toList
  | .required a => "argument ".toList ++ named l a ++ " is required".toList
  | .unrecognized ws => "unrecognized arguments: ".toList ++ spaced ws
  | _ => []

/-- 2246-2270: what is written to standard error, and the status for the shell. -/
structure Exit where
  output : Text
  status : Nat
  deriving DecidableEq

/-- 2225-2229 `format_version`. -/
def versionText (o : Outside) (raw : Bool) (columns : Int) (version : Option Text) : Py Text := do
  .ok (finish (← formatTexts o raw (columns - 2) version))

/-- 1654-1688, 1004-1006, 1023-1025 and 2240-2270: the end of `parse_args`: a namespace, or an exit. An error of a default is outside of
the `try` (1665-1679) and not an exit; that no default has one is in C83. -/
def parseOrExit (o : Outside) (repr : Text → Text) (raw : Bool) (columns : Int) (prog : Text) (description epilog version : Option Text)
    (l : List Shown) (args : List Text) : Py (Except Exit (AD String Val)) :=
  match parseArgs (l.map (·.arg)) args with
  | .ok ns => .ok (.ok ns)
  | .error .help => do .ok (.error ⟨← helpText o raw columns prog description epilog l, 0⟩)
  | .error .version => do .ok (.error ⟨← versionText o raw columns version, 0⟩)
  | .error .crash => .error .indexError
  | .error .fuel => .error .fuel
  | .error x => do
    .ok (.error ⟨(← usageText columns prog l) ++ prog ++ ": error: ".toList ++ message repr l x ++ ['\n'], 2⟩)

end Verif.ArgHelp
