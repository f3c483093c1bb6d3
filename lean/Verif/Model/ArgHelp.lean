import Verif.Model.Argparse
import Verif.Py

/-! How the parsers of the tools are built, call by call of `add_argument`, and the usage and help texts: thirdparty/argparse.py
(cited by line numbers alone). Not modelled: `set_defaults`, `const`, `choices`, metavars that are tuples, groups of arguments of
one's own, suppressed arguments, conflict handlers other than `error`. -/
namespace Verif.ArgHelp
open Verif Verif.Argparse

/-! ### Building parsers -/

/-- 1174-1184: the names of the actions that tools use. -/
inductive Action
  | store
  | storeTrue
  | storeFalse
  | append
  | help
  | version
  deriving DecidableEq

/-- The arguments of a call of `add_argument`; `none` for a keyword that is not given. The default `some none` is `SUPPRESS`. -/
structure Decl where
  names : List Text
  dest : Option String := none
  nargs : Option Nargs := none
  action : Action := .store
  default : Option (Option Val) := none
  ty : Option Ty := none
  required : Option Bool := none
  metavar : Option Text := none
  help : Option Text := none

/-- 773-798: an action with what is shown of it. -/
structure Shown where
  arg : Arg
  metavar : Option Text := none
  help : Option Text := none
  deriving DecidableEq

/-- The exceptions of `add_argument`. -/
inductive Refused
  | valueError
  | typeError
  | indexError
  | conflict (l : List Text)
  deriving DecidableEq

/-- 815-990: the call of the class of the action. `SUPPRESS` as a default goes with `dest = none` here, because then nothing uses
the destination. -/
def build (names : List Text) (dest : String) (required : Option Bool) (d : Decl) : Except Refused Shown :=
  match d.action with
  | .store | .append =>
    if d.nargs = some (.num 0) then .error .valueError
    else .ok {
      arg := { names := names, dest := some dest, nargs := d.nargs.getD .one,
               act := if d.action = .store then .store else .append,
               default := (d.default.getD (some .none)), ty := d.ty.getD .identity, required := required.getD false },
      metavar := d.metavar, help := d.help }
  | .storeTrue | .storeFalse =>
    if d.nargs.isSome || d.ty.isSome || d.metavar.isSome then .error .typeError
    else .ok {
      arg := { names := names, dest := some dest, nargs := .num 0, act := .const (.bool (d.action = .storeTrue)),
               default := (d.default.getD (some (.bool (d.action = .storeFalse)))), required := required.getD false },
      help := d.help }
  | .help | .version =>
    if d.nargs.isSome || d.ty.isSome || d.metavar.isSome || required.isSome then .error .typeError
    else .ok {
      arg := { names := names, dest := if (d.default.getD none).isNone then none else some dest, nargs := .num 0,
               act := if d.action = .help then .help else .version, default := d.default.getD none },
      help := d.help }

/-- 1277-1297 `_add_action`, 1414-1434 `_check_conflict`. -/
def register (p : List Shown) (a : Shown) : Except Refused (List Shown) :=
  let l := a.arg.names.filter fun n => n ∈ p.flatMap fun b => b.arg.names
  if l ≠ [] then .error (.conflict l) else .ok (p ++ [a])

/-- 1341-1356 `_get_positional_kwargs`. -/
def positionalArg (dest : String) (d : Decl) : Except Refused Shown :=
  if d.required.isSome then .error .typeError
  else
    let must := d.nargs ≠ some .opt && (d.nargs ≠ some .star || d.default.isNone)
    build [] dest (if must then some true else none) d

/-- 1363-1382: the tests of a name of an option. -/
def goodName (n : Text) : Bool := 2 ≤ n.length && n.head? = some '-' && n.any (· ≠ '-')

/-- 1357-1400 `_get_optional_kwargs`. -/
def optionalArg (d : Decl) : Except Refused Shown :=
  if d.names.all goodName then build d.names (d.dest.getD (destOf d.names)) d.required d
  else .error .valueError

/-- 1237-1266 `add_argument`. -/
def addArgument (p : List Shown) (d : Decl) : Except Refused (List Shown) := do
  let a ← match d.names with
    | [] => match d.dest with
      | some x => positionalArg x d
      | none => .error .typeError
    | [[]] => .error .indexError
    | [c :: n] =>
      if c ≠ '-' then if d.dest.isSome then .error .typeError else positionalArg (String.ofList (c :: n)) d
      else optionalArg d
    | _ => optionalArg d
  register p a

/-- Calls of `add_argument`, one after the other. -/
def declare (p : List Shown) : List Decl → Except Refused (List Shown)
  | [] => .ok p
  | d :: l => do declare (← addArgument p d) l

/-! ### Usage -/

/-- `str.upper`. -/
def upper (t : Text) : Text := t.map Char.toUpper

/-- `' '.join(l)`. -/
def spaced (l : List Text) : Text := [' '].intercalate l

/-- `dest`. -/
def Shown.dest (s : Shown) : Text := (s.arg.dest.getD "").toList

/-- 577-609 `_metavar_formatter`, `_format_args`. -/
def formatArgs (s : Shown) (default : Text) : Text :=
  let m := s.metavar.getD default
  match s.arg.nargs with
  | .one => m
  | .opt => "[".toList ++ m ++ "]".toList
  | .star => "[".toList ++ m ++ " [".toList ++ m ++ " ...]]".toList
  | .plus => m ++ " [".toList ++ m ++ " ...]".toList
  | .num n => spaced (List.replicate n m)

/-- 446-485: the part for an action, without groups. -/
def usagePart (s : Shown) : Text :=
  match s.arg.names with
  | [] => formatArgs s s.dest
  | n :: _ =>
    let part := if s.arg.nargs = .num 0 then n else n ++ ' ' :: formatArgs s (upper s.dest)
    if s.arg.required then part else "[".toList ++ part ++ "]".toList

/-- `[\[(]`. -/
def opening (c : Char) : Bool := c = '[' || c = '('

/-- `[\])]`. -/
def closing (c : Char) : Bool := c = ']' || c = ')'

/-- 495: the space after an opening bracket is removed. -/
def subOpen : Text → Text
  | [] => []
  | c :: t => if opening c then
      match t with
      | ' ' :: t' => c :: subOpen t'
      | t => c :: subOpen t
    else c :: subOpen t

/-- 496: the space before a closing bracket is removed. -/
def subClose : Text → Text
  | [] => []
  | ' ' :: c :: t => if closing c then c :: subClose t else ' ' :: subClose (c :: t)
  | c :: t => c :: subClose t

/-- 497: brackets with nothing but spaces in them are removed; `fuel` is the length of the text. -/
def subEmpty : Nat → Text → Text
  | 0, t => t
  | _ + 1, [] => []
  | k + 1, c :: t =>
    if opening c then
      match t.dropWhile (· = ' ') with
      | b :: r => if closing b then subEmpty k r else c :: subEmpty k t
      | [] => c :: subEmpty k t
    else c :: subEmpty k t

/-- The part of a text before its last `)`, and the part after it. -/
def lastClose (t : Text) : Option (Text × Text) :=
  let r := t.reverse
  match r.dropWhile (· ≠ ')') with
  | [] => none
  | _ :: b => some (b.reverse, (r.takeWhile (· ≠ ')')).reverse)

/-- 498: parentheses without `|` between them are removed; `fuel` is the length of the text. -/
def subParens : Nat → Text → Text
  | 0, t => t
  | _ + 1, [] => []
  | k + 1, c :: t =>
    if c = '(' then
      match lastClose (t.takeWhile (· ≠ '|')) with
      | some (a, b) => a ++ subParens k (b ++ t.dropWhile (· ≠ '|'))
      | none => c :: subParens k t
    else c :: subParens k t

/-- `str.strip()`. -/
def strip (t : Text) : Text := ((t.dropWhile isSpace).reverse.dropWhile isSpace).reverse

/-- 412-501 `_format_actions_usage`. -/
def actionsUsage (l : List Shown) : Text :=
  let text := spaced (l.map usagePart)
  let text := subClose (subOpen text)
  let text := subEmpty text.length text
  strip (subParens text.length text)

/-- A match of `\(.*?\)+` or `\[.*?\]+` after the opening bracket: up to the first closing one in the line, and those right after
it. -/
def bracketed (close : Char) (t : Text) : Option (Text × Text) :=
  let a := t.takeWhile (· ≠ close)
  let r := t.dropWhile (· ≠ close)
  if r = [] || '\n' ∈ a then none else some (a ++ r.takeWhile (· = close), r.dropWhile (· = close))

/-- 343-346: `findall` of `\(.*?\)+|\[.*?\]+|\S+`; `fuel` is the length of the text. -/
def findParts : Nat → Text → List Text
  | 0, _ => []
  | _ + 1, [] => []
  | k + 1, c :: t =>
    if isSpace c then findParts k t
    else
      match if c = '(' then bracketed ')' t else if c = '[' then bracketed ']' t else none with
      | some (a, r) => (c :: a) :: findParts k r
      | none => (c :: t.takeWhile (¬ isSpace ·)) :: findParts k (t.dropWhile (¬ isSpace ·))

/-- 350-367: the loop of `get_lines`: the parts of the line so far and the length of it. -/
def getLines (w : Int) (indent : Text) : List Text → List Text → Int → List Text
  | [], line, _ => if line ≠ [] then [indent ++ spaced line] else []
  | p :: ps, line, n =>
    if n + 1 + p.length > w then
      (indent ++ spaced line) :: getLines w indent ps [p] ((indent.length : Int) - 1 + (p.length + 1))
    else getLines w indent ps (line ++ [p]) (n + (p.length + 1))

/-- `usage: ` (323). -/
def pre : Text := "usage: ".toList

/-- 349-368 `get_lines(parts, indent, prefix)`. -/
def getLinesAfter (w : Int) (parts : List Text) (indent : Text) : Py (List Text) :=
  match getLines w indent parts [] ((pre.length : Int) - 1) with
  | [] => .error .indexError
  | l :: ls => .ok (l.drop indent.length :: ls)

/-- 320-409 `_format_usage`, with `_current_indent` 0 and no usage given; `w` is `_width`. -/
def formatUsage (w : Int) (prog : Text) (l : List Shown) : Py Text := do
  let usage ←
    if l = [] then .ok prog
    else
      let opts := l.filter fun s => s.arg.names ≠ []
      let pos := l.filter fun s => s.arg.names = []
      let usage := spaced ([prog, actionsUsage (opts ++ pos)].filter (· ≠ []))
      if (pre.length + usage.length : Int) ≤ w then .ok usage
      else
        let optUsage := actionsUsage opts
        let posUsage := actionsUsage pos
        let optParts := findParts optUsage.length optUsage
        let posParts := findParts posUsage.length posUsage
        if spaced optParts ≠ optUsage then .error .assertionError
        else if spaced posParts ≠ posUsage then .error .assertionError
        else do
          let lines ←
            if 4 * (pre.length + prog.length : Int) ≤ 3 * w then
              let indent := List.replicate (pre.length + prog.length + 1) ' '
              if optParts ≠ [] then do
                let lines ← getLinesAfter w (prog :: optParts) indent
                .ok (lines ++ getLines w indent posParts [] ((indent.length : Int) - 1))
              else if posParts ≠ [] then getLinesAfter w (prog :: posParts) indent
              else .ok [prog]
            else
              let indent := List.replicate pre.length ' '
              let lines := getLines w indent (optParts ++ posParts) [] ((indent.length : Int) - 1)
              let lines := if 1 < lines.length then
                  getLines w indent optParts [] ((indent.length : Int) - 1) ++
                    getLines w indent posParts [] ((indent.length : Int) - 1)
                else lines
              .ok (prog :: lines)
          .ok (['\n'].intercalate lines)
  .ok (pre ++ usage ++ "\n\n".toList)

/-- 311: more than two newlines together become two; `k` newlines stand before the text. -/
def longBreaks : Nat → Text → Text
  | _, [] => []
  | k, c :: t => if c = '\n' then if k < 2 then c :: longBreaks (k + 1) t else longBreaks (k + 1) t else c :: longBreaks 0 t

/-- `str.strip('\n')`. -/
def stripNewlines (t : Text) : Text := ((t.dropWhile (· = '\n')).reverse.dropWhile (· = '\n')).reverse

/-- 237-256, 308-313: the text of the outermost section, from the texts of its items. -/
def finish (items : List Text) : Text :=
  let t := items.flatten
  let t := if t = [] then [] else '\n' :: t ++ ['\n']
  if t = [] then [] else stripNewlines (longBreaks 0 t) ++ ['\n']

/-- 2197-2201 `format_usage`: `columns` is the number in the environment variable COLUMNS, or 80 (190-197). -/
def usageText (columns : Int) (prog : Text) (l : List Shown) : Py Text := do
  .ok (finish [← formatUsage (columns - 2) prog l])

/-! ### Help -/

/-- 554-575 `_format_action_invocation`. -/
def invocation (s : Shown) : Text :=
  if s.arg.names = [] then s.metavar.getD s.dest
  else if s.arg.nargs = .num 0 then ", ".toList.intercalate s.arg.names
  else ", ".toList.intercalate (s.arg.names.map fun n => n ++ ' ' :: formatArgs s (upper s.dest))

/-- `\s+` is replaced by a space; `b`: a white space character stands before the text. -/
def squeeze : Bool → Text → Text
  | _, [] => []
  | b, c :: t => if isSpace c then if b then squeeze true t else ' ' :: squeeze true t else c :: squeeze false t

/-- What comes from outside: `textwrap.wrap`, and the operator `%` for help texts with a `%` in them. -/
structure Outside where
  wrap : Text → Int → Py (List Text)
  percent : Text → Py Text

/-- 631-633 `_split_lines`. -/
def splitLines (o : Outside) (t : Text) (w : Int) : Py (List Text) := o.wrap (strip (squeeze false t)) w

/-- 507-552 `_format_action`, inside a section, where `_current_indent` is 2; `pos` is `help_position`. A help text without `%` is
not changed by the formatting operator (610-618). -/
def formatAction (o : Outside) (w : Int) (pos : Nat) (s : Shown) : Py Text :=
  let header := invocation s
  match s.help with
  | none | some [] => .ok (List.replicate 2 ' ' ++ header ++ "\n".toList)
  | some h =>
    let short : Bool := (header.length : Int) ≤ (pos : Int) - 2 - 2
    let start := if short then
        List.replicate 2 ' ' ++ header ++ List.replicate (pos - 2 - 2 - header.length) ' ' ++ List.replicate 2 ' '
      else List.replicate 2 ' ' ++ header ++ "\n".toList
    do
      let text ← if '%' ∈ h then o.percent h else .ok h
      match ← splitLines o text (w - pos) with
      | [] => .error .indexError
      | l :: ls =>
        .ok (start ++ (List.replicate (if short then 0 else pos) ' ' ++ l ++ "\n".toList) ++
          ls.flatMap fun l => List.replicate pos ' ' ++ l ++ "\n".toList)

/-- All actions of a group. -/
def formatActions (o : Outside) (w : Int) (pos : Nat) : List Shown → Py (List Text)
  | [] => .ok []
  | s :: l => do
    let t ← formatAction o w pos s
    .ok (t :: (← formatActions o w pos l))

/-- 237-256, 264-273: a section with a heading; nothing if it is empty. (The items are formatted twice, with the same result.) -/
def section_ (heading : Text) (items : List Text) : Text :=
  if items.flatten = [] then [] else "\n".toList ++ heading ++ ":\n".toList ++ items.flatten ++ "\n".toList

/-- 502-505 `_format_text`, 635-638 and 651-652 `_fill_text`, outside of sections; `raw` for RawDescriptionHelpFormatter. -/
def formatText (o : Outside) (raw : Bool) (w : Int) (t : Text) : Py Text := do
  let t ← if raw then .ok t else do .ok (['\n'].intercalate (← splitLines o t w))
  .ok (t ++ "\n\n".toList)

/-- 274-276 `add_text`. -/
def formatTexts (o : Outside) (raw : Bool) (w : Int) : Option Text → Py (List Text)
  | none => .ok []
  | some t => do .ok [← formatText o raw w t]

/-- 283-299 `_action_max_length`, 509-511: the column in which the help texts start. -/
def helpPosition (l : List Shown) : Nat := min ((l.map fun s => (invocation s).length + 2).foldl max 0 + 2) 24

/-- 2203-2223 `format_help`; the two groups of 1556-1557. -/
def helpText (o : Outside) (raw : Bool) (columns : Int) (prog : Text) (description epilog : Option Text) (l : List Shown) :
    Py Text := do
  let w := columns - 2
  let pos := helpPosition l
  let usage ← formatUsage w prog l
  let desc ← formatTexts o raw w description
  let p ← formatActions o w pos (l.filter fun s => s.arg.names = [])
  let q ← formatActions o w pos (l.filter fun s => s.arg.names ≠ [])
  let epi ← formatTexts o raw w epilog
  .ok (finish ([usage] ++ desc ++ [section_ "positional arguments".toList p, section_ "optional arguments".toList q] ++ epi))

end Verif.ArgHelp
