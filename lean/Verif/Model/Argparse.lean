import Verif.PyDict
import Verif.Model.StatsTable

/-! The parser of the command lines of the tools: the vendored `argparse`, thirdparty/argparse.py (cited by line
numbers alone), as far as the tools in `bin` use it. The texts of help, usage and errors are in
Model/ArgHelp and Model/ArgExit. Not modelled: mutually exclusive groups, sub-commands (`PARSER`), `choices`, arguments
read from files, prefix characters other than `-`. -/
namespace Verif.Argparse
open Verif

abbrev Text := List Char

/-- The values that the attributes of a namespace have. -/
inductive Val
  | none
  | bool (b : Bool)
  | int (n : Int)
  | str (s : Text)
  | list (l : List Val)
  deriving Inhabited

mutual
/-- Equality of values can be decided. -/
def Val.dec : (a b : Val) → Decidable (a = b)
  | .none, .none => .isTrue rfl
  | .bool a, .bool b => if h : a = b then .isTrue (by rw [h]) else .isFalse (by simpa using h)
  | .int a, .int b => if h : a = b then .isTrue (by rw [h]) else .isFalse (by simpa using h)
  | .str a, .str b => if h : a = b then .isTrue (by rw [h]) else .isFalse (by simpa using h)
  | .list a, .list b => match Val.decList a b with
    | .isTrue h => .isTrue (by rw [h])
    | .isFalse h => .isFalse (by simpa using h)
  | .none, .bool _ | .none, .int _ | .none, .str _ | .none, .list _ => .isFalse (by simp)
  | .bool _, .none | .bool _, .int _ | .bool _, .str _ | .bool _, .list _ => .isFalse (by simp)
  | .int _, .none | .int _, .bool _ | .int _, .str _ | .int _, .list _ => .isFalse (by simp)
  | .str _, .none | .str _, .bool _ | .str _, .int _ | .str _, .list _ => .isFalse (by simp)
  | .list _, .none | .list _, .bool _ | .list _, .int _ | .list _, .str _ => .isFalse (by simp)
/-- Equality of lists of values can be decided. -/
def Val.decList : (a b : List Val) → Decidable (a = b)
  | [], [] => .isTrue rfl
  | [], _ :: _ => .isFalse (by simp)
  | _ :: _, [] => .isFalse (by simp)
  | x :: a, y :: b => match Val.dec x y, Val.decList a b with
    | .isTrue h, .isTrue h' => .isTrue (by rw [h, h'])
    | .isFalse h, _ => .isFalse (by simp [h])
    | _, .isFalse h => .isFalse (by simp [h])
end

instance : DecidableEq Val := Val.dec

/-- `nargs`: `None`, `'?'`, `'*'`, `'+'` or a number. -/
inductive Nargs
  | one
  | opt
  | star
  | plus
  | num (n : Nat)
  deriving DecidableEq

/-- `type`: not given, `int`, or something that is not callable. -/
inductive Ty
  | identity
  | int
  | notCallable
  deriving DecidableEq

/-- `action`: 806-942, 990-1025. -/
inductive Act
  | store
  | const (v : Val)
  | append
  | help
  | version
  deriving DecidableEq

/-- 773-798: an action, that is, an argument that a parser knows. `dest = none` and `default = none` stand for
`SUPPRESS`; an action is identified with its description. -/
structure Arg where
  names : List Text
  dest : Option String
  nargs : Nargs
  act : Act
  const : Val := .none
  default : Option Val
  ty : Ty := .identity
  required : Bool := false
  deriving DecidableEq

/-- How a run ends without a namespace: `exit` after the help or the version, an exit with an error message (with the argument it
is about, 700-717), or an exception that nothing catches (`crash`). -/
inductive Stop
  | help
  | version
  | ambiguous (s : Text) (names : List Text)
  | ignored (a : Arg) (s : Option Text)
  | expected (a : Arg)
  | notCallable (a : Arg)
  | invalid (a : Arg) (s : Text)
  | tooFew
  | required (a : Arg)
  | unrecognized (l : List Text)
  | crash
  | fuel
  deriving Inhabited, DecidableEq

/-- 1520-1639: a parser is the list `_actions`. -/
abbrev Parser := List Arg

/-- 1642-1645 `_get_optional_actions` and the dictionary `_option_string_actions` (1244-1246). -/
def optionStrings (p : Parser) : List (Text × Arg) := p.flatMap fun a => a.names.map fun n => (n, a)

/-- `_option_string_actions.get(name)`. -/
def lookup (p : Parser) (n : Text) : Option Arg := ((optionStrings p).find? fun e => e.1 = n).map Prod.snd

/-- 1647-1650 `_get_positional_actions`. -/
def positionals (p : Parser) : List Arg := p.filter fun a => a.names = []

/-- An argument string as it was understood (1678-1702): an argument (`A`), the first `--` (`-`), an option (`O`) with
the action, its name and the argument that is part of the string, or an option that the parser does not know (`O`). -/
inductive Tok
  | arg (s : Text)
  | dash
  | opt (a : Arg) (name : Text) (explicit : Option Text)
  | unknown (s : Text)
  deriving DecidableEq

/-- The letters of the pattern. -/
inductive Kind
  | A
  | D
  | O
  deriving DecidableEq

/-- 1690-1702: the letter of a string. -/
def Tok.kind : Tok → Kind
  | .arg _ => .A
  | .dash => .D
  | .opt _ _ _ => .O
  | .unknown _ => .O

/-- `arg_strings[i]`, where the code looks at it: that of an option with an action is never looked at. -/
def Tok.text : Tok → Text
  | .arg s => s
  | .dash => ['-', '-']
  | .opt _ n _ => n
  | .unknown s => s

/-- 1206: `^-\d+|-\d*.\d+$`, matched at the start of the string: a dash and a digit; or a dash, a character other than
an end of line, and digits up to the end (or up to an end of line at the end). -/
def negativeNumber : Text → Bool
  | '-' :: c :: r => c.isDigit ||
    (decide (c ≠ '\n') &&
      (let d := if r.getLast? = some '\n' then r.dropLast else r
       decide (d ≠ []) && d.all Char.isDigit))
  | _ => false

/-- 1248-1252: `_has_negative_number_optionals`. -/
def hasNegative (p : Parser) : Bool := (optionStrings p).any fun e => negativeNumber e.1

/-- 2038-2080 `_get_option_tuples`, of a string of at least two characters that starts with a dash. -/
def optionTuples (p : Parser) (s : Text) : List (Arg × Text × Option Text) :=
  match s with
  | '-' :: '-' :: _ =>
    let pre := if '=' ∈ s then s.takeWhile (· ≠ '=') else s
    let e := if '=' ∈ s then some ((s.dropWhile (· ≠ '=')).drop 1) else none
    (optionStrings p).filterMap fun o => if pre.isPrefixOf o.1 then some (o.2, o.1, e) else none
  | _ =>
    (optionStrings p).filterMap fun o =>
      if o.1 = s.take 2 then some (o.2, o.1, some (s.drop 2))
      else if s.isPrefixOf o.1 then some (o.2, o.1, none)
      else none

/-- 1988-2036 `_parse_optional`. -/
def parseOptional (p : Parser) (s : Text) : Except Stop Tok :=
  if s = [] then .ok (.arg s)
  else if s.head? ≠ some '-' then .ok (.arg s)
  else if s.all (· = '-') then .ok (.arg s)
  else match lookup p s with
    | some a => .ok (.opt a s none)
    | none => match optionTuples p s with
      | e :: f :: l => .error (.ambiguous s ((e :: f :: l).map fun t => t.2.1))
      | [(a, n, e)] => .ok (.opt a n e)
      | [] =>
        if negativeNumber s && !hasNegative p then .ok (.arg s)
        else if ' ' ∈ s then .ok (.arg s)
        else .ok (.unknown s)

/-- 1678-1702: all argument strings; after `--` all are arguments. -/
def classify (p : Parser) : List Text → Except Stop (List Tok)
  | [] => .ok []
  | s :: r =>
    if s = ['-', '-'] then .ok (.dash :: r.map .arg)
    else match parseOptional p s with
      | .error e => .error e
      | .ok t => match classify p r with
        | .error e => .error e
        | .ok ts => .ok (t :: ts)

/-! ### The patterns -/

/-- The pieces of the regular expressions: `-*`, `A`, `A?`, `[A-]*`, `[A]*`. -/
inductive Piece
  | dashes
  | one
  | opt
  | any
  | many
  deriving DecidableEq

/-- n, n-1, …, 0. -/
def down : Nat → List Nat
  | 0 => [0]
  | n + 1 => (n + 1) :: down n

/-- The number of letters at the start for which `f`. -/
def run (f : Kind → Bool) (k : List Kind) : Nat := (k.takeWhile f).length

/-- The numbers of letters that a piece can match, in the order in which `re` tries them. -/
def Piece.lens : Piece → List Kind → List Nat
  | .dashes, k => down (run (· = .D) k)
  | .one, .A :: _ => [1]
  | .one, _ => []
  | .opt, .A :: _ => [1, 0]
  | .opt, _ => [0]
  | .any, k => down (run (fun x => x = .A || x = .D) k)
  | .many, k => down (run (· = .A) k)

/-- The numbers of letters that a sequence of pieces can match, in the order in which `re` tries them. -/
def seqLens : List Piece → List Kind → List Nat
  | [], _ => [0]
  | p :: ps, k => (p.lens k).flatMap fun n => (seqLens ps (k.drop n)).map (n + ·)

/-- `'-*'.join('A' * n)`. -/
def joined : Nat → List Piece
  | 0 => []
  | 1 => [.one]
  | n + 2 => .one :: .dashes :: joined (n + 1)

/-- 2082-2119 `_get_nargs_pattern`. -/
def pattern (a : Arg) : List Piece :=
  if a.names = [] then
    match a.nargs with
    | .one => [.dashes, .one, .dashes]
    | .opt => [.dashes, .opt, .dashes]
    | .star => [.dashes, .any]
    | .plus => [.dashes, .one, .any]
    | .num n => .dashes :: (joined n ++ [.dashes])
  else
    match a.nargs with
    | .one => [.one]
    | .opt => [.opt]
    | .star => [.many]
    | .plus => [.one, .many]
    | .num n => List.replicate n .one

/-- `re.match` of the joined patterns of some actions: the lengths of the groups. -/
def matchGroups : List Arg → List Kind → Option (List Nat)
  | [], _ => some []
  | a :: l, k => (seqLens (pattern a) k).findSome? fun n => (matchGroups l (k.drop n)).map (n :: ·)

/-- 1953-1970 `_match_argument`. -/
def matchArgument (a : Arg) (k : List Kind) : Except Stop Nat :=
  match seqLens (pattern a) k with
  | n :: _ => .ok n
  | [] => .error (.expected a)

/-- 1977-1983: the loop over the slices, from that of length `i` on. -/
def matchSlices (l : List Arg) (k : List Kind) : Nat → List Nat
  | 0 => []
  | i + 1 => match matchGroups (l.take (i + 1)) k with
    | some r => r
    | none => matchSlices l k i

/-- 1972-1986 `_match_arguments_partial`. -/
def matchPartial (l : List Arg) (k : List Kind) : List Nat := matchSlices l k l.length

/-! ### The values -/

/-- White space around a number. -/
def isSpace (c : Char) : Bool := c = ' ' || (9 ≤ c.toNat && c.toNat ≤ 13)

/-- 2167-2186 `_get_value`. -/
def getValue (a : Arg) (s : Text) : Except Stop Val :=
  match a.ty with
  | .identity => .ok (.str s)
  | .int => match StatsTable.parseInt (Etree.strip isSpace s) with
    | .ok n => .ok (.int n)
    | .error _ => .error (.invalid a s)
  | .notCallable => .error (.notCallable a)

/-- `[self._get_value(action, v) for v in arg_strings]`. -/
def getList (a : Arg) : List Text → Except Stop (List Val)
  | [] => .ok []
  | s :: l => match getValue a s with
    | .error e => .error e
    | .ok v => match getList a l with
      | .error e => .error e
      | .ok vs => .ok (v :: vs)

/-- 2132-2134 and 1671-1672: a string as default is converted. -/
def getDefault (a : Arg) : Val → Except Stop Val
  | .str s => getValue a s
  | v => .ok v

/-- 2122-2165 `_get_values`; `none` is `SUPPRESS`. -/
def getValues (a : Arg) (strs : List Text) : Except Stop (Option Val) :=
  let l := strs.filter (· ≠ ['-', '-'])
  if l = [] ∧ a.nargs = .opt then
    match (if a.names = [] then a.default else some a.const) with
    | none => .ok none
    | some v => match getDefault a v with
      | .error e => .error e
      | .ok w => .ok (some w)
  else if l = [] ∧ a.nargs = .star ∧ a.names = [] then
    match a.default with
    | none => .ok none
    | some .none => .ok (some (.list []))
    | some v => .ok (some v)
  else match l, a.nargs with
    | [s], .one | [s], .opt => match getValue a s with
      | .error e => .error e
      | .ok v => .ok (some v)
    | _, _ => match getList a l with
      | .error e => .error e
      | .ok vs => .ok (some (.list vs))

/-! ### The actions -/

/-- The namespace, and the actions that were taken (`seen_actions`, 1708). -/
structure St where
  ns : AD String Val
  seen : List Arg

/-- `setattr(namespace, dest, v)`; a suppressed destination is the attribute `==SUPPRESS==`. -/
def setDest (a : Arg) (v : Val) (ns : AD String Val) : AD String Val := ns.set (a.dest.getD "==SUPPRESS==") v

/-- 837-838, 858-859, 920-923, 1002-1004, 1019-1021: `action(self, namespace, argument_values, option_string)`. -/
def call (a : Arg) (v : Val) (ns : AD String Val) : Except Stop (AD String Val) :=
  match a.act with
  | .store => .ok (setDest a v ns)
  | .const c => .ok (setDest a c ns)
  | .append => match (ns.get? (a.dest.getD "==SUPPRESS==")).getD .none with
    | .none => .ok (setDest a (.list [v]) ns)
    | .list l => .ok (setDest a (.list (l ++ [v])) ns)
    | _ => .error .crash
  | .help => .error .help
  | .version => .error .version

/-- 1711-1730 `take_action`. -/
def takeAction (a : Arg) (strs : List Text) (st : St) : Except Stop St :=
  match getValues a strs with
  | .error e => .error e
  | .ok none => .ok { st with seen := a :: st.seen }
  | .ok (some v) => match call a v st.ns with
    | .error e => .error e
    | .ok ns => .ok ⟨ns, a :: st.seen⟩

/-- 1829-1830, 1845-1848: actions one after the other. -/
def takeAll : List (Arg × List Text) → St → Except Stop St
  | [], st => .ok st
  | c :: l, st => match takeAction c.1 c.2 st with
    | .error e => .error e
    | .ok st => takeAll l st

/-! ### The options and the positionals -/

/-- 1812-1822: an option without an argument in the string; its action with its arguments, and the strings that are
left. -/
def single (a : Arg) (rest : List Tok) : Except Stop (List (Arg × List Text) × List Tok) :=
  match matchArgument a (rest.map Tok.kind) with
  | .error e => .error e
  | .ok n => .ok ([(a, (rest.take n).map Tok.text)], rest.drop n)

/-- 1768-1822: the loop over the options that are joined in a string, with an argument in the string. -/
def cluster (p : Parser) (a : Arg) (name : Text) : Text → List Tok → Except Stop (List (Arg × List Text) × List Tok)
  | e, rest => match matchArgument a [.A] with
    | .error x => .error x
    | .ok n =>
      if n = 0 ∧ name[1]? ≠ some '-' then
        match e with
        | [] => .error .crash
        | c :: e' => match lookup p ['-', c] with
          | none => .error (.ignored a (if e' = [] then none else some e'))
          | some b =>
            match (if e' = [] then single b rest else cluster p b ['-', c] e' rest) with
            | .error x => .error x
            | .ok r => .ok ((a, []) :: r.1, r.2)
      else if n = 1 then .ok ([(a, [e])], rest)
      else .error (.ignored a (some e))
  termination_by e => e.length

/-- 1760-1827: `consume_optional` of an option that the parser knows, up to the actions. -/
def readOption (p : Parser) (a : Arg) (name : Text) (explicit : Option Text) (rest : List Tok) :
    Except Stop (List (Arg × List Text) × List Tok) :=
  match explicit with
  | none => single a rest
  | some e => cluster p a name e rest

/-- 1845-1847: the slices of the strings. -/
def slices : List Nat → List Tok → List (List Text)
  | [], _ => []
  | n :: l, ts => (ts.take n).map Tok.text :: slices l (ts.drop n)

/-- 1837-1855 `consume_positionals`: the state, the positionals that are left, and the number of strings used. -/
def consumePositionals (ts : List Tok) (pos : List Arg) (st : St) : Except Stop (St × List Arg × Nat) :=
  let counts := matchPartial pos (ts.map Tok.kind)
  match takeAll (pos.zip (slices counts ts)) st with
  | .error e => .error e
  | .ok st => .ok (st, pos.drop counts.length, counts.sum)

/-- Strings that are not options. -/
def Tok.plain (t : Tok) : Bool := t.kind ≠ .O

/-- 1857-1905: the loop, from the string at `start_index` on: the state, the positionals that are left and the strings
that nothing used (`extras`). -/
def loop (p : Parser) : Nat → List Tok → List Arg → St → List Text → Except Stop (St × List Arg × List Text)
  | 0, _, _, _, _ => .error .fuel
  | fuel + 1, ts, pos, st, extras =>
    if ts.all Tok.plain then
      match consumePositionals ts pos st with
      | .error e => .error e
      | .ok (st, pos, n) => .ok (st, pos, extras ++ (ts.drop n).map Tok.text)
    else
      match (if ts.takeWhile Tok.plain = [] then .ok (st, pos, 0) else consumePositionals ts pos st) with
      | .error e => .error e
      | .ok (st, pos, n) =>
        if n > 0 then loop p fuel (ts.drop n) pos st extras
        else
          let extras := extras ++ (ts.takeWhile Tok.plain).map Tok.text
          match ts.dropWhile Tok.plain with
          | .opt a name e :: rest => match readOption p a name e rest with
            | .error x => .error x
            | .ok (calls, rest) => match takeAll calls st with
              | .error x => .error x
              | .ok st => loop p fuel rest pos st extras
          | t :: rest => loop p fuel rest pos st (extras ++ [t.text])
          | [] => .error .crash

/-- 1665-1679: the defaults. -/
def defaults : Parser → AD String Val → Except Stop (AD String Val)
  | [], ns => .ok ns
  | a :: p, ns => match a.dest, a.default with
    | some d, some v =>
      if ns.has d then defaults p ns
      else match getDefault a v with
        | .error e => .error e
        | .ok w => defaults p (ns.set d w)
    | _, _ => defaults p ns

/-- 1660-1688, 1907-1936 `parse_known_args`. -/
def parseKnownArgs (p : Parser) (args : List Text) : Except Stop (AD String Val × List Text) :=
  match defaults p [] with
  | .error e => .error e
  | .ok ns => match classify p args with
    | .error e => .error e
    | .ok ts => match loop p (ts.length + 1) ts (positionals p) ⟨ns, []⟩ [] with
      | .error e => .error e
      | .ok (st, pos, extras) =>
        if pos ≠ [] then .error .tooFew
        else match p.find? fun a => a.required && !st.seen.contains a with
          | some a => .error (.required a)
          | none => .ok (st.ns, extras)

/-- 1654-1659 `parse_args`. -/
def parseArgs (p : Parser) (args : List Text) : Except Stop (AD String Val) :=
  match parseKnownArgs p args with
  | .error e => .error e
  | .ok (ns, extras) => if extras ≠ [] then .error (.unrecognized extras) else .ok ns

/-! ### Building parsers -/

/-- 1311-1357 `_get_optional_kwargs`: the destination of an option: that of the first long name, without the dashes
before it and with the others as underscores. -/
def destOf (names : List Text) : String :=
  let n := match names.filter fun n => n[1]? = some '-' with
    | n :: _ => n
    | [] => names.headD []
  String.ofList ((n.dropWhile (· = '-')).map fun c => if c = '-' then '_' else c)

/-- 1295-1309 `_get_positional_kwargs`: `add_argument(dest, nargs=…)`. -/
def positional (dest : String) (nargs : Nargs) (default : Val := .none) : Arg :=
  { names := [], dest := some dest, nargs := nargs, act := .store, default := some default,
    required := nargs ≠ .opt }

/-- `add_argument(…, nargs=…, type=…, default=…)`. -/
def option (names : List String) (nargs : Nargs := .one) (ty : Ty := .identity) (default : Val := .none) : Arg :=
  { names := names.map String.toList, dest := some (destOf (names.map String.toList)), nargs := nargs, act := .store,
    default := some default, ty := ty }

/-- `add_argument(…, action="store_true")`. -/
def flag (names : List String) : Arg :=
  { names := names.map String.toList, dest := some (destOf (names.map String.toList)), nargs := .num 0,
    act := .const (.bool true), default := some (.bool false) }

/-- `dest=…`. -/
def Arg.called (a : Arg) (dest : String) : Arg := { a with dest := some dest }

/-- 1566-1569. -/
def helpArg : Arg :=
  { names := ["-h".toList, "--help".toList], dest := none, nargs := .num 0, act := .help, default := none }

/-- 1570-1573. -/
def versionArg : Arg :=
  { names := ["-v".toList, "--version".toList], dest := none, nargs := .num 0, act := .version, default := none }

/-- utils/cli.py:33-46 `DaesoArgParser`. -/
def daeso (l : List Arg) : Parser := helpArg :: versionArg :: l

/-- `ArgumentParser(description=…)` (1520-1573): no version. -/
def plainParser (l : List Arg) : Parser := helpArg :: l

private def s (x : String) : Val := .str x.toList

/-- bin/gb_stats.py:46-97. -/
def gbStats : Parser := daeso [
  positional "pattern" .one,
  (option ["-F", "--format"] (default := s "alpino")).called "format",
  (flag ["-a", "--with-all"]).called "with_all",
  (flag ["-e", "--with-empty-nodes"]).called "with_empty_nodes",
  (flag ["-f", "--with-failed-parses"]).called "with_failed_parses",
  (flag ["-l", "--legenda"]).called "legenda",
  (flag ["-p", "--with-punc-nodes"]).called "with_punc",
  (option ["-t", "--token_diff_threshold"] (ty := .int) (default := .int 0)).called "threshold"]

/-- bin/pgc_agreement.py:44-73. -/
def pgcAgreement : Parser := daeso [
  positional "corpus_fns" .plus,
  { option ["-a", "--annotator"] with dest := some "annotators", act := .append },
  (option ["-p", "--pickle"]).called "pickle_fn",
  flag ["-w", "--words-only"]]

/-- bin/pgc_chdir.py:46-77. -/
def pgcChdir : Parser := daeso [
  positional "corpus" .plus,
  option ["-p", "--path-prefix-pair"] (nargs := .num 2) (default := .list [s "", s ""]),
  flag ["-t", "--test"],
  flag ["-V", "--verbose"]]

/-- bin/pgc_cp.py:20-40. -/
def pgcCp : Parser := daeso [
  positional "source" .plus,
  positional "target" .one,
  flag ["-o", "--overwrite"]]

/-- bin/pgc_diff.py:36-81. -/
def pgcDiff : Parser := daeso [
  positional "corpus1" .one,
  positional "corpus2" .one,
  option ["-1", "--first_annotator"] (default := s "First annotator"),
  option ["-2", "--second_annotator"] (default := s "Second annotator"),
  flag ["-c", "--with_comments"],
  flag ["-e", "--evaluate"],
  flag ["-i", "--with_ident"],
  option ["-r", "--relations"] (nargs := .star)]

/-- bin/pgc_extract_phrases.py:68-91. -/
def pgcExtractPhrases : Parser := daeso [
  positional "corpus" .plus,
  option ["-d", "--delimiter"] (default := s "\t"),
  flag ["-V", "--verbose"]]

/-- bin/pgc_from_ptc.py:75-149; a tuple as default is a list here; relations.py:27 for `RELATIONS`. -/
def pgcFromPtc : Parser := daeso [
  option ["-p", "--parallel-text-corpora"] (nargs := .plus) (default := .list []),
  option ["-s", "--source-graphbanks"] (nargs := .plus) (default := .list []),
  option ["-t", "--target-graphbanks"] (nargs := .plus) (default := .list []),
  option ["--source-format"] (default := s "alpino"),
  option ["--target-format"] (default := s "alpino"),
  option ["--source-tag"] (default := s "s"),
  option ["--target-tag"] (default := s "s"),
  option ["--relations"] (nargs := .plus)
    (default := .list [s "equals", s "restates", s "specifies", s "generalizes", s "intersects"]),
  option ["--max-token-len"] (ty := .int) (default := .int 99999),
  option ["--min-token-diff"] (ty := .int) (default := .int 0)]

/-- bin/pgc_join.py:42-66. -/
def pgcJoin : Parser := daeso [
  positional "file" .plus,
  flag ["-f", "--format"],
  flag ["-V", "--verbose"]]

/-- bin/pgc_split.py:39-74. -/
def pgcSplit : Parser := daeso [
  positional "filename" .one,
  flag ["-f", "--format"],
  option ["-p", "--parts"] (ty := .int) (default := .int 2),
  option ["-s", "--size"] (ty := .int),
  flag ["-V", "--verbose"]]

/-- bin/pgc_stats.py:45-106: the type of `-t` is the string `"int"`. -/
def pgcStats : Parser := daeso [
  positional "pattern" .one,
  (flag ["-a", "--with-all"]).called "with_all",
  (flag ["-e", "--with-empty-nodes"]).called "with_empty_nodes",
  (flag ["-f", "--with-failed-parses"]).called "with_failed_parses",
  (flag ["-l", "--legenda"]).called "legenda",
  (flag ["-p", "--with-punc-nodes"]).called "with_punc",
  (flag ["-r", "--with-unaligned-roots"]).called "with_unaligned_roots",
  (option ["-t", "--token_diff_threshold"] (ty := .notCallable) (default := .int 0)).called "threshold",
  (flag ["-u", "--with_unaligned-graphs"]).called "with_unaligned_graphs"]

/-- bin/pgc_zip.py:73-88. -/
def pgcZip : Parser := daeso [
  positional "zip_file" .one,
  positional "pgc_files" .plus]

/-- bin/ptc_chdir.py:38-68. -/
def ptcChdir : Parser := plainParser [
  positional "corpus" .plus (s "parallel text corpus"),
  option ["-d", "--dir"] (default := s ""),
  flag ["-t", "--test"],
  flag ["-V", "--verbose"]]

/-- bin/ptc_diff.py:35-58. -/
def ptcDiff : Parser := daeso [
  positional "true_corpus" .one,
  positional "pred_corpus" .one,
  option ["-t", "--tag"] (default := s "s"),
  option ["-e", "--encoding"] (default := s "utf-8")]

/-- bin/ptc_eval.py:36-55. -/
def ptcEval : Parser := daeso [
  option ["-t", "--true_corpora"] (nargs := .plus),
  option ["-p", "--pred_corpora"] (nargs := .plus),
  option ["--tag"] (default := s "s")]

/-- bin/ptc_n_to_id.py:37-54. -/
def ptcNToId : Parser := plainParser [
  positional "corpus" .plus (s "parallel text corpus"),
  flag ["-V", "--verbose"]]

/-- The parsers of the tools. -/
def tools : List Parser := [gbStats, pgcAgreement, pgcChdir, pgcCp, pgcDiff, pgcExtractPhrases, pgcFromPtc, pgcJoin,
  pgcSplit, pgcStats, pgcZip, ptcChdir, ptcDiff, ptcEval, ptcNToId]

end Verif.Argparse
