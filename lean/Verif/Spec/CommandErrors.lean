import Verif.Spec.CommandLine
import Verif.Spec.UsageHelp

/-! Why a command line is refused, and what is said about it. Of the model, only the descriptions of arguments and parsers and the kinds
of refusals (`Stop`) are used here. -/
namespace Verif.Spec.CommandErrors
open Verif Verif.Argparse Verif.Spec.CommandLine
open Verif.ArgHelp (Shown)

/-- `s` can stand for the option `n`: it is the start of the name, with or without a value after `=`, or the name is a letter and a
value is joined to it. -/
def Begins (s n : Text) : Prop :=
  s <+: n ∨ (∃ u v, s = u ++ '=' :: v ∧ ['-', '-'] <+: u ∧ u <+: n) ∨ ∃ c v, n = ['-', c] ∧ s = '-' :: c :: v

/-- `s` starts with a dash, and has other characters. -/
def Dashed (s : Text) : Prop := s.head? = some '-' ∧ ∃ c ∈ s, c ≠ '-'

/-- `s` is not the name of an option, but can stand for more than one: for those with the names `l`. -/
structure Ambiguous (p : Parser) (s : Text) (l : List Text) : Prop where
  dashed : Dashed s
  new : ∀ a ∈ p, s ∉ a.names
  sub : l.Sublist (p.flatMap Arg.names)
  all : ∀ n ∈ p.flatMap Arg.names, n ∈ l ↔ Begins s n
  many : 2 ≤ l.length

/-- `s` looks like an option, and can stand for none. -/
def Unknown (p : Parser) (s : Text) : Prop := Dashed s ∧ ∀ a ∈ p, ∀ n ∈ a.names, ¬ Begins s n

/-- All letters are options without values. -/
def Flags (p : Parser) (u : Text) : Prop := ∀ c ∈ u, ∃ b ∈ p, ['-', c] ∈ b.names ∧ b.nargs = .num 0

/-- The string `w` ends with the option `a`: it is (the start of) its name, or its last letter is the name. -/
def EndsWith (p : Parser) (w : Text) (a : Arg) : Prop :=
  Dashed w ∧ a ∈ p ∧ ((∃ n ∈ a.names, w <+: n) ∨ ∃ u c, w = '-' :: (u ++ [c]) ∧ Flags p u ∧ ['-', c] ∈ a.names)

/-- The option `a` comes in `w` with a value `v` after `=`. -/
def Assigns (p : Parser) (w : Text) (a : Arg) (v : Text) : Prop :=
  a ∈ p ∧ ∃ n ∈ a.names, ∃ u, w = u ++ '=' :: v ∧ ['-', '-'] <+: u ∧ u <+: n

/-- A letter for the option `a` stands in `w`, and `v` after it. -/
def Joins (p : Parser) (w : Text) (a : Arg) (v : Text) : Prop :=
  a ∈ p ∧ v ≠ [] ∧ ∃ u c, w = '-' :: (u ++ c :: v) ∧ Flags p u ∧ ['-', c] ∈ a.names

/-- The strings `l` are given to the argument `a`. -/
def Gives (p : Parser) (args : List Text) (a : Arg) (l : List Text) : Prop :=
  a ∈ p ∧ (a.names = [] ∧ l <:+: args ∨
    ∃ x w vs y calls, args = x ++ (w :: vs) ++ y ∧ Reads p w vs calls ∧ (a, l) ∈ calls)

/-- The number of values that an argument must have. -/
def least : Nargs → Nat
  | .one => 1
  | .plus => 1
  | .num n => n
  | _ => 0

/-- The strings of a part, or the one that is left over. -/
def words : Part ⊕ Text → List Text
  | .inl q => q.words
  | .inr w => [w]

/-- The strings that are left over. -/
def over : Part ⊕ Text → List Text
  | .inl _ => []
  | .inr w => [w]

/-- The positional arguments of parts. -/
def positional : Part ⊕ Text → List Arg
  | .inl q => q.positional
  | .inr _ => []

/-- Positional arguments need one string. -/
def Singles (p : Parser) : Prop := ∀ a ∈ p, a.names = [] → a.nargs = .one ∨ a.nargs = .plus

/-- The command line falls into parts and strings that are left over; the positional arguments `missing` are those that no strings are
left for. If the positional arguments need one string each, then a string that is left over looks like an unknown option, is
`--`, or all positional arguments have their strings before it. -/
def Falls (p : Parser) (args : List Text) (missing : List Arg) (left : List Text) : Prop :=
  ∃ parts : List (Part ⊕ Text), parts.flatMap words = args ∧ parts.flatMap over = left ∧
    parts.flatMap positional ++ missing = p.filter (fun a => a.names = []) ∧ (∀ q, .inl q ∈ parts → q.Sound p) ∧
    (Singles p → ∀ P x Q, parts = P ++ .inr x :: Q →
      Unknown p x ∨ x = dashes ∨ P.flatMap positional = p.filter (fun a => a.names = []))

/-- Why a command line is refused:
* the help or the version: the option for it is given;
* an ambiguous option: this string stands for two names or more, which are all listed, and is the first such string, before a `--`;
* an ignored value: an option without values has one after `=`; or a letter for an option without values is followed by a letter that is
  no option, and (as it is) the characters after that letter are named;
* a missing value: an option that needs two values or more has one joined to it, or there are not as many strings after the option as it
  needs, up to the next string that is not a value;
* a value whose type is no type: one is given to the argument;
* a value that is not a number: one is given to the argument;
* too few arguments: there are no strings for some positional arguments;
* unknown arguments: all positional arguments have their strings, and these strings are left over;
and nothing else. -/
def Why (p : Parser) (args : List Text) : Stop → Prop
  | .help => ∃ a l, a.act = .help ∧ Gives p args a l
  | .version => ∃ a l, a.act = .version ∧ Gives p args a l
  | .ambiguous s l => ∃ x y, args = x ++ s :: y ∧ Ambiguous p s l ∧ dashes ∉ x ∧ ∀ w ∈ x, ¬ ∃ m, Ambiguous p w m
  | .ignored a e => a.nargs = .num 0 ∧ ∃ w ∈ args, (∃ v, Assigns p w a v ∧ e = some v) ∨
      ∃ d r, Joins p w a (d :: r) ∧ (∀ b ∈ p, ['-', d] ∉ b.names) ∧ e = if r = [] then none else some r
  | .expected a => (2 ≤ least a.nargs ∧ ∃ w ∈ args, ∃ v, Assigns p w a v ∨ Joins p w a v) ∨
      ∃ x w y, args = x ++ w :: y ∧ EndsWith p w a ∧ (y.length < least a.nargs ∨ ∃ s ∈ y.take (least a.nargs), ¬ Value p s)
  | .notCallable a => a.ty = .notCallable ∧ ∃ l, Gives p args a l
  | .invalid a s => a.ty = .int ∧ (¬ ∃ n, Numeral s n) ∧
      ∃ l, Gives p args a l ∧ (s ∈ l ∧ s ≠ dashes ∨ a.nargs = .opt ∧ a.const = .str s)
  | .tooFew => ∃ m l, m ≠ [] ∧ Falls p args m l
  | .required _ => False
  | .unrecognized l => l ≠ [] ∧ Falls p args [] l
  | .crash => False
  | .fuel => False

/-! ### What is said -/

/-- What an argument is called: by all its names, or by its label. -/
def Called (s : Shown) (n : Text) : Prop :=
  (s.arg.names ≠ [] → n = "/".toList.intercalate s.arg.names) ∧
  (s.arg.names = [] → ∀ m, s.metavar = some m → n = m) ∧
  (s.arg.names = [] → s.metavar = none → ∀ d, s.arg.dest = some d → n = d.toList)

/-- The message about the argument `a`: `e` after what it is called. -/
def About (l : List Shown) (a : Arg) (e m : Text) : Prop :=
  ∃ s ∈ l, s.arg = a ∧ ∃ n, Called s n ∧ m = "argument ".toList ++ n ++ ": ".toList ++ e

/-- How many values an option needs. -/
inductive Amount : Nargs → Text → Prop
  | one : Amount .one "one argument".toList
  | more : Amount .plus "at least one argument".toList
  | some (n : Nat) : Amount (.num n) ((toString n).toList ++ " argument(s)".toList)

/-- The messages; strings that are quoted are shown by `repr`. -/
def Says (repr : Text → Text) (l : List Shown) : Stop → Text → Prop
  | .ambiguous s ns, m => m = "ambiguous option: ".toList ++ s ++ " could match ".toList ++ ", ".toList.intercalate ns
  | .ignored a e, m => About l a ("ignored explicit argument ".toList ++ (e.map repr).getD "None".toList) m
  | .expected a, m => ∃ n, Amount a.nargs n ∧ About l a ("expected ".toList ++ n) m
  | .notCallable a, m => About l a "'int' is not callable".toList m
  | .invalid a s, m => About l a ("invalid int value: ".toList ++ repr s) m
  | .tooFew, m => m = "too few arguments".toList
  | .unrecognized ws, m => m = "unrecognized arguments: ".toList ++ UsageHelp.spaces ws
  | _, _ => False

end Verif.Spec.CommandErrors
