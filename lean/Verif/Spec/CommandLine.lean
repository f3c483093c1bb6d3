import Verif.Model.Argparse

/-! What the command line of a tool means. Of the model, only the descriptions of arguments and parsers (`Arg`,
`Parser`) and of values (`Val`) are used here. -/
namespace Verif.Spec.CommandLine
open Verif Verif.Argparse

/-- The number of values that an argument can have. -/
def Fits : Nargs → Nat → Prop
  | .one, n => n = 1
  | .opt, n => n ≤ 1
  | .star, _ => True
  | .plus, n => 1 ≤ n
  | .num m, n => n = m

instance (k : Nargs) (n : Nat) : Decidable (Fits k n) := by cases k <;> simp only [Fits] <;> infer_instance

/-- The number of values does not vary. -/
def Fixed : Nargs → Prop
  | .one => True
  | .num _ => True
  | _ => False

instance (k : Nargs) : Decidable (Fixed k) := by cases k <;> simp only [Fixed] <;> infer_instance

/-- The string that ends the options. -/
def dashes : Text := ['-', '-']

/-- The numeral `s` stands for `n`: decimal digits, a sign before them, white space around them. -/
def Numeral (s : Text) (n : Int) : Prop :=
  ∃ l d r : Text, ∃ sign : Text, s = l ++ sign ++ d ++ r ∧ d ≠ [] ∧ (∀ c ∈ d, c.isDigit = true) ∧
    (∀ c ∈ l ++ r, c ∈ [' ', '\t', '\n', '\x0b', '\x0c', '\r']) ∧
    (sign = [] ∧ n = Nat.ofDigitChars 10 d 0 ∨ sign = ['+'] ∧ n = Nat.ofDigitChars 10 d 0 ∨
      sign = ['-'] ∧ n = -Nat.ofDigitChars 10 d 0)

/-- The value of a string. -/
def Means : Ty → Text → Val → Prop
  | .identity, s, v => v = .str s
  | .int, s, v => ∃ n, Numeral s n ∧ v = .int n
  | .notCallable, _, _ => False

/-- A default: strings are converted, other values are as they are. -/
def Default (ty : Ty) : Val → Val → Prop
  | .str s, v => Means ty s v
  | w, v => v = w

/-- The value of an argument that is given the strings `l`. A string `--` is not counted: without it, an argument that
takes one value has the empty list as its value. -/
def ValueOf (a : Arg) (l : List Text) (v : Val) : Prop :=
  match a.nargs, l.filter (· ≠ dashes) with
  | .one, [s] => Means a.ty s v
  | .opt, [s] => Means a.ty s v
  | .opt, [] => Default a.ty a.const v
  | _, l => ∃ vs, v = .list vs ∧ List.Forall₂ (Means a.ty) l vs

/-- The parsers that can be built, as far as the tools use them: names of options are different, and are a dash and a
character or start with two dashes, without `=`; options have different destinations and defaults that can be converted; the
positional arguments, and only they, are required. -/
structure WF (p : Parser) : Prop where
  names : ∀ a ∈ p, ∀ n ∈ a.names, (∃ c, n = ['-', c] ∧ c ≠ '-') ∨ ∃ r, n = '-' :: '-' :: r ∧ ∃ c ∈ r, c ≠ '-'
  equals : ∀ a ∈ p, ∀ n ∈ a.names, '=' ∉ n
  once : (p.flatMap Arg.names).Nodup
  dests : (p.filterMap Arg.dest).Nodup
  stored : ∀ a ∈ p, a.dest = none ↔ a.act = .help ∨ a.act = .version
  default : ∀ a ∈ p, a.dest = none ↔ a.default = none
  converts : ∀ a ∈ p, ∀ v₀, a.default = some v₀ → ∃ v, Default a.ty v₀ v
  append : ∀ a ∈ p, a.act = .append → a.default = some .none ∨ ∃ l, a.default = some (.list l)
  positional : ∀ a ∈ p, a.names = [] → a.act = .store ∧
    (a.nargs = .one ∨ a.nargs = .plus ∨ ∃ n, a.nargs = .num (n + 1))
  required : ∀ a ∈ p, a.required = true ↔ a.names = []

/-- What the attributes of the namespace are after `calls`: the arguments in the order of the command line, with the
strings they are given. -/
def Outcome (p : Parser) (calls : List (Arg × List Text)) (ns : AD String Val) : Prop :=
  ns.keys = p.filterMap Arg.dest ∧
  ∀ a ∈ p, ∀ d, a.dest = some d → ∀ v₀, a.default = some v₀ →
    let mine := (calls.filter fun c => c.1 = a).map Prod.snd
    match a.act with
    | .store => match mine.getLast? with
      | none => ∃ v, Default a.ty v₀ v ∧ ns.get? d = some v
      | some l => ∃ v, ValueOf a l v ∧ ns.get? d = some v
    | .const c => match mine with
      | [] => ∃ v, Default a.ty v₀ v ∧ ns.get? d = some v
      | _ => ns.get? d = some c
    | .append => ∃ vs, List.Forall₂ (ValueOf a) mine vs ∧
      ns.get? d = some (match mine, v₀ with
        | [], _ => v₀
        | _, .list l => .list (l ++ vs)
        | _, _ => .list vs)
    | _ => True

/-- How a string, with the values after it, is read as options: the name of an option or the start of a long one; the
same with a value after `=`; a short option with its value joined to it; several short options joined, of which all but
the last take no value. -/
inductive Reads (p : Parser) : Text → List Text → List (Arg × List Text) → Prop
  | name (a : Arg) (n w : Text) (vs : List Text) : a ∈ p → n ∈ a.names → w <+: n → Fits a.nargs vs.length →
      Reads p w vs [(a, vs)]
  | equals (a : Arg) (n w v : Text) : a ∈ p → n ∈ a.names → ['-', '-'] <+: w → w <+: n → Fits a.nargs 1 →
      Reads p (w ++ '=' :: v) [] [(a, [v])]
  | joined (a : Arg) (c : Char) (v : Text) : a ∈ p → ['-', c] ∈ a.names → c ≠ '-' → v ≠ [] → Fits a.nargs 1 →
      Reads p ('-' :: c :: v) [] [(a, [v])]
  | cluster (a : Arg) (c : Char) (e : Text) (vs : List Text) (calls : List (Arg × List Text)) :
      a ∈ p → ['-', c] ∈ a.names → c ≠ '-' → Fits a.nargs 0 → e.head? ≠ some '-' → Reads p ('-' :: e) vs calls →
      Reads p ('-' :: c :: e) vs ((a, []) :: calls)

/-- A part of the command line: the strings of a positional argument, or a string with options and the values after
it. -/
inductive Part
  | files (a : Arg) (words : List Text)
  | options (word : Text) (values : List Text) (calls : List (Arg × List Text))

/-- The strings of a part. -/
def Part.words : Part → List Text
  | .files _ ws => ws
  | .options w vs _ => w :: vs

/-- The arguments of a part, with their strings. -/
def Part.calls : Part → List (Arg × List Text)
  | .files a ws => [(a, ws)]
  | .options _ _ cs => cs

/-- The positional arguments of a part. -/
def Part.positional : Part → List Arg
  | .files a _ => [a]
  | .options _ _ _ => []

/-- A part is as the parser says: a positional argument has as many strings as it can have, next to one `--`; `--` is not
among the values after an option. -/
def Part.Sound (p : Parser) : Part → Prop
  | .files a ws => a ∈ p ∧ (Fits a.nargs ws.length ∨ ∃ l r, ws = l ++ dashes :: r ∧ Fits a.nargs (l ++ r).length)
  | .options w vs cs => w.head? = some '-' ∧ Reads p w vs cs ∧ dashes ∉ vs

/-- `s` does not look like an option: it does not start with a dash, or it starts with a dash and a digit and no option
of the parser has a digit as its second or third character. -/
def Value (p : Parser) (s : Text) : Prop :=
  s.head? ≠ some '-' ∨
    ((∃ c r, s = '-' :: c :: r ∧ c.isDigit = true) ∧
      ∀ a ∈ p, ∀ n ∈ a.names, ∀ c, n[1]? = some c ∨ n[2]? = some c → c.isDigit = false)

/-- `w` is the start of the name `n` and of no other name. -/
def Starts (p : Parser) (w n : Text) : Prop :=
  ['-', '-'] <+: w ∧ '=' ∉ w ∧ w <+: n ∧ ∀ b ∈ p, ∀ m ∈ b.names, w <+: m → m = n

/-- The ways to write options in a string, with the values after it: as for `Reads`, where the start of a name is the
start of no other name. -/
inductive Writes (p : Parser) : Text → List Text → List (Arg × List Text) → Prop
  | name (a : Arg) (n w : Text) (vs : List Text) : a ∈ p → n ∈ a.names → (w = n ∨ (∃ c ∈ w, c ≠ '-') ∧ Starts p w n) →
      Fits a.nargs vs.length → Writes p w vs [(a, vs)]
  | equals (a : Arg) (n w v : Text) : a ∈ p → n ∈ a.names → Starts p w n → Fits a.nargs 1 → Writes p (w ++ '=' :: v) [] [(a, [v])]
  | joined (a : Arg) (c : Char) (v : Text) : a ∈ p → ['-', c] ∈ a.names → v ≠ [] → Fits a.nargs 1 →
      Writes p ('-' :: c :: v) [] [(a, [v])]
  | cluster (a : Arg) (c : Char) (e : Text) (vs : List Text) (calls : List (Arg × List Text)) :
      a ∈ p → ['-', c] ∈ a.names → a.nargs = .num 0 → e ≠ [] → e.head? ≠ some '-' → Writes p ('-' :: e) vs calls →
      Writes p ('-' :: c :: e) vs ((a, []) :: calls)

/-- A string with options, the values after it, and what they stand for. -/
structure Opt where
  word : Text
  values : List Text
  calls : List (Arg × List Text)

/-- Its strings. -/
def Opt.words (o : Opt) : List Text := o.word :: o.values

/-- It is as the parser says, and does not ask for the help or the version. -/
structure Opt.Good (p : Parser) (o : Opt) : Prop where
  writes : Writes p o.word o.values o.calls
  values : ∀ v ∈ o.values, Value p v
  acts : ∀ c ∈ o.calls, c.1.act ≠ .help ∧ c.1.act ≠ .version

/-- The numbers of values of its options do not vary. -/
def Opt.Tight (o : Opt) : Prop := ∀ c ∈ o.calls, Fixed c.1.nargs

/-- Strings are given to the positional arguments, in order. -/
def Given (p : Parser) (files : List Text) (groups : List (Arg × List Text)) : Prop :=
  groups.map Prod.fst = p.filter (fun a => a.names = []) ∧ (groups.map Prod.snd).flatten = files ∧
    ∀ g ∈ groups, Fits g.1.nargs g.2.length

/-- At most one positional argument takes a varying number of strings. -/
def Definite (p : Parser) : Prop := ((p.filter fun a => a.names = []).filter fun a => ¬ Fixed a.nargs).length ≤ 1

instance (p : Parser) : Decidable (Definite p) := by unfold Definite; infer_instance

/-- All strings have values. -/
def Valued (calls : List (Arg × List Text)) : Prop := ∀ c ∈ calls, ∃ v, ValueOf c.1 c.2 v

/-- `w` looks like an option: it starts with a dash, is not only dashes, has no spaces and is not like a negative
number. -/
def OptionLike (w : Text) : Prop :=
  w.head? = some '-' ∧ (∃ c ∈ w, c ≠ '-') ∧ ' ' ∉ w ∧ ∀ c, w[1]? = some c ∨ w[2]? = some c → c.isDigit = false

/-- `w` names an option of the parser. -/
def Names (p : Parser) (w : Text) : Prop :=
  ∃ a ∈ p, ∃ n ∈ a.names, w <+: n ∨ (∃ u v, w = u ++ '=' :: v ∧ ['-', '-'] <+: u ∧ u <+: n) ∨
    ∃ c v, n = ['-', c] ∧ w = '-' :: c :: v

/-- The attributes of the namespace that the tools read (bin/*.py; pgc_agreement passes all of them to
evaluate/agreement.py:41 `run_eval`, by name). -/
def attributes : List (Parser × List String) := [
  (gbStats, ["pattern", "with_all", "format", "with_empty_nodes", "with_failed_parses", "with_punc", "threshold", "legenda"]),
  (pgcAgreement, ["corpus_fns", "annotators", "pickle_fn", "words_only"]),
  (pgcChdir, ["corpus", "verbose", "test", "path_prefix_pair"]),
  (pgcCp, ["target", "source", "overwrite"]),
  (pgcDiff, ["corpus1", "corpus2", "first_annotator", "second_annotator", "with_comments", "with_ident", "relations", "evaluate"]),
  (pgcExtractPhrases, ["corpus", "delimiter", "verbose"]),
  (pgcFromPtc, ["parallel_text_corpora", "source_graphbanks", "target_graphbanks", "source_tag", "target_tag", "source_format",
    "target_format", "relations", "min_token_diff", "max_token_len"]),
  (pgcJoin, ["file", "verbose", "format"]),
  (pgcSplit, ["verbose", "filename", "size", "parts", "format"]),
  (pgcStats, ["pattern", "with_all", "with_empty_nodes", "with_failed_parses", "with_punc", "with_unaligned_roots", "threshold",
    "with_unaligned_graphs", "legenda"]),
  (pgcZip, ["zip_file", "pgc_files"]),
  (ptcChdir, ["corpus", "verbose", "test", "dir"]),
  (ptcDiff, ["true_corpus", "pred_corpus", "tag", "encoding"]),
  (ptcEval, ["true_corpora", "pred_corpora", "tag"]),
  (ptcNToId, ["verbose", "corpus"])]

end Verif.Spec.CommandLine
