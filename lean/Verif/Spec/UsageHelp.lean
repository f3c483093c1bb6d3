import Verif.Model.ArgHelp

/-! What it means to declare an argument, and what the usage and the help show. Of the model, only the descriptions of calls and
arguments (`Decl`, `Arg`, `Shown`) are used here. -/
namespace Verif.Spec.UsageHelp
open Verif Verif.Argparse Verif.ArgHelp

/-! ### Declaring arguments -/

/-- A name that an option can have. -/
def OptionName (n : Text) : Prop := n.head? = some '-' ∧ ∃ c ∈ n, c ≠ '-'

/-- The attribute for an option without `dest`: its first name that starts with two dashes, or else its first name, without the
dashes at the start and with the others as underscores. -/
def DestOf (names : List Text) (dest : String) : Prop :=
  ∃ n k r, n = List.replicate k '-' ++ r ∧ r.head? ≠ some '-' ∧ dest.toList = r.map (fun c => if c = '-' then '_' else c) ∧
    ((∃ before after, names = before ++ n :: after ∧ ['-', '-'] <+: n ∧ ∀ m ∈ before, ¬ ['-', '-'] <+: m) ∨
      names.head? = some n ∧ ∀ m ∈ names, ¬ ['-', '-'] <+: m)

/-- What the action of the call makes of its keywords: the argument stores (or collects) what is given, or stores a constant, or
asks for the help or the version, and takes no values then. -/
inductive Acts (d : Decl) : Nargs → Act → Option Val → Ty → Prop
  | store (k : Nargs) : d.action = .store → d.nargs.getD .one = k → k ≠ .num 0 →
      Acts d k .store (d.default.getD (some .none)) (d.ty.getD .identity)
  | append (k : Nargs) : d.action = .append → d.nargs.getD .one = k → k ≠ .num 0 →
      Acts d k .append (d.default.getD (some .none)) (d.ty.getD .identity)
  | storeTrue : d.action = .storeTrue → d.nargs = none → d.ty = none → d.metavar = none →
      Acts d (.num 0) (.const (.bool true)) (d.default.getD (some (.bool false))) .identity
  | storeFalse : d.action = .storeFalse → d.nargs = none → d.ty = none → d.metavar = none →
      Acts d (.num 0) (.const (.bool false)) (d.default.getD (some (.bool true))) .identity
  | help : d.action = .help → d.nargs = none → d.ty = none → d.metavar = none → Acts d (.num 0) .help (d.default.getD none) .identity
  | version : d.action = .version → d.nargs = none → d.ty = none → d.metavar = none →
      Acts d (.num 0) .version (d.default.getD none) .identity

/-- The action is that of the help or of the version. -/
def Decl.Asks (d : Decl) : Prop := d.action = .help ∨ d.action = .version

instance (d : Decl) : Decidable (Decl.Asks d) := by unfold Decl.Asks; infer_instance

/-- The argument that a call declares. An option: good names, and the attribute that is given or follows from the names. A
positional argument: one name (or `dest` alone), required unless it can do without values (`?`, or `*` with a default). -/
inductive Declares (d : Decl) : Shown → Prop
  | option (s : Shown) : (∀ n ∈ d.names, OptionName n) → d.names ≠ [] → s.arg.names = d.names →
      (∃ x, (d.dest = some x ∨ d.dest = none ∧ DestOf d.names x) ∧
        s.arg.dest = if Decl.Asks d ∧ d.default.getD none = none then none else some x) →
      Acts d s.arg.nargs s.arg.act s.arg.default s.arg.ty → s.arg.const = .none →
      (Decl.Asks d → d.required = none) → s.arg.required = d.required.getD false → s.metavar = d.metavar → s.help = d.help →
      Declares d s
  | positional (s : Shown) (x : Text) : (d.names = [x] ∧ d.dest = none ∧ x.head? ≠ some '-' ∧ x ≠ [] ∨
        d.names = [] ∧ d.dest = some (String.ofList x)) →
      s.arg.names = [] → s.arg.dest = (if Decl.Asks d ∧ d.default.getD none = none then none else some (String.ofList x)) →
      Acts d s.arg.nargs s.arg.act s.arg.default s.arg.ty → s.arg.const = .none → d.required = none →
      (s.arg.required = true ↔ d.nargs ≠ some .opt ∧ (d.nargs = some .star → d.default = none)) →
      (Decl.Asks d → s.arg.required = false) →
      s.metavar = d.metavar → s.help = d.help → Declares d s

/-- No two arguments have a name in common. -/
def Apart (l : List Shown) : Prop := l.Pairwise fun a b => ∀ n ∈ a.arg.names, n ∉ b.arg.names

/-! ### Usage -/

/-- Texts with single spaces between them. -/
def spaces (l : List Text) : Text := [' '].intercalate l

/-- What stands for a value: the metavar, or else the attribute, in capitals for an option. -/
def label (s : Shown) : Text :=
  s.metavar.getD (let d := (s.arg.dest.getD "").toList; if s.arg.names = [] then d else d.map Char.toUpper)

/-- The values of an argument: `X`, `[X]`, `[X [X ...]]`, `X [X ...]` or `X X X`. -/
def values (x : Text) : Nargs → List Text
  | .one => [x]
  | .opt => ['[' :: x ++ "]".toList]
  | .star => ['[' :: x ++ " [".toList ++ x ++ " ...]]".toList]
  | .plus => [x, '[' :: x ++ " ...]".toList]
  | .num n => List.replicate n x

/-- What the usage shows of an argument, in parts that are not broken: its first name, if it has one, and its values, in brackets
and as one part for an option that can be left out. -/
def units (s : Shown) : List Text :=
  match s.arg.names with
  | [] => values (label s) s.arg.nargs
  | n :: _ =>
    let l := n :: values (label s) s.arg.nargs
    if s.arg.required then l else ['[' :: spaces l ++ "]".toList]

/-- A text without white space and brackets. -/
def PlainText (t : Text) : Prop := t ≠ [] ∧ ∀ c ∈ t, c ∉ "[]() \t\n\x0b\x0c\r".toList

/-- Names and labels are plain; a positional argument takes values. -/
structure Plain (s : Shown) : Prop where
  names : ∀ n ∈ s.arg.names, PlainText n
  label : s.arg.nargs ≠ .num 0 → PlainText (label s)
  positional : s.arg.names = [] → s.arg.nargs ≠ .num 0

/-- The units laid out after `usage: ` and the name of the program: each line has at most `w` characters or at most one unit; the lines
after the first are indented. -/
def Layout (w : Int) (prog : Text) (us : List Text) (t : Text) : Prop :=
  ∃ (k : Nat) (first : List Text) (rest : List (List Text)),
    t = "usage: ".toList ++ spaces (prog :: first) ++ (rest.flatMap fun l => '\n' :: List.replicate k ' ' ++ spaces l) ++ "\n".toList ∧
    first ++ rest.flatten = us ∧
    (first = [] ∨ (("usage: ".toList ++ spaces (prog :: first)).length : Int) ≤ w) ∧
    ∀ l ∈ rest, l.length ≤ 1 ∨ ((k + (spaces l).length : Nat) : Int) ≤ w

/-! ### Help -/

/-- The lines of a text. -/
def lines : Text → List Text
  | [] => [[]]
  | c :: t => if c = '\n' then [] :: lines t else
    match lines t with
    | [] => [[c]]
    | l :: r => (c :: l) :: r

/-- The lines that are not empty. -/
def solid (t : Text) : List Text := (lines t).filter (· ≠ [])

/-- The entry for an argument: all its names with their values, or the label of a positional argument. -/
def entry (s : Shown) : Text :=
  if s.arg.names = [] then label s
  else ", ".toList.intercalate (s.arg.names.map fun n => spaces (n :: values (label s) s.arg.nargs))

/-- The column in which help texts start: four after the longest entry, but at most 24. -/
def Column (l : List Shown) (k : Nat) : Prop :=
  k = 24 ∧ (∃ s ∈ l, 20 ≤ (entry s).length) ∨
    k < 24 ∧ (∀ s ∈ l, (entry s).length + 4 ≤ k) ∧ ∃ s ∈ l, (entry s).length + 4 = k

/-- The lines for an argument: the entry in the third column, and the lines of its help text in column `k`, the first of them after the
entry if there are two spaces left. -/
def argLines (k : Nat) (s : Shown) (help : List Text) : List Text :=
  let e := "  ".toList ++ entry s
  match help with
  | [] => [e]
  | l :: r =>
    if e.length + 2 ≤ k then (e ++ List.replicate (k - e.length) ' ' ++ l) :: r.map (List.replicate k ' ' ++ ·)
    else e :: (l :: r).map (List.replicate k ' ' ++ ·)

/-- White space. -/
def White (c : Char) : Prop := c ∈ " \t\n\x0b\x0c\r".toList

instance (c : Char) : Decidable (White c) := by unfold White; infer_instance

/-- The characters of a text that are not white space. -/
def letters (t : Text) : Text := t.filter fun c => ¬ White c

/-- The text is broken into lines of at most `w` characters: nothing but white space is lost. -/
structure Wraps (t : Text) (w : Int) (l : List Text) : Prop where
  letters : letters l.flatten = letters t
  width : ∀ x ∈ l, x ≠ [] ∧ (x.length : Int) ≤ w ∧ '\n' ∉ x

/-- `textwrap.wrap`: it breaks texts (in which white space is single spaces) into lines, if the width is positive. -/
structure Lawful (o : Outside) : Prop where
  wraps : ∀ t w, 0 < w → (∀ c ∈ t, White c → c = ' ') → ∃ l, o.wrap t w = .ok l ∧ Wraps t w l
  narrow : ∀ t w, w ≤ 0 → o.wrap t w = .error .valueError

/-- The help text of an argument can be shown: there is none, or it is not blank and without `%`. -/
def Helped (s : Shown) : Prop := ∀ h, s.help = some h → h = [] ∨ '%' ∉ h ∧ ∃ c ∈ h, ¬ White c

/-- The lines of the help text of an argument; none without it. -/
def HelpLines (s : Shown) (w : Int) (ls : List Text) : Prop :=
  (s.help.getD [] = [] → ls = []) ∧ (s.help.getD [] ≠ [] → Wraps (s.help.getD []) w ls)

/-- The lines of the description or the epilog. -/
def TextLines (raw : Bool) (w : Int) (d : Option Text) (ls : List Text) : Prop :=
  match d with
  | none => ls = []
  | some d => (raw = true → ls = solid d) ∧ (raw = false → Wraps d w ls)

/-- A section, if there are arguments for it. -/
def sectionLines (heading : Text) (l : List Shown) (k : Nat) (f : Shown → List Text) : List Text :=
  if l = [] then [] else heading :: l.flatMap fun s => argLines k s (f s)

end Verif.Spec.UsageHelp
