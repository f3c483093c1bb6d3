import Verif.Py
import Verif.PyDict
import Verif.Model.Etree
import Verif.Model.DaesoGraph
import Mathlib.Data.Rat.Floor

/-! Model of lib/daeso/stats/table.py:33-189: tables of statistics, how they are written and how they are read.
Floats are exact rational numbers, and `float(s)` accepts digits with at most one point and a sign, not exponents, "inf"
or "nan".  `ws` is the white space test of `strip` and `split`. -/
namespace Verif.StatsTable
open Verif Verif.Etree Verif.DaesoGraph

/-- table.py:33-55: the values of a column, by its type. -/
inductive Cells where
  | string (l : List Text)
  | count (l : List Int)
  | other (l : List ℚ)
  deriving DecidableEq

/-- table.py:33-46: a column (`width` is always 8 and `prec` always 2, whatever the constructor is given). -/
structure Column where
  label : Text
  descr : Text
  cells : Cells
  overall : Option ℚ
  deriving DecidableEq

/-- table.py:72-83: the columns in order; the keys of the dictionary are the labels. -/
abbrev Table := List Column

/-- The number of values in a column: `len(c)`. -/
def Cells.len : Cells → Nat
  | .string l => l.length
  | .count l => l.length
  | .other l => l.length

/-- table.py:37-46: the empty column of a type. -/
def Cells.ofType (type : Text) : Cells :=
  if type = "count".toList then .count [] else if type = "string".toList then .string [] else .other []

/-- table.py:49-55 `Column.grow`. -/
def Cells.grow (n : Nat) : Cells → Cells
  | .count l => .count (l ++ List.replicate n 0)
  | .string l => .string (l ++ List.replicate n [])
  | .other l => .other (l ++ List.replicate n 0)

/-- table.py:97-99 `StatsTable.grow`. -/
def grow (n : Nat) (t : Table) : Table := t.map fun c => { c with cells := c.cells.grow n }

/-- table.py:86-94 `is_empty`. -/
def isEmpty (t : Table) : Bool := t.all fun c => decide (c.cells.len = 0)

/-- `s.split("\n")`. -/
def splitLines : Text → List Text
  | [] => [[]]
  | c :: cs => if c = '\n' then [] :: splitLines cs else match splitLines cs with
    | l :: ls => (c :: l) :: ls
    | [] => [[c]]

/-- `self[label] = column` in an ordered dictionary: an old label keeps its place. -/
def setColumn (t : Table) (c : Column) : Table :=
  if t.any fun d => d.label = c.label then t.map fun d => if d.label = c.label then c else d else t ++ [c]

/-- table.py:77-83: one line of the definition of the columns. -/
def initStep (ws : Char → Bool) (size : Nat) (line : Text) (t : Table) : Py Table :=
  match splitWs ws (strip ws line) with
  | [] => .ok t
  | [_] => .error .indexError
  | label :: type :: words =>
    .ok (setColumn t ⟨label, join words, (Cells.ofType type).grow size, none⟩)

/-- table.py:74-83 `StatsTable.__init__`, for the definition of the columns of the subclass. -/
def init (ws : Char → Bool) (columnsDef : Text) (size : Nat) : Py Table :=
  Py.forIn (splitLines columnsDef) [] (initStep ws size)

/-! ### Writing -/

/-- `s.ljust(w)`, `"%-" + w + "s" % s`. -/
def ljust (w : Nat) (s : Text) : Text := s ++ List.replicate (w - s.length) ' '

/-- `s.rjust(w)`. -/
def rjust (w : Nat) (s : Text) : Text := List.replicate (w - s.length) ' ' ++ s

/-- `"%d" % n`. -/
def showInt (n : Int) : Text := if n < 0 then '-' :: Nat.toDigits 10 n.natAbs else Nat.toDigits 10 n.natAbs

/-- The nearest integer of a number that is not negative, halves to the even one. -/
def roundEven (q : ℚ) : Nat :=
  let n := ⌊q⌋₊
  if q - n < 1/2 then n else if 1/2 < q - n then n + 1 else if n % 2 = 0 then n else n + 1

/-- The last two digits. -/
def twoDigits (n : Nat) : Text := [Nat.digitChar (n / 10 % 10), Nat.digitChar (n % 10)]

/-- `"%.2f" % q`. -/
def showFixed (q : ℚ) : Text :=
  let h := roundEven (|q| * 100)
  (if q < 0 then ['-'] else []) ++ Nat.toDigits 10 (h / 100) ++ '.' :: twoDigits h

/-- `int(q)`, as in `"%d" % q`. -/
def truncate (q : ℚ) : Int := if q < 0 then ⌈q⌉ else ⌊q⌋

/-- table.py:58-67 `get_width`, 42, 109-118: the width of a column. -/
def width (c : Column) : Nat := match c.cells with
  | .string l => max c.label.length ((l.map List.length).foldr max 0) + 2
  | _ => 8

/-- table.py:109-119: the head of a column. -/
def headCell (c : Column) : Text := match c.cells with
  | .string _ => ljust (width c) c.label
  | _ => rjust (width c) c.label

/-- table.py:109-120, 135-136: a value of a column. -/
def bodyCell (c : Column) (i : Nat) : Text := match c.cells with
  | .string l => ljust (width c) (l.getD i [])
  | .count l => rjust (width c) (showInt (l.getD i 0))
  | .other l => rjust (width c) (showFixed (l.getD i 0))

/-- table.py:122-127: the overall value of a column. -/
def overallCell (c : Column) : Text := match c.overall, c.cells with
  | none, _ => List.replicate (width c) ' '
  | some q, .count _ => rjust (width c) (showInt (truncate q))
  | some q, _ => rjust (width c) (showFixed q)

/-- table.py:103, 129: `tot_width`. -/
def totWidth (t : Table) : Nat := (t.map width).sum

/-- table.py:135: `zip(*self.values())` stops at the end of the shortest column; without columns there are no rows. -/
def rowCount : Table → Nat
  | [] => 0
  | [c] => c.cells.len
  | c :: cs => min c.cells.len (rowCount cs)

/-- table.py:131, 135-136: a line of the body. -/
def bodyLine (t : Table) (i : Nat) : Text := (t.map fun c => bodyCell c i).flatten ++ ['\n']

/-- table.py:133, 138: a separator. -/
def rule (t : Table) : Text := List.replicate (totWidth t) '-' ++ ['\n']

/-- table.py:148-151: a line of the legenda. -/
def legendaLine (i : Nat) (c : Column) : Text :=
  ljust 4 (showInt (i + 1)) ++ ljust 8 c.label ++ c.descr ++ ['\n']

/-- table.py:146-151 `write_legenda`. -/
def writeLegenda (t : Table) : Text := (t.mapIdx legendaLine).flatten

/-- table.py:102-143 `write`. -/
def write (legenda : Bool) (t : Table) : Text :=
  (t.map headCell).flatten ++ '\n' :: rule t ++ ((List.range (rowCount t)).map (bodyLine t)).flatten ++
  rule t ++ (t.map overallCell).flatten ++ "\n\n\n".toList ++
  (if legenda then "\n\n".toList ++ writeLegenda t else [])

/-! ### Reading -/

/-- The lines of a file, with their ends (`for l in file`). -/
def fileLines : Text → List Text
  | [] => []
  | c :: cs => if c = '\n' then ['\n'] :: fileLines cs else match fileLines cs with
    | [] => [[c]]
    | l :: ls => (c :: l) :: ls

/-- Digits, and at least one. -/
def allDigits (s : Text) : Bool := decide (s ≠ []) && s.all Char.isDigit

/-- Sign and rest of a number. -/
def signOf : Text → Int × Text
  | '-' :: s => (-1, s)
  | '+' :: s => (1, s)
  | s => (1, s)

/-- `int(s)`. -/
def parseInt (s : Text) : Py Int :=
  let r := signOf s
  if allDigits r.2 then .ok (r.1 * Nat.ofDigitChars 10 r.2 0) else .error .valueError

/-- `float(s)`, of digits with at most one point. -/
def parseFloat (s : Text) : Py ℚ :=
  let r := signOf s
  let a := r.2.takeWhile (· ≠ '.')
  let b := (r.2.dropWhile (· ≠ '.')).drop 1
  if allDigits (a ++ b) then .ok (r.1 * (Nat.ofDigitChars 10 (a ++ b) 0 : ℚ) / 10 ^ b.length) else .error .valueError

/-- table.py:178-184: `col.append(…)`. -/
def appendVal (v : Text) : Cells → Py Cells
  | .string l => .ok (.string (l ++ [v]))
  | .count l => match parseInt v with
    | .error e => .error e
    | .ok n => .ok (.count (l ++ [n]))
  | .other l => match parseFloat v with
    | .error e => .error e
    | .ok q => .ok (.other (l ++ [q]))

/-- table.py:177-184: the loop over the columns and the values of a line; the columns as they are left and the exception
that was raised. -/
def appendRow : Table → List Text → Table × Option Err
  | c :: cs, v :: vs => match appendVal v c.cells with
    | .error e => (c :: cs, some e)
    | .ok x => ({ c with cells := x } :: (appendRow cs vs).1, (appendRow cs vs).2)
  | cs, _ => (cs, none)

/-- table.py:188-189 `is_separator`. -/
def isSeparator (l : Text) : Bool := "----".toList.isPrefixOf l

/-- table.py:160-185: the loop over the lines, after `seps` separators. -/
def readLines (ws : Char → Bool) : List Text → Nat → Table → Table × Option Err
  | [], _, t => (t, some .eofError)
  | l :: ls, seps, t =>
    if strip ws l = [] then readLines ws ls seps t
    else if isSeparator l then if seps + 1 = 2 then (t, none) else readLines ws ls (seps + 1) t
    else if seps = 1 then match appendRow t (splitWs ws (strip ws l)) with
      | (t', some e) => (t', some e)
      | (t', none) => readLines ws ls seps t'
    else readLines ws ls seps t

/-- table.py:154-185 `read`, of a file that can be opened and has a name: the table as it is left and the exception that
was raised. -/
def read (ws : Char → Bool) (file : Text) (t : Table) : Table × Option Err := readLines ws (fileLines file) 0 t

end Verif.StatsTable
