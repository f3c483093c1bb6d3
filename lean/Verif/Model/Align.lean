import Verif.PyNum

/-! Shared vocabulary of needleman_wunsch.py, smith_waterman.py and waterman_eggert.py: score cells
`(score, step)`, tuple comparison, and the matrix as a dict over integer pairs. -/
namespace Verif.Align
open Verif

/-- The step letters "T", "D", "U", "L". -/
inductive Dir | T | D | U | L
  deriving DecidableEq, Repr

/-- Rank of the letter in string order: "D" < "L" < "T" < "U". -/
def Dir.rank : Dir → Nat
  | .D => 0
  | .L => 1
  | .T => 2
  | .U => 3

/-- A matrix entry `(score, step)`. Simplification: scores are exact rationals. -/
abbrev Cell := ℚ × Dir

/-- Python tuple comparison `a < b`. -/
def Cell.lt (a b : Cell) : Bool := a.1 < b.1 || (a.1 == b.1 && a.2.rank < b.2.rank)

/-- Python `max(a, b)`. -/
def cmax (a b : Cell) : Cell := if Cell.lt a b then b else a

/-- `scores`: dict from pairs of integers to cells. -/
abbrev Matrix := Py.Dict (Int × Int) Cell

/-- `for i in range(1, n+1): for j in range(1, m+1): scores[i, j] = cell(i, j, scores)`
(needleman_wunsch.py:86-91, smith_waterman.py:92-99, waterman_eggert.py:139-155). -/
def fillInner (n m : Nat) (cell : Nat → Nat → Matrix → Py Cell) (t : Matrix) : Py Matrix :=
  Py.forRange 1 (n + 1) t fun i t =>
    Py.forRange 1 (m + 1) t fun j t => do
      let c ← cell i j t
      .ok (t.set (i, j) c)

/-- State of a traceback. -/
structure Trace where
  i : Int
  j : Int
  alignment : List (Int × Int)

/-- Body of the traceback loops (needleman_wunsch.py:98-112, smith_waterman.py:110-126,
waterman_eggert.py:204-219): a "T" cell changes nothing. -/
def traceStep (t : Matrix) (s : Trace) : Py Trace := do
  let c ← t.get (s.i, s.j)
  match c.2 with
  | .U => .ok { s with i := s.i - 1 }
  | .D => .ok { i := s.i - 1, j := s.j - 1, alignment := (s.i - 1, s.j - 1) :: s.alignment }
  | .L => .ok { s with j := s.j - 1 }
  | .T => .ok s

end Verif.Align
