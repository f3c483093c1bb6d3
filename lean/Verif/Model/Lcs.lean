import Verif.Py
import Mathlib.Analysis.Real.Sqrt

/-! Model of lib/daeso/string/lcs.py -/
namespace Verif.Lcs
open Verif

variable {α : Type} [DecidableEq α]

/-- The table `lcsLen`: a dict keyed by pairs of (Python) integers. -/
abbrev Table := Py.Dict (Int × Int) Nat

/-- lcs.py:54-59, body of the inner loop. -/
def fillCell (seq1 seq2 : List α) (i j : Nat) (t : Table) : Py Table :=
  if i = 0 ∨ j = 0 then .ok (t.set (i, j) 0)
  else do
    let x ← Py.get seq1 (i - 1)
    let y ← Py.get seq2 (j - 1)
    if x = y then do
      let v ← t.get ((i : Int) - 1, (j : Int) - 1)
      .ok (t.set (i, j) (v + 1))
    else do
      let u ← t.get ((i : Int) - 1, (j : Int))
      let l ← t.get ((i : Int), (j : Int) - 1)
      .ok (t.set (i, j) (max u l))

/-- lcs.py:52-59, the table filling loops. -/
def fill (seq1 seq2 : List α) : Py Table :=
  Py.forRange 0 (seq1.length + 1) Py.Dict.empty fun i t =>
    Py.forRange 0 (seq2.length + 1) t fun j t => fillCell seq1 seq2 i j t

/-- State of the traceback: `i`, `j`, `LCS` (in append order). -/
structure TB (α : Type) where
  i : Int
  j : Int
  out : List α

/-- lcs.py:66 `while lcsLen[i,j]`. -/
def tbCond (t : Table) (s : TB α) : Py Bool := do
  let v ← t.get (s.i, s.j)
  .ok (v ≠ 0)

/-- lcs.py:67-68. -/
def goUp (t : Table) (fuel : Nat) (s : TB α) : Py (TB α) :=
  Py.whileLoop (fun s => do
      let v ← t.get (s.i, s.j)
      let u ← t.get (s.i - 1, s.j)
      .ok (v = u))
    (fun s => .ok { s with i := s.i - 1 }) fuel s

/-- lcs.py:69-70. -/
def goLeft (t : Table) (fuel : Nat) (s : TB α) : Py (TB α) :=
  Py.whileLoop (fun s => do
      let v ← t.get (s.i, s.j)
      let l ← t.get (s.i, s.j - 1)
      .ok (v = l))
    (fun s => .ok { s with j := s.j - 1 }) fuel s

/-- lcs.py:66-73, body of the traceback loop. -/
def tbBody (seq1 : List α) (t : Table) (fuel : Nat) (s : TB α) : Py (TB α) := do
  let s ← goUp t fuel s
  let s ← goLeft t fuel s
  let i := s.i - 1
  let j := s.j - 1
  let x ← Py.getI seq1 i
  .ok { i := i, j := j, out := s.out ++ [x] }

/-- lcs.py:42-84 `longest_common_subsequence` (= `lcs`, line 102).  `fuel` bounds each `while` loop.
Simplification: the final conversion to str/tuple (lines 80-88) is not modelled; the result is the
list of elements. -/
def lcs (fuel : Nat) (seq1 seq2 : List α) : Py (List α) := do
  let t ← fill seq1 seq2
  let s ← Py.whileLoop (tbCond t) (tbBody seq1 t fuel) fuel
    { i := seq1.length, j := seq2.length, out := [] }
  .ok s.out.reverse

/-- lcs.py:87-95 `normalized_lcs`, with the float replaced by a real number. -/
noncomputable def normalized (fuel : Nat) (seq1 seq2 : List α) : Py ℝ := do
  let c ← lcs fuel seq1 seq2
  if seq1.length * seq2.length = 0 then .ok 0   -- except ZeroDivisionError
  else .ok (c.length / Real.sqrt ((seq1.length * seq2.length : Nat) : ℝ))

end Verif.Lcs
