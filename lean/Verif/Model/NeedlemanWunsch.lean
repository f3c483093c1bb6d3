import Verif.Model.Align

/-! Model of lib/daeso/string/needleman_wunsch.py:36-114 -/
namespace Verif.NW
open Verif Verif.Align

variable {α : Type}

/-- needleman_wunsch.py:80-84: the borders `scores[i,0]` and `scores[0,j]`. -/
def border (seq1 seq2 : List α) (gap : α → ℚ) : Py Matrix := do
  let t : Matrix := Py.Dict.empty.set (0, 0) (0, .T)
  let t ← Py.forRange 1 (seq1.length + 1) t fun i t => do
    let x ← Py.get seq1 (i - 1)
    .ok (t.set (i, 0) (gap x * i, .U))
  Py.forRange 1 (seq2.length + 1) t fun j t => do
    let y ← Py.get seq2 (j - 1)
    .ok (t.set (0, j) (gap y * j, .L))

/-- needleman_wunsch.py:88-91: one inner cell. -/
def cell (seq1 seq2 : List α) (sim : α → α → ℚ) (gap : α → ℚ) (i j : Nat) (t : Matrix) : Py Cell := do
  let x ← Py.get seq1 (i - 1)
  let y ← Py.get seq2 (j - 1)
  let up ← t.get ((i : Int) - 1, (j : Int))
  let diag ← t.get ((i : Int) - 1, (j : Int) - 1)
  let left ← t.get ((i : Int), (j : Int) - 1)
  .ok (cmax (cmax (up.1 + gap x, .U) (diag.1 + sim x y, .D)) (left.1 + gap y, .L))

/-- needleman_wunsch.py:36-114 `needleman_wunsch`; `fuel` bounds the traceback loop. -/
def needlemanWunsch (fuel : Nat) (seq1 seq2 : List α) (sim : α → α → ℚ) (gap : α → ℚ) :
    Py (Matrix × List (Int × Int)) := do
  let t ← border seq1 seq2 gap
  let t ← fillInner seq1.length seq2.length (cell seq1 seq2 sim gap) t
  let s ← Py.whileLoop (fun s => .ok (decide (s.i + s.j > 0))) (traceStep t) fuel
    { i := seq1.length, j := seq2.length, alignment := [] }
  .ok (t, s.alignment)

end Verif.NW
