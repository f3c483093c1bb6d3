import Verif.PyNum
import Verif.Model.HitaextDoc

/-! Model of lib/daeso/ptc/evaluate.py:33-134.  A file name stands for the document in it: `read` is
`HitaextDoc(file=...)`, which may raise.  What is printed is a list of rows; the table head, the lines and the number of
printed decimals are left out, and so are the rows printed before an exception. -/
namespace Verif.PtcEval
open Verif Verif.HitaextDoc

/-- The ids of the two ends of a link; `None` is a missing attribute. -/
abbrev Ids := Option String × Option String

/-- evaluate.py:92-96: the loop body; a set is a list without repetitions. -/
def collect (tag : String) (s : List Ids) (l : Link) : List Ids :=
  if l.fromTag = some tag ∧ l.toTag = some tag then
    if (l.fromId, l.toId) ∈ s then s else s ++ [(l.fromId, l.toId)]
  else s

/-- evaluate.py:88-98 `get_alignment`. -/
def getAlignment (d : Hitaext) (tag : String) : List Ids := d.links.foldl (collect tag) []

/-- evaluate.py:101-110 `count_alignment`. -/
def countAlignment (true' pred : Hitaext) (tag : String) : Nat × Nat × Nat :=
  let a := getAlignment true' tag
  let b := getAlignment pred tag
  (a.length, b.length, (a.filter fun x => x ∈ b).length)

/-- A line of the table. -/
structure Row where
  nTrue : Nat
  nPred : Nat
  nCommon : Nat
  ratio : ℚ
  precision : ℚ
  recall : ℚ
  f : ℚ
  deriving DecidableEq

/-- evaluate.py:113-134 `compute_scores`, with the counts.  Exact numbers instead of floats. -/
def computeScores (nTrue nPred nCommon : Nat) : Py Row := do
  let ratio ← Py.catchZeroDiv 0 (Py.div nPred nTrue)
  let recall ← Py.catchZeroDiv 0 (Py.div nCommon nTrue)
  let precision ← Py.catchZeroDiv 0 (Py.div nCommon nPred)
  let f ← Py.catchZeroDiv 0 (Py.div (2 * precision * recall) (precision + recall))
  return ⟨nTrue, nPred, nCommon, ratio, precision, recall, f⟩

/-- posixpath.basename: what follows the last slash. -/
def basename (p : String) : String := String.ofList (p.toList.reverse.takeWhile (· ≠ '/')).reverse

/-- evaluate.py:54-72: one pair of files; the sums and the rows so far. -/
def evalPair (read : String → Py Hitaext) (tag : String) (x : (String × String) × String)
    (s : (Nat × Nat × Nat) × List (Row × String)) : Py ((Nat × Nat × Nat) × List (Row × String)) := do
  let t ← read x.1.1
  let p ← read x.1.2
  let n := countAlignment t p tag
  let r ← computeScores n.1 n.2.1 n.2.2
  return ((s.1.1 + n.1, s.1.2.1 + n.2.1, s.1.2.2 + n.2.2), s.2 ++ [(r, x.2)])

/-- evaluate.py:50-52: `if not labels`. -/
def labelsOf (pairs : List (String × String)) (labels : Option (List String)) : List String :=
  match labels with
  | none | some [] => pairs.map fun x => basename x.2
  | some l => l

/-- evaluate.py:33-85 `eval_alignment`: the rows with their labels, and the last row. -/
def evalAlignment (read : String → Py Hitaext) (pairs : List (String × String)) (tag : String)
    (labels : Option (List String)) : Py (List (Row × String) × Row) := do
  let s ← Py.forIn (pairs.zip (labelsOf pairs labels)) ((0, 0, 0), []) (evalPair read tag)
  let r ← computeScores s.1.1 s.1.2.1 s.1.2.2
  return (s.2, r)

end Verif.PtcEval
