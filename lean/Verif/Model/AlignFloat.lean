import Verif.Model.NeedlemanWunsch
import Verif.Model.SmithWaterman

/-! Model of lib/daeso/string/needleman_wunsch.py:36-114, smith_waterman.py:38-128 and waterman_eggert.py:46-254 with
rounded arithmetic: a sum of scores, and the product of a gap cost and a number of elements, is rounded by a function `fl`.
With `fl` the identity these are the models of NeedlemanWunsch and SmithWaterman (integers); with the rounding of floats
(without overflow to inf and underflow) they are the functions for scores that are floats.  Comparisons are exact in
Python. -/
namespace Verif.NW
open Verif Verif.Align

variable {α : Type}

/-- needleman_wunsch.py:80-84: the borders `scores[i,0]` and `scores[0,j]`. -/
def borderFl (fl : ℚ → ℚ) (seq1 seq2 : List α) (gap : α → ℚ) : Py Matrix := do
  let t : Matrix := Py.Dict.empty.set (0, 0) (0, .T)
  let t ← Py.forRange 1 (seq1.length + 1) t fun i t => do
    let x ← Py.get seq1 (i - 1)
    .ok (t.set (i, 0) (fl (gap x * i), .U))
  Py.forRange 1 (seq2.length + 1) t fun j t => do
    let y ← Py.get seq2 (j - 1)
    .ok (t.set (0, j) (fl (gap y * j), .L))

/-- needleman_wunsch.py:88-91: one inner cell. -/
def cellFl (fl : ℚ → ℚ) (seq1 seq2 : List α) (sim : α → α → ℚ) (gap : α → ℚ) (i j : Nat) (t : Matrix) : Py Cell := do
  let x ← Py.get seq1 (i - 1)
  let y ← Py.get seq2 (j - 1)
  let up ← t.get ((i : Int) - 1, (j : Int))
  let diag ← t.get ((i : Int) - 1, (j : Int) - 1)
  let left ← t.get ((i : Int), (j : Int) - 1)
  .ok (cmax (cmax (fl (up.1 + gap x), .U) (fl (diag.1 + sim x y), .D)) (fl (left.1 + gap y), .L))

/-- needleman_wunsch.py:36-114 `needleman_wunsch`; `fuel` bounds the traceback loop. -/
def needlemanWunschFl (fl : ℚ → ℚ) (fuel : Nat) (seq1 seq2 : List α) (sim : α → α → ℚ) (gap : α → ℚ) :
    Py (Matrix × List (Int × Int)) := do
  let t ← borderFl fl seq1 seq2 gap
  let t ← fillInner seq1.length seq2.length (cellFl fl seq1 seq2 sim gap) t
  let s ← Py.whileLoop (fun s => .ok (decide (s.i + s.j > 0))) (traceStep t) fuel
    { i := seq1.length, j := seq2.length, alignment := [] }
  .ok (t, s.alignment)

end Verif.NW

namespace Verif.SW
open Verif Verif.Align

variable {α : Type}

/-- smith_waterman.py:94-99, waterman_eggert.py:146-155 `max_score`. -/
def maxScoreFl (fl : ℚ → ℚ) (seq1 seq2 : List α) (sim : α → α → ℚ) (gap : α → ℚ) (i j : Nat) (t : Matrix) :
    Py Cell := do
  let x ← Py.get seq1 (i - 1)
  let y ← Py.get seq2 (j - 1)
  let up ← t.get ((i : Int) - 1, (j : Int))
  let diag ← t.get ((i : Int) - 1, (j : Int) - 1)
  let left ← t.get ((i : Int), (j : Int) - 1)
  .ok (cmax (cmax (cmax (fl (up.1 + gap x), .U) (fl (diag.1 + sim x y), .D)) (fl (left.1 + gap y), .L)) (0, .T))

/-- smith_waterman.py:83-99, waterman_eggert.py:115-143 `make_matrix`. -/
def makeMatrixFl (fl : ℚ → ℚ) (seq1 seq2 : List α) (sim : α → α → ℚ) (gap : α → ℚ) : Py Matrix := do
  let t ← border seq1 seq2
  fillInner seq1.length seq2.length (maxScoreFl fl seq1 seq2 sim gap) t

/-- smith_waterman.py:38-128 `smith_waterman`. -/
def smithWatermanFl (fl : ℚ → ℚ) (fuel : Nat) (seq1 seq2 : List α) (sim : α → α → ℚ) (gap : α → ℚ) :
    Py (Matrix × List (Int × Int)) := do
  let t ← makeMatrixFl fl seq1 seq2 sim gap
  let p ← bestPair seq1.length seq2.length t
  let a ← traceAlignment fuel t p
  .ok (t, a)

/-- waterman_eggert.py:238-244: recalculate column `j` from row `k` on (`cnt` rows left), until a score does not change;
`ms i j` is `max_score` for a cell. -/
def recalcColW (ms : Nat → Nat → Matrix → Py Cell) (j : Nat) : (cnt k : Nat) → Matrix → Py Matrix
  | 0, _, t => .ok t
  | cnt + 1, k, t => do
    let c ← ms k j t
    let old ← t.get (k, j)
    if c = old then .ok t
    else recalcColW ms j cnt (k + 1) (t.set (k, j) c)

/-- waterman_eggert.py:248-254: recalculate row `i` from column `l` on. -/
def recalcRowW (ms : Nat → Nat → Matrix → Py Cell) (i : Nat) : (cnt l : Nat) → Matrix → Py Matrix
  | 0, _, t => .ok t
  | cnt + 1, l, t => do
    let c ← ms i l t
    let old ← t.get (i, l)
    if c = old then .ok t
    else recalcRowW ms i cnt (l + 1) (t.set (i, l) c)

/-- waterman_eggert.py:231-254, body of the loop over the alignment, for sequences with `n` and `m` elements. -/
def recalcPairW (ms : Nat → Nat → Matrix → Py Cell) (n m : Nat) (p : Int × Int) (t : Matrix) : Py Matrix := do
  let i := p.1.toNat + 1
  let j := p.2.toNat + 1
  let t := t.set (i, j) (0, .T)
  let t ← recalcColW ms j (n - i) (i + 1) t
  recalcRowW ms i (m - j) (j + 1) t

/-- waterman_eggert.py:224-254 `recalculate_matrix`. -/
def recalculateW (ms : Nat → Nat → Matrix → Py Cell) (n m : Nat) (al : List (Int × Int)) (t : Matrix) : Py Matrix :=
  Py.forIn al t (recalcPairW ms n m)

/-- waterman_eggert.py:93-110, the loop body. -/
def weBodyW (ms : Nat → Nat → Matrix → Py Cell) (tfuel n m : Nat) (s : WEState) : Py WEState := do
  let best := findBestScore n m s.t
  if best.1 = 0 then .ok { s with stop := true }
  else do
    let al ← traceAlignment tfuel s.t best.2
    let t ← recalculateW ms n m al s.t
    .ok { t := t, all := s.all ++ [al], stop := false, scores := s.scores ++ [s.t] }

/-- waterman_eggert.py:46-112 `waterman_eggert`, the list of alignments. `fuel` bounds the main loop, `tfuel` the
traceback. -/
def watermanEggertFl (fl : ℚ → ℚ) (fuel tfuel : Nat) (seq1 seq2 : List α) (sim : α → α → ℚ) (gap : α → ℚ)
    (limit : Nat) : Py (List (List (Int × Int))) := do
  let t ← makeMatrixFl fl seq1 seq2 sim gap
  let s ← Py.whileLoop (weCond limit) (weBodyW (maxScoreFl fl seq1 seq2 sim gap) tfuel seq1.length seq2.length) fuel
    { t := t, all := [], stop := false }
  .ok s.all

end Verif.SW
