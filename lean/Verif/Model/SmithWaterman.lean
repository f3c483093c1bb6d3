import Verif.Model.Align

/-! Model of lib/daeso/string/smith_waterman.py:38-128 and lib/daeso/string/waterman_eggert.py:46-254 -/
namespace Verif.SW
open Verif Verif.Align

variable {α : Type}

/-- smith_waterman.py:83-90, waterman_eggert.py:130-137: zero borders. -/
def border (seq1 seq2 : List α) : Py Matrix := do
  let t : Matrix := Py.Dict.empty.set (0, 0) (0, .T)
  let t ← Py.forRange 1 (seq1.length + 1) t fun i t => .ok (t.set (i, 0) (0, .U))
  Py.forRange 1 (seq2.length + 1) t fun j t => .ok (t.set (0, j) (0, .L))

/-- smith_waterman.py:94-99, waterman_eggert.py:146-155 `max_score`. -/
def maxScore (seq1 seq2 : List α) (sim : α → α → ℚ) (gap : α → ℚ) (i j : Nat) (t : Matrix) :
    Py Cell := do
  let x ← Py.get seq1 (i - 1)
  let y ← Py.get seq2 (j - 1)
  let up ← t.get ((i : Int) - 1, (j : Int))
  let diag ← t.get ((i : Int) - 1, (j : Int) - 1)
  let left ← t.get ((i : Int), (j : Int) - 1)
  .ok (cmax (cmax (cmax (up.1 + gap x, .U) (diag.1 + sim x y, .D)) (left.1 + gap y, .L)) (0, .T))

/-- smith_waterman.py:83-99, waterman_eggert.py:115-143 `make_matrix`. -/
def makeMatrix (seq1 seq2 : List α) (sim : α → α → ℚ) (gap : α → ℚ) : Py Matrix := do
  let t ← border seq1 seq2
  fillInner seq1.length seq2.length (maxScore seq1 seq2 sim gap) t

/-- The keys of the matrix; Python iterates over them in an unspecified order, which matters
neither here (the entries are sorted) nor in waterman_eggert.py (ties are resolved). -/
def keys (n m : Nat) : List (Int × Int) :=
  (List.range (n + 1)).flatMap fun (i : Nat) =>
    (List.range (m + 1)).map fun (j : Nat) => ((i : Int), (j : Int))

/-- `scores.items()`. -/
def items (n m : Nat) (t : Matrix) : List ((Int × Int) × Cell) :=
  (keys n m).filterMap fun k => (t k).map fun c => (k, c)

/-- Comparison of two `(score, pair)` tuples, smith_waterman.py:102-103. -/
def entryLt (a b : Cell × (Int × Int)) : Bool :=
  Cell.lt a.1 b.1 || (a.1 == b.1 && (a.2.1 < b.2.1 || (a.2.1 == b.2.1 && a.2.2 < b.2.2)))

/-- The last element after sorting: the largest one (`none` for an empty list). -/
def lastSorted : List (Cell × (Int × Int)) → Option (Cell × (Int × Int))
  | [] => none
  | e :: es => some (es.foldl (fun best e => if entryLt best e then e else best) e)

/-- smith_waterman.py:101-104: the pair with the highest positive score; IndexError if there is none. -/
def bestPair (n m : Nat) (t : Matrix) : Py (Int × Int) :=
  let positives := ((items n m t).filter fun e => decide (e.2.1 > 0)).map fun e => (e.2, e.1)
  match lastSorted positives with
  | none => .error .indexError
  | some e => .ok e.2

/-- smith_waterman.py:108-126, waterman_eggert.py:196-221 `trace_alignment`. -/
def traceAlignment (fuel : Nat) (t : Matrix) (p : Int × Int) : Py (List (Int × Int)) := do
  let s ← Py.whileLoop (fun s => do
      let c ← t.get (s.i, s.j)
      .ok (decide (c.1 > 0))) (traceStep t) fuel { i := p.1, j := p.2, alignment := [] }
  .ok s.alignment

/-- smith_waterman.py:38-128 `smith_waterman`. -/
def smithWaterman (fuel : Nat) (seq1 seq2 : List α) (sim : α → α → ℚ) (gap : α → ℚ) :
    Py (Matrix × List (Int × Int)) := do
  let t ← makeMatrix seq1 seq2 sim gap
  let p ← bestPair seq1.length seq2.length t
  let a ← traceAlignment fuel t p
  .ok (t, a)

/-! ### Waterman–Eggert -/

/-- waterman_eggert.py:181-191: body of the loop over `scores.items()`. -/
def bestStep (best : ℚ × (Int × Int)) (e : (Int × Int) × Cell) : ℚ × (Int × Int) :=
  if e.2.1 < best.1 then best
  else if e.2.1 = best.1 ∧ best.2.1 + best.2.2 < e.1.1 + e.1.2 then best
  else if e.2.1 = best.1 ∧ best.2.1 + best.2.2 = e.1.1 + e.1.2 ∧ best.2.1 < e.1.1 then best
  else (e.2.1, e.1)

/-- waterman_eggert.py:158-193 `find_best_score`. -/
def findBestScore (n m : Nat) (t : Matrix) : ℚ × (Int × Int) :=
  (items n m t).foldl bestStep (0, ((n : Int) + 2, (m : Int) + 2))

/-- waterman_eggert.py:238-244: recalculate column `j` from row `k` on (`cnt` rows left), until a score
does not change. -/
def recalcCol (seq1 seq2 : List α) (sim : α → α → ℚ) (gap : α → ℚ) (j : Nat) :
    (cnt k : Nat) → Matrix → Py Matrix
  | 0, _, t => .ok t
  | cnt + 1, k, t => do
    let ms ← maxScore seq1 seq2 sim gap k j t
    let old ← t.get (k, j)
    if ms = old then .ok t
    else recalcCol seq1 seq2 sim gap j cnt (k + 1) (t.set (k, j) ms)

/-- waterman_eggert.py:248-254: recalculate row `i` from column `l` on. -/
def recalcRow (seq1 seq2 : List α) (sim : α → α → ℚ) (gap : α → ℚ) (i : Nat) :
    (cnt l : Nat) → Matrix → Py Matrix
  | 0, _, t => .ok t
  | cnt + 1, l, t => do
    let ms ← maxScore seq1 seq2 sim gap i l t
    let old ← t.get (i, l)
    if ms = old then .ok t
    else recalcRow seq1 seq2 sim gap i cnt (l + 1) (t.set (i, l) ms)

/-- waterman_eggert.py:231-254, body of the loop over the alignment: `(i, j)` is zero-based, and never
negative in an alignment returned by the traceback (`toNat`). -/
def recalcPair (seq1 seq2 : List α) (sim : α → α → ℚ) (gap : α → ℚ) (p : Int × Int) (t : Matrix) :
    Py Matrix := do
  let i := p.1.toNat + 1
  let j := p.2.toNat + 1
  let t := t.set (i, j) (0, .T)
  let t ← recalcCol seq1 seq2 sim gap j (seq1.length - i) (i + 1) t
  recalcRow seq1 seq2 sim gap i (seq2.length - j) (j + 1) t

/-- waterman_eggert.py:224-254 `recalculate_matrix`. -/
def recalculate (seq1 seq2 : List α) (sim : α → α → ℚ) (gap : α → ℚ) (al : List (Int × Int))
    (t : Matrix) : Py Matrix :=
  Py.forIn al t (recalcPair seq1 seq2 sim gap)

/-- State of the main loop: matrix, `all_alignments`, whether the loop has been left by `break`, and `all_scores`. -/
structure WEState where
  t : Matrix
  all : List (List (Int × Int))
  stop : Bool
  scores : List Matrix := []

/-- waterman_eggert.py:92 loop condition `not limit or len(all_alignments) < limit`
(`limit = None` is 0 here: both are false in Python). -/
def weCond (limit : Nat) (s : WEState) : Py Bool :=
  .ok (!s.stop && (limit == 0 || decide (s.all.length < limit)))

/-- waterman_eggert.py:93-110, the loop body. -/
def weBody (tfuel : Nat) (seq1 seq2 : List α) (sim : α → α → ℚ) (gap : α → ℚ) (s : WEState) :
    Py WEState := do
  let best := findBestScore seq1.length seq2.length s.t
  if best.1 = 0 then .ok { s with stop := true }
  else do
    let al ← traceAlignment tfuel s.t best.2
    let t ← recalculate seq1 seq2 sim gap al s.t
    .ok { t := t, all := s.all ++ [al], stop := false, scores := s.scores ++ [s.t] }

/-- waterman_eggert.py:46-112 `waterman_eggert`, the second result: the list of alignments. `fuel` bounds the
main loop, `tfuel` the traceback. -/
def watermanEggert (fuel tfuel : Nat) (seq1 seq2 : List α) (sim : α → α → ℚ) (gap : α → ℚ)
    (limit : Nat) : Py (List (List (Int × Int))) := do
  let t ← makeMatrix seq1 seq2 sim gap
  let s ← Py.whileLoop (weCond limit) (weBody tfuel seq1 seq2 sim gap) fuel
    { t := t, all := [], stop := false }
  .ok s.all

/-- waterman_eggert.py:46-112 `waterman_eggert`, both results: the copies of the matrix and the alignments. -/
def watermanEggertBoth (fuel tfuel : Nat) (seq1 seq2 : List α) (sim : α → α → ℚ) (gap : α → ℚ)
    (limit : Nat) : Py (List Matrix × List (List (Int × Int))) := do
  let t ← makeMatrix seq1 seq2 sim gap
  let s ← Py.whileLoop (weCond limit) (weBody tfuel seq1 seq2 sim gap) fuel
    { t := t, all := [], stop := false }
  .ok (s.scores, s.all)

end Verif.SW
