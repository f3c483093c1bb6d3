import Verif.Model.NeedlemanWunsch
import Verif.Model.StatsTable

/-! Model of lib/daeso/string/needleman_wunsch.py:118-190 and lib/daeso/string/waterman_eggert.py:257-261: printing score matrices and alignments.  The elements of the
sequences are represented by their texts `str(e)`. -/
namespace Verif.AlignPrint
open Verif Verif.Etree Verif.Align Verif.StatsTable

/-- What was written, and the exception that ended it. -/
abbrev Out := Text × Option Err

/-- One output after another; an exception ends it. -/
def Out.andThen (a b : Out) : Out := match a with
  | (t, some e) => (t, some e)
  | (t, none) => (t ++ b.1, b.2)

/-- `for x in l: ...`, where the body writes. -/
def writeAll {ι : Type} (f : ι → Out) : List ι → Out
  | [] => ([], none)
  | i :: is => (f i).andThen (writeAll f is)

/-- `str(n)` of an index or a length. -/
def str (n : Nat) : Text := showInt n

/-- `n * " "`. -/
def spaces (n : Nat) : Text := List.replicate n ' '

/-- needleman_wunsch.py:122, 124, 160, 162: `max([len(str(e)) for e in seq])`, ValueError for an empty sequence. -/
def widest : List Text → Py Nat
  | [] => .error .valueError
  | x :: l => .ok ((l.map List.length).foldl max x.length)

/-- needleman_wunsch.py:121-122, 124, 159-160, 162: `space1a`, `space1b` and the first `space2`. -/
def widths (seq1 seq2 : List Text) : Py (Nat × Nat × Nat) := do
  let a := (str seq1.length).length + 1
  let b ← widest seq1
  let w ← widest seq2
  return (a, b + 1, w + 1)

/-- The letter of a step, as it is stored in the matrix. -/
def letter : Dir → Char
  | .T => 'T'
  | .D => 'D'
  | .U => 'U'
  | .L => 'L'

/-- needleman_wunsch.py:149: `"%d:%s" % scores[i,j]`.  `%d` cuts off the decimals of a score. -/
def cellText (c : Cell) : Text := showInt (truncate c.1) ++ [':', letter c.2]

/-- needleman_wunsch.py:148-150: one cell; KeyError if the matrix does not have it. -/
def scoreCell (w : Nat) (t : Matrix) (i j : Nat) : Out := match t (i, j) with
  | some c => (rjust w (cellText c), none)
  | none => ([], some .keyError)

/-- needleman_wunsch.py:138-152: one row. -/
def scoreRow (seq1 : List Text) (m a b w : Nat) (t : Matrix) (i : Nat) : Out :=
  let label := if i > 0 then seq1.getD (i - 1) [] else []
  Out.andThen (ljust a (str i) ++ ljust b label, none)
    (Out.andThen (writeAll (scoreCell w t i) (List.range (m + 1))) (['\n'], none))

/-- needleman_wunsch.py:129-136: the two lines above the matrix. -/
def scoreHead (seq2 : List Text) (a b w : Nat) : Text :=
  spaces (a + b) ++ ((List.range (seq2.length + 1)).map fun i => rjust w (str i)).flatten ++ ['\n'] ++
  spaces (a + b) ++ spaces w ++ (seq2.map (rjust w)).flatten ++ ['\n']

/-- needleman_wunsch.py:119-154 `print_scores`. -/
def printScores (seq1 seq2 : List Text) (t : Matrix) (header trailer : Text) : Out :=
  match widths seq1 seq2 with
  | .error e => ([], some e)
  | .ok (a, b, w) =>
    let w := max w 7
    Out.andThen (header ++ scoreHead seq2 a b w, none)
      (Out.andThen (writeAll (scoreRow seq1 seq2.length a b w t) (List.range (seq1.length + 1))) (trailer, none))

/-- needleman_wunsch.py:177-181: one cell of an alignment. -/
def mark (w : Nat) (al : List (Int × Int)) (i j : Nat) : Text :=
  rjust w (if ((i : Int), (j : Int)) ∈ al then ['x'] else ['.'])

/-- needleman_wunsch.py:172-183: one row of an alignment. -/
def markRow (m a b w : Nat) (al : List (Int × Int)) (i : Nat) (e : Text) : Text :=
  ljust a (str i) ++ ljust b e ++ ((List.range m).map (mark w al i)).flatten ++ ['\n']

/-- needleman_wunsch.py:157-185 `print_alignment`. -/
def printAlignment (seq1 seq2 : List Text) (al : List (Int × Int)) (header trailer : Text) : Out :=
  match widths seq1 seq2 with
  | .error e => ([], some e)
  | .ok (a, b, w) =>
    let w := max w ((str seq2.length).length + 1)
    (header ++
      spaces (a + b) ++ ((List.range seq2.length).map fun i => rjust w (str i)).flatten ++ ['\n'] ++
      spaces (a + b) ++ (seq2.map (rjust w)).flatten ++ ['\n'] ++
      (seq1.zipIdx.map fun x => markRow seq2.length a b w al x.2 x.1).flatten ++ trailer, none)

/-- `print alignment`: the pairs as Python writes them. -/
def showPairs (al : List (Int × Int)) : Text :=
  "[".toList ++ (", ".toList).intercalate (al.map fun p => "(".toList ++ showInt p.1 ++ ", ".toList ++ showInt p.2 ++ ")".toList) ++
  "]\n".toList

/-- waterman_eggert.py:257-261 `print_all_scores_and_alignments`; the arguments are zipped, and the headers are those of
needleman_wunsch.py:120, 158. -/
def printAll (seq1 seq2 : List Text) (all : List (Matrix × List (Int × Int))) : Out :=
  writeAll (fun x => Out.andThen (printScores seq1 seq2 x.1 "SCORE MATRIX\n\n".toList "\n\n".toList)
    (Out.andThen (printAlignment seq1 seq2 x.2 "ALIGNMENT\n\n".toList "\n\n".toList) (showPairs x.2, none))) all

end Verif.AlignPrint
