import Verif.Model.Corpus
import Mathlib.Data.Rat.Floor

/-! Model of bin/pgc_split.py:80-88, bin/pgc_join.py:68-88 and bin/pgc_chdir.py:80-99 (Python 2: `/` on integers rounds
down). -/
namespace Verif.PgcTools
open Verif Verif.Corpus Verif.Etree

/-- `round(x)` in Python 2: halves away from zero. -/
def pyRound (x : ℚ) : Int := if 0 ≤ x then ⌊x + 1/2⌋ else ⌈x - 1/2⌉

/-- pgc_split.py:80-81: the size of the parts; `size` is the option, None when it is absent. -/
def partSize (n : Nat) (parts : Int) (size : Option Int) : Py Int :=
  if size = none ∨ size = some 0 then
    if parts = 0 then .error .zeroDivision else .ok (pyRound (((n : Int).fdiv parts : ℚ) + 1/2))
  else .ok (size.getD 0)

/-- `range(0, n, step)` for a step that is not 0. -/
def rangeStep (n : Nat) (step : Int) : List Nat :=
  if step < 0 then [] else (List.range ((n + step.toNat - 1) / step.toNat)).map (· * step.toNat)

/-- `"{:04d}".format(n)`. -/
def pad4 (n : Nat) : List Char := List.replicate (4 - (Nat.toDigits 10 n).length) '0' ++ Nat.toDigits 10 n

/-- pgc_split.py:86: the file name of a part. -/
def partName (root ext : List Char) (i j : Nat) : List Char := root ++ '_' :: (pad4 (i + 1) ++ '-' :: (pad4 j ++ ext))

/-- pgc_split.py:83-88: file names and graph pairs of the parts. -/
def split (root ext : List Char) (pairs : List Nat) (parts : Int) (size : Option Int) :
    Py (List (List Char × List Nat)) :=
  match partSize pairs.length parts size with
  | .error e => .error e
  | .ok s => .ok ((rangeStep pairs.length s).map fun i =>
      let j := min (i + s.toNat) pairs.length
      (partName root ext i j, sliceList pairs i j))

/-- pgc_join.py:75-83: the corpora as read, joined with `+=`. -/
def join (w : World) : List Corpus → Py Corpus
  | [] => .error .indexError
  | c :: cs => Py.forIn cs c fun d c => match iadd w c (some d) with
    | (c', none) => .ok c'
    | (_, some e) => .error e

/-- pgc_join.py:75-88: joining and purging. -/
def joinPurge (stat : String → Option Nat) (w : World) (cs : List Corpus) : Py (World × Corpus) :=
  match join w cs with
  | .error e => .error e
  | .ok c => match purge stat w c none with
    | .error e => .error e
    | .ok w' => .ok (w', c)

/-- pgc_chdir.py:91-96: the text of one <file> element; None has no `startswith`. -/
def chdirPath (fr dst : Text) : Option Text → Py (Option Text)
  | none => .error .attributeError
  | some p => if fr.isPrefixOf p then .ok (some (dst ++ p.drop fr.length)) else .ok (some p)

/-- pgc_chdir.py:88-96: the texts of all <file> elements. -/
def chdir (fr dst : Text) (files : List (Option Text)) : Py (List (Option Text)) := files.mapM (chdirPath fr dst)

end Verif.PgcTools
