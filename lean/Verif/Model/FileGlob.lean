import Verif.Model.SplitJoin

/-! Model of lib/daeso/utils/opsys.py:44-61 with glob.glob and fnmatch.fnmatch of Python 2.7, for patterns without `/`: files of
the working directory.  Classes `[...]` in patterns are not modelled; `[` counts as magic only. -/
namespace Verif.FileGlob
open Verif

/-- File names and patterns. -/
abbrev Text := List Char

/-- `.*` followed by the rest of the regular expression. -/
def star (f : Text → Bool) : Text → Bool
  | [] => f []
  | c :: s => f (c :: s) || star f s

/-- fnmatch.fnmatchcase (called by opsys.py:48, 59 through glob.glob): `*` and `?`, other characters stand for themselves. -/
def fnmatch : Text → Text → Bool
  | [], s => s.isEmpty
  | a :: p, s =>
    if a = '*' then star (fnmatch p) s
    else match s with
      | [] => false
      | c :: s => (a == '?' || a == c) && fnmatch p s

/-- glob.has_magic (called by opsys.py:48, 59 through glob.glob). -/
def magic (p : Text) : Bool := p.any fun c => c == '*' || c == '?' || c == '['

/-- glob.glob (called by opsys.py:48, 59): a name stands for itself if it exists; others are compared with the names as
os.listdir gives them, those that start with a dot only if the pattern does. -/
def pyGlob (names : List Text) (p : Text) : List Text :=
  if magic p then
    (if p.head? = some '.' then names else names.filter fun n => n.head? != some '.').filter (fnmatch p)
  else if p ∈ names ∨ p = ['.'] ∨ p = ['.', '.'] then [p] else []

/-- opsys.py:44-50 `glob`. -/
def glob (names : List Text) (p : Text) : List Text :=
  (pyGlob names p).mergeSort fun x y => decide (String.ofList x ≤ String.ofList y)

/-- opsys.py:53-61 `multiglob`, also the files of pgc_join.py:68 and pgc_zip.py:54. -/
def multiglob (names : List Text) (ps : List Text) : List Text := SplitJoin.multiglob (pyGlob names) ps

end Verif.FileGlob
