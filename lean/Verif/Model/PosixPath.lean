import Verif.Model.Etree

/-! The functions of Python's posixpath that the code uses (posixpath is not part of /repo); a path is a list of
characters. -/
namespace Verif.PosixPath
open Verif Verif.Etree

/-- What follows the last slash (used at lib/daeso/ptc/document.py:98, bin/ptc_chdir.py:89, bin/pgc_zip.py:52-67). -/
def basename (p : Text) : Text := (p.reverse.takeWhile (· ≠ '/')).reverse

/-- The path up to and including the last slash. -/
def head (p : Text) : Text := (p.reverse.dropWhile (· ≠ '/')).reverse

/-- `s.rstrip('/')`. -/
def rstripSlash (p : Text) : Text := (p.reverse.dropWhile (· = '/')).reverse

/-- The directory part, without its last slashes unless there is nothing else (used at
lib/daeso/ptc/document.py:96-98). -/
def dirname (p : Text) : Text := if (head p).all (· = '/') then head p else rstripSlash (head p)

/-- `join(a, b)` (used at lib/daeso/ptc/document.py:96-98, bin/ptc_chdir.py:89, bin/pgc_zip.py:52-67). -/
def join (a b : Text) : Text :=
  if b.head? = some '/' then b else if a = [] ∨ a.getLast? = some '/' then a ++ b else a ++ '/' :: b

end Verif.PosixPath
