import Verif.Model.RelPath

/-! Model of lib/daeso/utils/opsys.py:31-42 `makedirs`, with os.makedirs, os.path.exists and os.mkdir, which are not part of /repo.
A file system has directories, files (whatever is not a directory) and symbolic links; a place in it is the list of the names on the way
from the root. Not modelled: limits on the lengths of paths and names, characters that file names cannot have, and other processes. -/
namespace Verif.MakeDirs
open Verif Verif.Etree Verif.PosixPath Verif.RelPath

inductive Kind
  | dir
  | file
  | link (t : Text)
  deriving DecidableEq

/-- What is at each place, in which directories entries can be made, and how deep links may be nested. -/
structure Disk where
  node : List Text → Option Kind
  may : List Text → Bool
  depth : Nat

/-- Path resolution, one name: from a place to an existing place. -/
def go (d : Disk) : Nat → List Text → Text → Option (List Text)
  | depth, cur, n =>
    if d.node cur ≠ some .dir then none
    else if n = ['.'] then some cur
    else if n = ['.', '.'] then some cur.dropLast
    else match d.node (cur ++ [n]) with
      | none => none
      | some (.link t) => match depth with
        | 0 => none
        | depth + 1 => (names t).foldlM (go d depth) (if isAbs t then [] else cur)
      | some _ => some (cur ++ [n])

/-- Path resolution for a list of names. -/
def walk (d : Disk) (cur : List Text) (l : List Text) : Option (List Text) := l.foldlM (go d d.depth) cur

/-- Where a path starts. -/
def start (cwd : List Text) (p : Text) : List Text := if isAbs p then [] else cwd

/-- os.path.exists, of a path that does not end in slashes (if it is not the root). -/
def exist (d : Disk) (cwd : List Text) (p : Text) : Bool := (walk d (start cwd p) (names p)).isSome

/-- Why making a directory fails: it exists (errno 17), another OSError, or the recursion is too deep (RuntimeError). -/
inductive Fault
  | present
  | other
  | recursion
  deriving DecidableEq

/-- os.mkdir. -/
def mkdir (d : Disk) (cwd : List Text) (p : Text) : Disk × Option Fault :=
  match (names p).getLast? with
  | none => (d, some (if p = [] then .other else .present))
  | some n => match walk d (start cwd p) (names p).dropLast with
    | none => (d, some .other)
    | some cur =>
      if d.node cur ≠ some .dir then (d, some .other)
      else if n = ['.'] ∨ n = ['.', '.'] ∨ d.node (cur ++ [n]) ≠ none then (d, some .present)
      else if d.may cur then ({ d with node := fun x => if x = cur ++ [n] then some .dir else d.node x }, none)
      else (d, some .other)

/-- `head, tail = path.split(name)`, once more if there is no tail (os.makedirs). -/
def headTail (p : Text) : Text × Text :=
  if basename p = [] then (dirname (dirname p), basename (dirname p)) else (dirname p, basename p)

/-- os.makedirs of Python 2.7, with a limit of the recursion. -/
def osMakedirs : Nat → Disk → List Text → Text → Disk × Option Fault
  | 0, d, _, _ => (d, some .recursion)
  | limit + 1, d, cwd, p =>
    if (headTail p).1 ≠ [] ∧ (headTail p).2 ≠ [] ∧ exist d cwd (headTail p).1 = false then
      match osMakedirs limit d cwd (headTail p).1 with
      | (d, some .other) => (d, some .other)
      | (d, some .recursion) => (d, some .recursion)
      | (d, _) => if (headTail p).2 = ['.'] then (d, none) else mkdir d cwd p
    else mkdir d cwd p

/-- 31-42 `makedirs`: the disk, and whether an exception is raised (only one that is no OSError). -/
def makedirs (limit : Nat) (d : Disk) (cwd : List Text) (p : Text) : Disk × Bool :=
  match osMakedirs limit d cwd p with
  | (d, some .recursion) => (d, true)
  | (d, _) => (d, false)

end Verif.MakeDirs
