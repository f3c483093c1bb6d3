import Verif.Model.PosixPath

/-! Model of the paths of graph banks in corpus files: lib/daeso/pgc/corpus.py:1100-1108, 1209-1217 (writing), 788-792, 956-962
(reading), lib/daeso/gb/graphbank.py:138, with os.path.realpath and os.path.relpath (not part of /repo).  The file system
has symbolic links; a place in it is the list of the names on the way from the root. -/
namespace Verif.RelPath
open Verif Verif.Etree

/-- A file system as far as paths go: the link, if any, at each place, and how deep links may be nested. -/
structure FS where
  link : List Text → Option Text
  depth : Nat

/-- `p.split('/')` (used by os.path.relpath and os.path.realpath). -/
def split : Text → List Text
  | [] => [[]]
  | c :: p => if c = '/' then [] :: split p else match split p with
    | [] => [[c]]
    | n :: l => (c :: n) :: l

/-- The names in a path (`if x` in os.path.relpath). -/
def names (p : Text) : List Text := (split p).filter (· ≠ [])

/-- `isabs` (corpus.py:958). -/
def isAbs (p : Text) : Bool := p.head? = some '/'

/-- os.path.realpath, one name: from a place to a place. -/
def enter (link : List Text → Option Text) : Nat → List Text → Text → Option (List Text)
  | depth, cur, n =>
    if n = ['.'] then some cur
    else if n = ['.', '.'] then some cur.dropLast
    else match link (cur ++ [n]) with
      | none => some (cur ++ [n])
      | some t => match depth with
        | 0 => none
        | depth + 1 => (names t).foldlM (enter link depth) (if isAbs t then [] else cur)

/-- os.path.realpath: the place that a path leads to, from a working directory; none if links lead nowhere. -/
def locate (fs : FS) (cwd : List Text) (p : Text) : Option (List Text) :=
  (names p).foldlM (enter fs.link fs.depth) (if isAbs p then [] else cwd)

/-- A place as a path. -/
def render (l : List Text) : Text := if l = [] then ['/'] else l.flatMap fun n => '/' :: n

/-- os.path.realpath. -/
def realpath (fs : FS) (cwd : List Text) (p : Text) : Option Text := (locate fs cwd p).map render

/-- `len(commonprefix([a, b]))` in os.path.relpath. -/
def common : List Text → List Text → Nat
  | a :: l, b :: m => if a = b then common l m + 1 else 0
  | _, _ => 0

/-- `rel_list` in os.path.relpath. -/
def relNames (start path : List Text) : List Text :=
  List.replicate (start.length - common start path) ['.', '.'] ++ path.drop (common start path)

/-- os.path.relpath of a real path, from a real directory (os.path.abspath does not change real paths). -/
def relpath (path start : Text) : Text :=
  match relNames (names start) (names path) with
  | [] => ['.']
  | n :: l => l.foldl PosixPath.join n

/-- corpus.py:1100-1108, 1209-1217: the text for a graph bank at `path` in a corpus written to `outf`. -/
def bankText (fs : FS) (cwd : List Text) (abs : Bool) (outf path : Text) : Option Text :=
  if abs then some path else (realpath fs cwd (PosixPath.dirname outf)).map (relpath path)

/-- corpus.py:788-792, 956-962, graphbank.py:138: the path of the graph bank for a (stripped) text in the corpus `inf`. -/
def bankPath (fs : FS) (cwd : List Text) (inf x : Text) : Option Text :=
  if isAbs x then realpath fs cwd x
  else (realpath fs cwd (PosixPath.join (PosixPath.dirname inf) x)).bind (realpath fs cwd)

end Verif.RelPath
