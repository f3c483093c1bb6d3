import Verif.Model.Pgc
import Verif.Model.PosixPath

/-! Model of bin/pgc_zip.py:50-77 (packing corpora and their graph banks into an archive), with
lib/daeso/pgc/corpus.py:703-715 (`_graphbanks`), 765-829 (`parse`: the directory of the corpus), 949-981 (paths of graph banks,
relaxed or not), lib/daeso/gb/graphbank.py:123-138, and lib/daeso/utils/opsys.py:53-61 (`multiglob`).  An archive is the list of
its entries. -/
namespace Verif.PgcZip
open Verif Verif.Etree Verif.Pgc

variable {β γ : Type}

/-- A file system: the contents of the files, what exists, os.path.realpath and glob.glob. -/
structure Site (β : Type) where
  file : Text → Option β
  ex : Text → Bool
  real : Text → Text
  glob : Text → List Text

/-- What the program does with the contents of files: white space, XML (corpus.py:805-826: the events, and the exception after
them), and the graphs in graph bank files, all of them or those wanted (graphbank.py:150-158, 203-210; the file may be
missing). -/
structure Reader (β γ : Type) where
  ws : Char → Bool
  xml : β → List Event × Option Err
  graphs : Option β → Option String → Py (AD String γ)
  sparse : Option β → Option String → List String → Py (AD String γ)

/-- corpus.py:956-974: the path for the text of a <file> element, in a corpus in directory `dir`. -/
def bankPath (site : Site β) (relax : Bool) (dir x : Text) : Text :=
  let p := if x.head? = some '/' then x else site.real (PosixPath.join dir x)
  if !site.ex p && relax then site.real (PosixPath.join dir (PosixPath.basename p)) else p

/-- Reading in a directory.  graphbank.py:138: the path of a graph bank is a real path. -/
def env (rd : Reader β γ) (site : Site β) (relax : Bool) (dir : Text) : Env γ where
  ws := rd.ws
  resolve x := site.real (bankPath site relax dir x)
  readAll p f := rd.graphs (site.file p) f
  readSparse p f ids := rd.sparse (site.file p) f ids

/-- corpus.py:765-829 `parse` of a file. -/
def readCorpus (rd : Reader β γ) (site : Site β) (relax : Bool) (mode : Load) (fn : Text) : Py (State γ) :=
  match site.file fn with
  | none => .error .osError
  | some c => match parse (env rd site relax (PosixPath.dirname fn)) mode (rd.xml c).1 with
    | .error e => .error e
    | .ok s => match (rd.xml c).2 with
      | some e => .error e
      | none => .ok s

/-- corpus.py:703-715 `_graphbanks`: the banks of the graph pairs, each once. -/
def graphbanks (s : State γ) : List String := (s.pairs.flatMap fun p => [p.sourceBank, p.targetBank]).dedup

/-- `zip_arch.write(fn, arch_fn)`, bin/pgc_zip.py:52, 56-58, 66-68: the name in the archive is the base name in the archive's
directory. -/
def store (site : Site β) (archDir : Text) (arch : List (Text × β)) (fn : Text) : Py (List (Text × β)) :=
  match site.file fn with
  | none => .error .osError
  | some c => .ok (arch ++ [(PosixPath.join archDir (PosixPath.basename fn), c)])

/-- bin/pgc_zip.py:63-68: one graph bank. -/
def packBank (site : Site β) (archDir : Text) (s : State γ) (b : String) (arch : List (Text × β)) :
    Py (List (Text × β)) :=
  match s.banks.get? (some b) with
  | none => .error .keyError
  | some bank => store site archDir arch bank.path

/-- bin/pgc_zip.py:54-68: one corpus.  `ord` is the order in which the set of graph banks is gone through. -/
def packCorpus (rd : Reader β γ) (site : Site β) (ord : List String → List String) (archDir fn : Text)
    (arch : List (Text × β)) : Py (List (Text × β)) :=
  match store site archDir arch fn with
  | .error e => .error e
  | .ok arch => match readCorpus rd site false .none fn with
    | .error e => .error e
    | .ok s => Py.forIn (ord (graphbanks s)) arch (packBank site archDir s)

/-- opsys.py:53-61 `multiglob`. -/
def multiglob (site : Site β) (pats : List Text) : List Text :=
  (pats.flatMap site.glob).mergeSort fun x y => decide (String.ofList x ≤ String.ofList y)

/-- `os.path.splitext(p)[0]` for a path without slashes: nothing is cut off if there are only points before the last
point. -/
def stem (p : Text) : Text :=
  let root := (p.reverse.dropWhile (· ≠ '.')).tail.reverse
  if root.all (· = '.') then p else root

/-- bin/pgc_zip.py:52 `arch_dir`. -/
def archDir (zip : Text) : Text := stem (PosixPath.basename zip)

/-- bin/pgc_zip.py:50-70 `pgc_zip`: the archive. -/
def pgcZip (rd : Reader β γ) (site : Site β) (ord : List String → List String) (zip : Text) (pats : List Text) :
    Py (List (Text × β)) :=
  Py.forIn (multiglob site pats) [] (packCorpus rd site ord (archDir zip))

end Verif.PgcZip
