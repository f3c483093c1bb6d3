import Verif.Model.PgcCp
import Verif.Model.PgcTools

/-! Model of bin/pgc_split.py:74-88 and bin/pgc_join.py:68-90 as programs on files: reading corpora with sparse loading
(lib/daeso/pgc/corpus.py:765-840), slicing and joining them, and writing them (1084-1217). -/
namespace Verif.SplitJoin
open Verif Verif.Etree Verif.Pgc Verif.PgcCp

variable {β γ : Type}

/-- The graphs in graph bank files (graphbank.py:150-158, 203-210): all of them, or those wanted. -/
structure Banks (γ : Type) where
  all : Text → Option String → Py (AD String γ)
  wanted : Text → Option String → List String → Py (AD String γ)

/-- What reading the corpus file `fn` depends on.  (A path that leads into a loop of links is kept as it is.) -/
def envAt (xml : Xml β) (fs : RelPath.FS) (cwd : List Text) (gb : Banks γ) (fn : Text) : Env γ :=
  ⟨xml.ws, fun x => (RelPath.bankPath fs cwd fn x).getD x, gb.all, gb.wanted⟩

/-- corpus.py:765-829 with `LOAD_SPARSE`, the default (corpus.py:104): reading the contents `c` of the corpus file `fn`. -/
def readAt (xml : Xml β) (fs : RelPath.FS) (cwd : List Text) (gb : Banks γ) (fn : Text) (c : β) : Py (State γ) :=
  match Pgc.parse (envAt xml fs cwd gb fn) .sparse (xml.parse c).1 with
  | .error e => .error e
  | .ok s => match (xml.parse c).2 with
    | some e => .error e
    | none => .ok s

/-- `ParallelGraphCorpus(inf=fn)`, pgc_split.py:77, pgc_join.py:76, 82; a directory cannot be read. -/
def readFile (ps : Paths) (xml : Xml β) (fs : RelPath.FS) (cwd : List Text) (gb : Banks γ) (disk : Disk β) (fn : Text) :
    Py (State γ) :=
  if ps.isDir fn then .error .osError
  else match disk (ps.place fn) with
    | none => .error .osError
    | some c => readAt xml fs cwd gb fn c

/-- corpus.py:1084-1126 `write` with relative paths: what is written for the corpus `c` with graph pairs (addresses), banks and
relations in `w`, made from the corpus `s` that was read, and the exception.  An attribute that is None raises TypeError while
the file is written.  (Metadata that indenting changes in place is taken as it was: indenting it again changes nothing, C40.) -/
def writeCorpus (xml : Xml β) (fs : RelPath.FS) (cwd : List Text) (stat : String → Option Nat) (pprint : Bool) (s : State γ)
    (w : Corpus.World) (c : Corpus.Corpus) (fn : Text) : Py (β × Option Err) :=
  match generate stat w (formats s) (fun p => (RelPath.bankText fs cwd false fn p.toList).getD []) c with
  | .error e => .error e
  | .ok t =>
    if complete { s with pairs := c.pairs.filterMap fun k => s.pairs[k]? } then
      .ok (xml.write (if pprint then indent xml.ws 0 t else t), none)
    else .ok (xml.torn fn, some .typeError)

/-! ### Splitting -/

/-- `os.path.splitext`. -/
def splitext (p : Text) : Text × Text :=
  let base := PosixPath.basename p
  (p.take (p.length - base.length) ++ PgcZip.stem base, base.drop (PgcZip.stem base).length)

/-- pgc_split.py:85 `corpus[i:j]` (corpus.py:253-274, 103-136): a new corpus with the list of relations and the metadata of the
old one. -/
def part (s : State γ) (l : List Nat) : Corpus.World × Corpus.Corpus :=
  Corpus.mkCorpus (PgcCp.world s) l (some (PgcCp.corpus s).rel) (PgcCp.corpus s).meta

/-- etree.py:30-42: a file after writing: nothing is opened if generating the tree raised. -/
def putFile (ps : Paths) (disk : Disk β) (fn : Text) : Py (β × Option Err) → Disk β × Option Err
  | .error e => (disk, some e)
  | .ok (c, e) =>
    if ps.isDir fn || !ps.canOpen fn then (disk, some .osError)
    else (fun n => if n = ps.place fn then some c else disk n, e)

/-- pgc_split.py:83-88: the parts, each written before the next is made. -/
def writeParts (ps : Paths) (xml : Xml β) (fs : RelPath.FS) (cwd : List Text) (stat : String → Option Nat) (pprint : Bool)
    (s : State γ) : Disk β → List (Text × List Nat) → Disk β × Option Err
  | disk, [] => (disk, none)
  | disk, x :: rest =>
    match putFile ps disk x.1 (writeCorpus xml fs cwd stat pprint s (part s x.2).1 (part s x.2).2 x.1) with
    | (disk, some e) => (disk, some e)
    | (disk, none) => writeParts ps xml fs cwd stat pprint s disk rest

/-- pgc_split.py:76-88 (messages to stderr are not modelled): the files as they are left, and the exception. -/
def pgcSplit (ps : Paths) (xml : Xml β) (fs : RelPath.FS) (cwd : List Text) (stat : String → Option Nat) (gb : Banks γ)
    (pprint : Bool) (parts : Int) (size : Option Int) (disk : Disk β) (fn : Text) : Disk β × Option Err :=
  match readFile ps xml fs cwd gb disk fn with
  | .error e => (disk, some e)
  | .ok s => match PgcTools.split (splitext fn).1 (splitext fn).2 (PgcCp.corpus s).pairs parts size with
    | .error e => (disk, some e)
    | .ok l => writeParts ps xml fs cwd stat pprint s disk l

/-! ### Joining -/

/-- Banks of different corpora are different objects: an id is told apart from those of another corpus by a letter. -/
def tag (c : Char) (i : String) : String := String.ofList (c :: i.toList)

/-- The banks of a corpus, told apart from those of another one.  (A bank without id belongs to no graph pair.) -/
def tagBanks (c : Char) (d : AD (Option String) (Bank γ)) : AD (Option String) (Bank γ) :=
  d.filterMap fun e => e.1.map fun i => (some (tag c i), e.2)

/-- A graph pair with its banks. -/
def tagPair (c : Char) (p : PPair γ) : PPair γ :=
  { p with sourceBank := tag c p.sourceBank, targetBank := tag c p.targetBank }

/-- corpus.py:286-294 `corpus += other`, 686-701 `_check_compatibility`: the relations must be equal (a difference of metadata is
a warning only). -/
def addCorpus (s t : State γ) : Py (State γ) :=
  if s.rels ≠ t.rels then .error .valueError
  else .ok { s with
    banks := tagBanks 'l' s.banks ++ tagBanks 'r' t.banks
    pairs := s.pairs.map (tagPair 'l') ++ t.pairs.map (tagPair 'r') }

/-- opsys.py:53-61 `multiglob`: the files for all patterns, sorted by name. -/
def multiglob (glob : Text → List Text) (pats : List Text) : List Text :=
  (pats.flatMap glob).mergeSort fun x y => decide (String.ofList x ≤ String.ofList y)

/-- pgc_join.py:81-82: one more corpus is read and added. -/
def joinStep (ps : Paths) (xml : Xml β) (fs : RelPath.FS) (cwd : List Text) (gb : Banks γ) (disk : Disk β) (fn : Text)
    (s : State γ) : Py (State γ) :=
  match readFile ps xml fs cwd gb disk fn with
  | .error e => .error e
  | .ok t => addCorpus s t

/-- pgc_join.py:76-82: the corpora, each read and added in turn. -/
def joinFiles (ps : Paths) (xml : Xml β) (fs : RelPath.FS) (cwd : List Text) (gb : Banks γ) (disk : Disk β) :
    List Text → Py (State γ)
  | [] => .error .indexError
  | fn :: fns => match readFile ps xml fs cwd gb disk fn with
    | .error e => .error e
    | .ok s => Py.forIn fns s (joinStep ps xml fs cwd gb disk)

/-- pgc_join.py:68-90: what is written to stdout, and the exception while writing.  The name of stdout is "<stdout>"
(corpus.py:1103-1109), so paths are relative to the working directory. -/
def pgcJoin (ps : Paths) (xml : Xml β) (fs : RelPath.FS) (cwd : List Text) (stat : String → Option Nat) (gb : Banks γ)
    (glob : Text → List Text) (pprint : Bool) (disk : Disk β) (pats : List Text) : Py (β × Option Err) :=
  match joinFiles ps xml fs cwd gb disk (multiglob glob pats) with
  | .error e => .error e
  | .ok s => match Corpus.purge stat (PgcCp.world s) (PgcCp.corpus s) none with
    | .error e => .error e
    | .ok w => writeCorpus xml fs cwd stat pprint s w (PgcCp.corpus s) "<stdout>".toList

end Verif.SplitJoin
