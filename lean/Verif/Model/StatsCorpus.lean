import Verif.Model.StatsTable
import Verif.Model.PosixPath

/-! Model of lib/daeso/stats/corpus.py:42-173: the statistics over the segments of a corpus, kept in files that are
written by one run and read by later ones.  The results of `pgc_stats` for a directory, the empty tables and `summarize`
are parameters (Model/Stats.lean has them); files are in one directory and writing always succeeds; what is printed, and
the files after an exception, are left out. -/
namespace Verif.StatsCorpus
open Verif Verif.Etree Verif.StatsTable

/-- The two kinds of tables. -/
inductive Kind where
  | pgc | gb
  deriving DecidableEq

/-- The last part of a file name. -/
def Kind.name : Kind → Text
  | .pgc => "pgc".toList
  | .gb => "gb".toList

/-- The contents of the files. -/
abbrev Files := Text → Option Text

/-- Arguments and environment of `corpus_seg_stats`. -/
structure Job where
  /-- the segment's directory -/
  segDir : Text
  annots : List Text
  subs : List Text
  targets : List Text
  /-- corpus.py:127-150 `stats`: the tables for an annotation and a subsegment (lines 67-77 depend on the annotation only) -/
  stats : Text → Text → Kind → Table
  /-- `PgcStatsTable()`, `GbStatsTable()` -/
  new : Kind → Table
  /-- `summarize` -/
  summ : Kind → Table → Table

/-- corpus.py:55-57: the last part of the path of the segment. -/
def Job.seg (j : Job) : Text := PosixPath.basename (PosixPath.rstripSlash j.segDir)

/-- `".".join(parts)`. -/
def dots : List Text → Text
  | [] => []
  | [x] => x
  | x :: y :: l => x ++ '.' :: dots (y :: l)

/-- corpus.py:83-84: the file of a subsegment; every "/" is replaced by ".". -/
def Job.subFile (j : Job) (annot sub : Text) (k : Kind) : Text :=
  (dots ["stats".toList, j.seg, annot, sub, k.name]).map fun c => if c = '/' then '.' else c

/-- corpus.py:108, 113: the file of an annotation. -/
def Job.annotFile (j : Job) (annot : Text) (k : Kind) : Text := dots ["stats".toList, j.seg, annot, k.name]

/-- corpus.py:117, 121: the file of the segment. -/
def Job.segFile (j : Job) (k : Kind) : Text := dots ["stats".toList, j.seg, k.name]

/-- corpus.py:53, 86-89: whether a part is to be computed. -/
def Job.isTarget (j : Job) (annot sub : Text) : Bool :=
  let ts := if j.targets = [] then ["all".toList] else j.targets
  decide ("all".toList ∈ ts) || decide (annot ∈ ts) || decide (sub ∈ ts) || decide (annot ++ '.' :: sub ∈ ts)

/-- `file(fn, "w").write(x)`. -/
def put (f : Files) (fn x : Text) : Files := fun g => if g = fn then some x else f g

/-- corpus.py:166-173 `write_table`. -/
def writeTable (t : Table) (fn : Text) (f : Files) : Files := if isEmpty t then f else put f fn (write true t)

/-- corpus.py:154-162 `read_subtable`: a missing file is no error. -/
def readSub (ws : Char → Bool) (f : Files) (t : Table) (fn : Text) : Py Table :=
  match f fn with
  | none => .ok t
  | some x => match read ws x t with
    | (t', none) => .ok t'
    | (_, some e) => .error e

/-- Two tables, and the files. -/
structure St where
  files : Files
  pgc : Table
  gb : Table

/-- corpus.py:79-105: one subsegment. -/
def subStep (ws : Char → Bool) (j : Job) (annot sub : Text) (s : St) : Py St :=
  let f := if j.isTarget annot sub then
      writeTable (j.stats annot sub .gb) (j.subFile annot sub .gb)
        (writeTable (j.stats annot sub .pgc) (j.subFile annot sub .pgc) s.files)
    else s.files
  match readSub ws f s.pgc (j.subFile annot sub .pgc) with
  | .error e => .error e
  | .ok p => match readSub ws f s.gb (j.subFile annot sub .gb) with
    | .error e => .error e
    | .ok g => .ok ⟨f, p, g⟩

/-- corpus.py:62-115: one annotation; the state holds the tables for the segment (no annotation is called "all", which would
replace these). -/
def annotStep (ws : Char → Bool) (j : Job) (annot : Text) (s : St) : Py St :=
  match Py.forIn j.subs ⟨s.files, j.new .pgc, j.new .gb⟩ (subStep ws j annot) with
  | .error e => .error e
  | .ok a =>
    let f := writeTable (j.summ .pgc a.pgc) (j.annotFile annot .pgc) a.files
    match readSub ws f s.pgc (j.annotFile annot .pgc) with
    | .error e => .error e
    | .ok p =>
      let f := writeTable (j.summ .gb a.gb) (j.annotFile annot .gb) f
      match readSub ws f s.gb (j.annotFile annot .gb) with
      | .error e => .error e
      | .ok g => .ok ⟨f, p, g⟩

/-- corpus.py:42-123 `corpus_seg_stats`: the files afterwards. -/
def run (ws : Char → Bool) (j : Job) (f : Files) : Py Files :=
  if j.subs = [] then .error .assertionError else
  match Py.forIn j.annots ⟨f, j.new .pgc, j.new .gb⟩ (annotStep ws j) with
  | .error e => .error e
  | .ok s => .ok (writeTable (j.summ .gb s.gb) (j.segFile .gb) (writeTable (j.summ .pgc s.pgc) (j.segFile .pgc) s.files))

end Verif.StatsCorpus
