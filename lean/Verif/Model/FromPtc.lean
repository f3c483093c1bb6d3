import Verif.Model.PgcCp
import Verif.Model.Creation

/-! Model of bin/pgc_from_ptc.py:141-166: parallel graph corpora from parallel text corpora and graph banks, with writing
(lib/daeso/pgc/corpus.py:1084-1126) what lib/daeso/pgc/creation.py:39-110 makes. -/
namespace Verif.FromPtc
open Verif Verif.Etree Verif.Pgc Verif.PgcCp

/-! ### The script -/

/-- pgc_from_ptc.py:165 `os.path.splitext(os.path.basename(text_corpus))[0] + ".pgc"`. -/
def outName (textCorpus : Text) : Text := PgcZip.stem (PosixPath.basename textCorpus) ++ ".pgc".toList

/-- A text corpus, a source graph bank and a target graph bank. -/
abbrev Triple := Text × Text × Text

variable {β κ : Type}

/-- pgc_from_ptc.py:150-166: the triples in turn; the files as they are left, and the exception.  `create` is
`pgc_from_ptc` with the options of the command line. -/
def makeAll (ps : Paths) (cd : Codec β κ) (create : Disk β → Triple → Py κ) : Disk β → List Triple → Disk β × Option Err
  | disk, [] => (disk, none)
  | disk, x :: rest => match create disk x with
    | .error e => (disk, some e)
    | .ok new => match writeTarget ps cd disk new (outName x.1) with
      | (disk, some e) => (disk, some e)
      | (disk, none) => makeAll ps cd create disk rest

/-- pgc_from_ptc.py:143-166; `none` if it exits with a message about the number of graph banks. -/
def main (ps : Paths) (cd : Codec β κ) (create : Disk β → Triple → Py κ) (disk : Disk β) (texts sources targets : List Text) :
    Option (Disk β × Option Err) :=
  if texts.length ≠ sources.length then none
  else if texts.length ≠ targets.length then none
  else some (makeAll ps cd create disk (texts.zip (sources.zip targets)))

/-! ### Creating and writing a corpus -/

variable {γ : Type}

/-- A new corpus (creation.py:75-110): its graph pairs, and paths and formats of its two banks. -/
structure New (γ : Type) where
  pairs : List (Creation.Pair γ)
  source : Text
  target : Text
  formatS : String
  formatT : String

/-- What is in the files: the links and the two texts of a parallel text corpus, the graphs of a graph bank. -/
structure Inputs (β γ : Type) where
  document : Disk β → Text → Py (List HitaextDoc.Link × IElemTree.Tree × IElemTree.Tree)
  graphs : Disk β → Text → String → Py (AD String γ)

/-- creation.py:39-110 `pgc_from_ptc` with graphbank.py:138 for the paths of the banks.  (A path that leads into a loop of links
is kept as it is.) -/
def create (inp : Inputs β γ) (fs : RelPath.FS) (cwd : List Text) (c : Creation.Settings) (formatS formatT : String)
    (disk : Disk β) (x : Triple) : Py (New γ) :=
  match inp.document disk x.1 with
  | .error e => .error e
  | .ok (links, tF, tT) => match inp.graphs disk x.2.1 formatS with
    | .error e => .error e
    | .ok bS => match inp.graphs disk x.2.2 formatT with
      | .error e => .error e
      | .ok bT => match Creation.pgcFromPtc c links tF tT bS bT with
        | .error e => .error e
        | .ok pairs => .ok ⟨pairs, (RelPath.realpath fs cwd x.2.1).getD x.2.1, (RelPath.realpath fs cwd x.2.2).getD x.2.2,
            formatS, formatT⟩

/-- The graph pairs (graphpair.py:53-78: no alignments, new metadata), the banks and the relations (corpus.py:431-433: sorted)
of a new corpus, as objects in the heaps of Model/Corpus. -/
def world (relations : List String) (n : New γ) : Corpus.World where
  gp k := match n.pairs[k]? with
    | none => ⟨0, 1, "", "", ⟨k, .mk "graph_meta_data" [] none none []⟩, Graph.empty⟩
    | some p => ⟨0, 1, p.sourceId, p.targetId, ⟨k, .mk "graph_meta_data" [] none none []⟩, Graph.empty⟩
  path b := String.ofList (if b = 0 then n.source else n.target)
  rels _ := relations.mergeSort fun s t => decide (s ≤ t)
  nrels := 1

/-- The formats of the banks. -/
def formats (n : New γ) (b : Nat) : String := if b = 0 then n.formatS else n.formatT

/-- The corpus itself. -/
def corpus (n : New γ) : Corpus.Corpus := ⟨List.range n.pairs.length, 0, none⟩

/-- pgc_from_ptc.py:166 `graph_corpus.write(outfn, pprint=True)`, corpus.py:1084-1126. -/
def writeNew (xml : Xml β) (fs : RelPath.FS) (cwd : List Text) (stat : String → Option Nat) (relations : List String)
    (n : New γ) (fn : Text) : Py (β × Option Err) :=
  match generate stat (world relations n) (formats n) (fun p => (RelPath.bankText fs cwd false fn p.toList).getD [])
      (corpus n) with
  | .error e => .error e
  | .ok t => .ok (xml.write (indent xml.ws 0 t), none)

end Verif.FromPtc
