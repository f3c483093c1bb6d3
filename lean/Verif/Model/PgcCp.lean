import Verif.Model.PgcZip
import Verif.Model.RelPath

/-! Model of bin/pgc_cp.py:42-82: copying parallel graph corpora, with reading (lib/daeso/pgc/corpus.py:765-829) and writing
(1084-1126) a corpus file. -/
namespace Verif.PgcCp
open Verif Verif.Etree Verif.Pgc

/-- The paths, which copying does not change: the file that a path leads to, links followed, whether it exists or not
(hard links lead to one file); the directories; and whether a file can be opened for writing there. -/
structure Paths where
  place : Text → Nat
  isDir : Text → Bool
  canOpen : Text → Bool

/-- The contents of the files that exist. -/
abbrev Disk (β : Type) := Nat → Option β

/-- Reading and writing corpora.  Writing raises an exception before the file is opened (generating the tree), or leaves
some contents, and may then have raised an exception too (lib/daeso/utils/etree.py:30-42). -/
structure Codec (β κ : Type) where
  read : Text → β → Py κ
  write : κ → Text → Py (β × Option Err)

variable {β κ : Type}

/-- os.path.exists. -/
def pathExists (ps : Paths) (disk : Disk β) (p : Text) : Bool := ps.isDir p || (disk (ps.place p)).isSome

/-- `ParallelGraphCorpus(inf=source, graph_loading=LOAD_NONE)`, pgc_cp.py:60; a directory cannot be read. -/
def readSource (ps : Paths) (cd : Codec β κ) (disk : Disk β) (source : Text) : Py κ :=
  if ps.isDir source then .error .osError
  else match disk (ps.place source) with
    | none => .error .osError
    | some c => cd.read source c

/-- pgc_cp.py:67-70: the target for a source. -/
def targetOf (ps : Paths) (target source : Text) : Text :=
  if ps.isDir target then PosixPath.join target (PosixPath.basename source) else target

/-- os.path.samefile. -/
def sameFile (ps : Paths) (p q : Text) : Bool := ps.isDir p = ps.isDir q && ps.place p = ps.place q

/-- pgc_cp.py:82 `corpus.write(outf=target)`: the files as they are left, and the exception. -/
def writeTarget (ps : Paths) (cd : Codec β κ) (disk : Disk β) (x : κ) (t : Text) : Disk β × Option Err :=
  match cd.write x t with
  | .error e => (disk, some e)
  | .ok (c, e) =>
    if ps.isDir t || !ps.canOpen t then (disk, some .osError)
    else (fun n => if n = ps.place t then some c else disk n, e)

/-- The warnings of pgc_cp.py, one kind for each. -/
inductive Warning where
  | missing | invalid | same | occupied
  deriving DecidableEq

/-- pgc_cp.py:53-82: one source; the files as they are left, the warning, and the exception. -/
def copyOne (ps : Paths) (cd : Codec β κ) (overwrite : Bool) (target : Text) (disk : Disk β) (source : Text) :
    Disk β × Option Warning × Option Err :=
  if !pathExists ps disk source then (disk, some .missing, none)
  else match readSource ps cd disk source with
    | .error _ => (disk, some .invalid, none)
    | .ok x =>
      let t := targetOf ps target source
      if pathExists ps disk t && sameFile ps source t then (disk, some .same, none)
      else if pathExists ps disk t && !overwrite then (disk, some .occupied, none)
      else ((writeTarget ps cd disk x t).1, none, (writeTarget ps cd disk x t).2)

/-- pgc_cp.py:53-82: the sources in turn, with the warnings. -/
def copyAll (ps : Paths) (cd : Codec β κ) (overwrite : Bool) (target : Text) : Disk β → List Text →
    Disk β × List (Option Warning) × Option Err
  | disk, [] => (disk, [], none)
  | disk, source :: rest => match copyOne ps cd overwrite target disk source with
    | (disk, w, some e) => (disk, [w], some e)
    | (disk, w, none) => match copyAll ps cd overwrite target disk rest with
      | (disk, ws, e) => (disk, w :: ws, e)

/-- pgc_cp.py:42-82; `none` if it exits with a message about too many arguments. -/
def pgcCp (ps : Paths) (cd : Codec β κ) (overwrite : Bool) (target : Text) (disk : Disk β) (sources : List Text) :
    Option (Disk β × List (Option Warning) × Option Err) :=
  if !ps.isDir target && sources.length > 1 then none else some (copyAll ps cd overwrite target disk sources)

/-! ### Reading and writing corpora -/

variable {γ : Type}

/-- The alignments of a graph pair that was read, with ids that are strings.  (The order of Python's dictionary is arbitrary;
here it is the order of the list of alignments.) -/
def plainAlign (g : Graph.G (Option String) (Option String)) : Graph.G String String :=
  match GraphPair.alignments g none with
  | .error _ => Graph.empty
  | .ok l => match Py.forIn l (Graph.empty : Graph.G String String) fun x h =>
        GraphPair.matchAlign h (x.1.1.getD "") (x.1.2.getD "") (x.2.getD "") with
    | .error _ => Graph.empty
    | .ok h => h

/-- The graph pairs, banks and relations of a corpus that was read, as objects in the heaps of Model/Corpus. -/
def world (s : State γ) : Corpus.World where
  gp k := match s.pairs[k]? with
    | none => ⟨0, 0, "", "", ⟨0, .mk "" [] none none []⟩, Graph.empty⟩
    | some p => ⟨s.banks.keys.idxOf (some p.sourceBank), s.banks.keys.idxOf (some p.targetBank), p.sourceId, p.targetId,
        ⟨k, p.meta⟩, plainAlign p.align⟩
  path n := match s.banks[n]? with
    | none => ""
    | some b => String.ofList b.2.path
  rels _ := s.rels
  nrels := 1

/-- The formats of its banks. -/
def formats (s : State γ) (n : Nat) : String := ((s.banks[n]?.bind fun b => b.2.format).getD "")

/-- The corpus itself. -/
def corpus (s : State γ) : Corpus.Corpus := ⟨List.range s.pairs.length, 0, s.meta.map fun e => ⟨s.pairs.length, e⟩⟩

/-- No attribute to be written is None: the formats of the banks in use, and the ids and relations of the node pairs. -/
def complete (s : State γ) : Bool :=
  s.pairs.all fun p => ([p.sourceBank, p.targetBank].all fun i => ((s.banks.get? (some i)).bind fun b => b.format).isSome) &&
    (match GraphPair.alignments p.align none with
      | .error _ => false
      | .ok l => l.all fun x => x.1.1.isSome && x.1.2.isSome && x.2.isSome)

/-- The XML library: what is read from the contents of a file, and what is written for an element, or for one with an
attribute that is None (some first part of it). -/
structure Xml (β : Type) where
  ws : Char → Bool
  parse : β → List Event × Option Err
  write : Elem → β
  torn : Text → β

/-- corpus.py:765-829: reading the corpus file `fn` without loading graphs.  (A path that leads into a loop of links is kept as
it is.) -/
def readAt (xml : Xml β) (fs : RelPath.FS) (cwd : List Text) (readAll : Text → Option String → Py (AD String γ))
    (fn : Text) (c : β) : Py (State γ) :=
  match Pgc.parse ⟨xml.ws, fun x => (RelPath.bankPath fs cwd fn x).getD x, readAll, fun p f _ => readAll p f⟩ .none
      (xml.parse c).1 with
  | .error e => .error e
  | .ok s => match (xml.parse c).2 with
    | some e => .error e
    | none => .ok s

/-- corpus.py:1084-1126, with relative paths.  `stat` tells which files are the same (corpus.py:1168-1176). -/
def writeAt (xml : Xml β) (fs : RelPath.FS) (cwd : List Text) (stat : String → Option Nat) (s : State γ) (fn : Text) :
    Py (β × Option Err) :=
  if complete s then
    match generate stat (world s) (formats s) (fun p => (RelPath.bankText fs cwd false fn p.toList).getD []) (corpus s) with
    | .error e => .error e
    | .ok t => .ok (xml.write t, none)
  else .ok (xml.torn fn, some .typeError)

/-- Reading and writing corpora, in a file system and a working directory. -/
def codec (xml : Xml β) (fs : RelPath.FS) (cwd : List Text) (stat : String → Option Nat)
    (readAll : Text → Option String → Py (AD String γ)) : Codec β (State γ) :=
  ⟨readAt xml fs cwd readAll, writeAt xml fs cwd stat⟩

end Verif.PgcCp
