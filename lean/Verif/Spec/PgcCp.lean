import Verif.Model.PgcCp
import Verif.Spec.Pgc
import Verif.Spec.RelPath

/-! What copying corpora should do. -/
namespace Verif.Spec.PgcCp
open Verif Verif.Etree Verif.PgcCp

variable {β κ : Type}

/-- The path is that of a file that exists and holds the corpus `x`. -/
def Holds (ps : Paths) (cd : Codec β κ) (disk : Disk β) (p : Text) (x : κ) : Prop :=
  ps.isDir p = false ∧ ∃ c, disk (ps.place p) = some c ∧ cd.read p c = .ok x

/-- Nothing is at the path, and a file can be created there. -/
def Free (ps : Paths) (disk : Disk β) (p : Text) : Prop :=
  ps.isDir p = false ∧ ps.canOpen p = true ∧ disk (ps.place p) = none

/-- A file can be created or replaced at the path. -/
def Open (ps : Paths) (p : Text) : Prop := ps.isDir p = false ∧ ps.canOpen p = true

/-! ### The same corpus -/

variable {γ : Type}

/-- The banks with these ids are for the same file, in the same format. -/
def SameBank (stat : String → Option Nat) (s s' : Pgc.State γ) (i i' : String) : Prop :=
  ∃ b b', s.banks.get? (some i) = some b ∧ s'.banks.get? (some i') = some b' ∧
    SameFile stat (String.ofList b.path) (String.ofList b'.path) ∧ b'.format = b.format

/-- Two graph pairs are the same, but for metadata without elements, which is not kept. -/
structure SamePair (stat : String → Option Nat) (s s' : Pgc.State γ) (p p' : Pgc.PPair γ) : Prop where
  source : SameBank stat s s' p.sourceBank p'.sourceBank
  target : SameBank stat s s' p.targetBank p'.targetBank
  ids : p'.sourceId = p.sourceId ∧ p'.targetId = p.targetId
  metaIs : p'.meta = if p.meta.children = [] then .mk "graph_meta_data" [] none none [] else p.meta
  align : ∀ x y, GraphPair.getAlign p'.align x y = GraphPair.getAlign p.align x y

/-- Two corpora are the same. -/
structure SameCorpus (stat : String → Option Nat) (s s' : Pgc.State γ) : Prop where
  relations : s'.rels = s.rels
  metaIs : s'.meta = s.meta.filter fun e => e.children ≠ []
  pairs : List.Forall₂ (SamePair stat s s') s.pairs s'.pairs

/-- A bank in use. -/
def Used (s : Pgc.State γ) (b : Pgc.Bank γ) : Prop :=
  ∃ p ∈ s.pairs, ∃ i, (i = p.sourceBank ∨ i = p.targetBank) ∧ s.banks.get? (some i) = some b

/-- Corpora that can be copied: the banks in use exist (or there is one only), each with one format; all node pairs have
both nodes and a relation; the relations are sorted and not empty; no tags of the corpus format occur in metadata; no name on
the paths of banks begins or ends with white space. -/
structure Copyable (stat : String → Option Nat) (ws : Char → Bool) (s : Pgc.State γ) : Prop where
  format : ∀ b, Used s b → ∃ f, b.format = some f ∧ f ≠ ""
  oneFormat : ∀ b b', Used s b → Used s b' → SameFile stat (String.ofList b.path) (String.ofList b'.path) → b.format = b'.format
  comparable : ∀ b b', Used s b → Used s b' →
    b.path = b'.path ∨ (stat (String.ofList b.path)).isSome ∧ (stat (String.ofList b'.path)).isSome
  nodes : ∀ p ∈ s.pairs, ∀ x y r, GraphPair.getAlign p.align x y = .ok (some r) → x.isSome ∧ y.isSome ∧ r.isSome
  sorted : s.rels.Pairwise (· ≤ ·)
  relations : "" ∉ s.rels
  metas : ∀ p ∈ s.pairs, Pgc.ForeignList p.meta.children
  corpusMeta : ∀ e, s.meta = some e → Pgc.ForeignList e.children
  names : ∀ b l, Used s b → b.path = RelPath.path l → RelPath.NoBlankEnds ws l

/-- What is expected of the XML library: what was written is read again, without empty texts; and elements read have no empty
texts. -/
structure Lawful (xml : Xml β) : Prop where
  reread : ∀ t, xml.parse (xml.write t) = (Verif.Pgc.events (Verif.Pgc.reread t), none)
  texts : ∀ c e, Verif.Pgc.Event.stop e ∈ (xml.parse c).1 → Verif.Pgc.reread e = e
  dot : xml.ws '.' = false
  slash : xml.ws '/' = false

end Verif.Spec.PgcCp
