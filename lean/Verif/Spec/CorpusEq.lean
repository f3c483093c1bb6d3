import Verif.Model.Corpus
import Verif.Spec.Xml

/-! Specification of equality of graph banks, graph pairs and corpora. -/
namespace Verif.Spec
open Verif Verif.Corpus

/-- Two paths name the same file: identical paths, or existing files with the same identity. -/
def SameFile (stat : String → Option Nat) (p q : String) : Prop := p = q ∨ ∃ i, stat p = some i ∧ stat q = some i

/-- Two metadata elements with the same content. -/
def SameMeta (ws : Char → Bool) (m n : Meta) : Prop := Xml.Same ws m.elem n.elem

/-- Graph pairs (by address) with the same banks, graphs, metadata and alignments. -/
def SamePair (stat : String → Option Nat) (ws : Char → Bool) (w : World) (a b : Nat) : Prop :=
  SameFile stat (w.path (w.gp a).source) (w.path (w.gp b).source) ∧
  SameFile stat (w.path (w.gp a).target) (w.path (w.gp b).target) ∧
  (w.gp a).sourceId = (w.gp b).sourceId ∧ (w.gp a).targetId = (w.gp b).targetId ∧
  SameMeta ws (w.gp a).meta (w.gp b).meta ∧
  ∀ s t, GraphPair.getAlign (w.gp a).align s t = GraphPair.getAlign (w.gp b).align s t

/-- Corpora with the same relations and metadata and the same graph pairs in the same order. -/
def SameCorpus (stat : String → Option Nat) (ws : Char → Bool) (w : World) (c d : Corpus) : Prop :=
  w.rels c.rel = w.rels d.rel ∧
  (match c.meta, d.meta with
    | none, none => True
    | some m, some n => SameMeta ws m n
    | _, _ => False) ∧
  List.Forall₂ (SamePair stat ws w) c.pairs d.pairs

end Verif.Spec
