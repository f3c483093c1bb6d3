import Verif.Model.Pgc
import Verif.Spec.CorpusEq

/-! Specification of "the corpus read is the corpus written". -/
namespace Verif.Spec.Pgc
open Verif Verif.Etree Verif.Corpus Verif.Pgc Verif.Spec

variable {γ : Type}

/-- The bank with this id has the path and the format of a bank for the same file as bank `b`. -/
def BankIs (stat : String → Option Nat) (w : World) (format : Nat → String) (s : State γ) (b : Nat) (id : String) : Prop :=
  ∃ bk b', s.banks.get? (some id) = some bk ∧ SameFile stat (w.path b) (w.path b') ∧
    bk.path = (w.path b').toList ∧ bk.format = some (format b')

/-- The graph pair read is the graph pair written: banks, graph ids, metadata (related by `R`; an element without
children is read as a new one), alignments. -/
structure PairIs (stat : String → Option Nat) (w : World) (format : Nat → String) (R : Elem → Elem → Prop) (s : State γ)
    (gp : GP) (pp : PPair γ) : Prop where
  source : BankIs stat w format s gp.source pp.sourceBank
  target : BankIs stat w format s gp.target pp.targetBank
  sourceId : pp.sourceId = gp.sourceId
  targetId : pp.targetId = gp.targetId
  metaIs : if gp.meta.elem.children ≠ [] then R gp.meta.elem pp.meta else pp.meta = .mk "graph_meta_data" [] none none []
  align : ∀ a b, GraphPair.getAlign pp.align (some a) (some b) = (GraphPair.getAlign gp.align a b).map (Option.map some)
  only : ∀ x y, x = none ∨ y = none → GraphPair.getAlign pp.align x y = .ok none

/-- The corpus read is the corpus written; equal banks are read as one bank. -/
structure CorpusIs (stat : String → Option Nat) (w : World) (format : Nat → String) (R : Elem → Elem → Prop) (c : Corpus)
    (s : State γ) : Prop where
  relations : s.rels = w.rels c.rel
  metaIs : match c.meta with
    | some m => if m.elem.children ≠ [] then ∃ e, s.meta = some e ∧ R m.elem e else s.meta = none
    | none => s.meta = none
  pairs : List.Forall₂ (fun p pp => PairIs stat w format R s (w.gp p) pp) c.pairs s.pairs
  shared : ∀ b b' i i', BankIs stat w format s b i → BankIs stat w format s b' i' →
    (∃ p ∈ s.pairs, i = p.sourceBank ∨ i = p.targetBank) → (∃ p ∈ s.pairs, i' = p.sourceBank ∨ i' = p.targetBank) →
    SameFile stat (w.path b) (w.path b') → i = i'

/-- Tags that mean something to the reader of corpora. -/
def tags : List String := ["graphbanks", "graph_pair", "node_pair", "corpus_meta_data", "file", "relation",
  "node_relations", "graph_meta_data", "aligned_graphs"]

mutual
/-- An element without such tags. -/
def Foreign : Elem → Prop
  | .mk t _ _ _ c => t ∉ tags ∧ ForeignList c
/-- A list of such elements. -/
def ForeignList : List Elem → Prop
  | [] => True
  | e :: es => Foreign e ∧ ForeignList es
end

/-- The graphs of the graph pair are graphs with the right ids, read from the files of its banks. -/
def Full (env : Env γ) (s : State γ) (pp : PPair γ) : Prop :=
  (∃ bk ids gs g, s.banks.get? (some pp.sourceBank) = some bk ∧ env.readSparse bk.path bk.format ids = .ok gs ∧
    gs.get? pp.sourceId = some g ∧ pp.source = some g) ∧
  (∃ bk ids gs g, s.banks.get? (some pp.targetBank) = some bk ∧ env.readSparse bk.path bk.format ids = .ok gs ∧
    gs.get? pp.targetId = some g ∧ pp.target = some g)

/-- Graph `i` of the file of bank `b` is in a graph pair of the corpus. -/
def Wanted (stat : String → Option Nat) (w : World) (ps : List Nat) (b : Nat) (i : String) : Prop :=
  ∃ p ∈ ps, SameFile stat (w.path b) (w.path (w.gp p).source) ∧ i = (w.gp p).sourceId ∨
    SameFile stat (w.path b) (w.path (w.gp p).target) ∧ i = (w.gp p).targetId

end Verif.Spec.Pgc
