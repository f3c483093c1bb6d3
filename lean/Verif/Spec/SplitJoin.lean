import Verif.Model.SplitJoin
import Verif.Spec.PgcCp
import Verif.Spec.Xml

/-! What splitting and joining corpus files should do. -/
namespace Verif.Spec.SplitJoin
open Verif Verif.Etree Verif.Pgc Verif.PgcCp Verif.Spec.PgcCp

variable {β γ : Type}

/-- How metadata is kept: as it is, or but for white space if the XML is indented. -/
def Kept (ws : Char → Bool) (pprint : Bool) (e e' : Elem) : Prop := if pprint then Xml.Respaced ws e e' else e' = e

/-- A graph pair of `s` is the same as one of `t`: banks, graphs, metadata (empty metadata is read as a new element), and
alignments. -/
structure SamePair (R : Elem → Elem → Prop) (stat : String → Option Nat) (s t : State γ) (p q : PPair γ) : Prop where
  source : SameBank stat s t p.sourceBank q.sourceBank
  target : SameBank stat s t p.targetBank q.targetBank
  ids : q.sourceId = p.sourceId ∧ q.targetId = p.targetId
  metaIs : if p.meta.children = [] then q.meta = .mk "graph_meta_data" [] none none [] else R p.meta q.meta
  align : ∀ x y, GraphPair.getAlign q.align x y = GraphPair.getAlign p.align x y

/-- The corpus `t` has just the graph pairs `l` of the corpus `s`, in order, its relations and its metadata, and no other graph
bank files. -/
structure Same (R : Elem → Elem → Prop) (stat : String → Option Nat) (s : State γ) (l : List (PPair γ)) (t : State γ) : Prop where
  relations : t.rels = s.rels
  metaIs : match s.meta with
    | none => t.meta = none
    | some e => if e.children = [] then t.meta = none else ∃ e', t.meta = some e' ∧ R e e'
  pairs : List.Forall₂ (SamePair R stat s t) l t.pairs
  files : ∀ b, Used t b → ∃ b', Used s b' ∧ b.path = b'.path

/-- Graph `i` of the file of bank `b` is in a graph pair. -/
def Wanted (stat : String → Option Nat) (s : State γ) (b : Bank γ) (i : String) : Prop :=
  ∃ p ∈ s.pairs, ∃ j b', s.banks.get? (some j) = some b' ∧ SameFile stat (String.ofList b.path) (String.ofList b'.path) ∧
    (j = p.sourceBank ∧ i = p.sourceId ∨ j = p.targetBank ∧ i = p.targetId)

/-- The graph bank files have the graphs of the graph pairs, and no graph is aligned with itself (such a graph cannot be loaded,
C47). -/
structure Loadable (gb : SplitJoin.Banks γ) (stat : String → Option Nat) (s : State γ) : Prop where
  self : ∀ p ∈ s.pairs, ∀ b b', s.banks.get? (some p.sourceBank) = some b → s.banks.get? (some p.targetBank) = some b' →
    SameFile stat (String.ofList b.path) (String.ofList b'.path) → p.sourceId ≠ p.targetId
  graphs : ∀ b, Used s b → ∀ ids : List String, (∀ i ∈ ids, Wanted stat s b i) →
    ∃ gs, gb.wanted b.path b.format ids = .ok gs ∧ ∀ i ∈ ids, (gs.get? i).isSome

/-- The path `p` is `r`, a dot, and an extension `x`; before the dot is a character of the file name that is not a dot. -/
def Stem (p r x : Text) : Prop :=
  p = r ++ '.' :: x ∧ '.' ∉ x ∧ '/' ∉ x ∧ ∃ d c b, r = d ++ c :: b ∧ c ≠ '.' ∧ '/' ∉ c :: b

/-- A path is split into what comes before the extension and the extension with its dot, empty if there is none. -/
def SplitExt (p r e : Text) : Prop :=
  (∃ x, e = '.' :: x ∧ Stem p r x) ∨ e = [] ∧ r = p ∧ ∀ r' x, ¬ Stem p r' x

end Verif.Spec.SplitJoin
