import Verif.Model.Stats

/-! Specification of the statistics of a corpus (C49): which graph pairs and alignments count. -/
namespace Verif.Spec.Stats
open Verif Verif.Stats
open Classical

/-- All tokens are punctuation, and there are some. -/
def Punct (l : List String) : Prop := l ≠ [] ∧ ∀ t ∈ l, t.toList <:+: DaesoGraph.punctuation

/-- Nodes with these tokens count. -/
def Visible (fl : Flags) (l : List String) : Prop :=
  (fl.withEmpty = true ∨ l ≠ []) ∧ (fl.withPunc = true ∨ ¬ Punct l)

/-- Some alignment links the two roots. -/
def RootLink (W : Nat → SG) (p : SPair) : Prop :=
  ∃ r s, (W p.source).root = some r ∧ (W p.target).root = some s ∧ (r, s) ∈ p.align.map Prod.fst

/-- One of the parses failed. -/
def Failed (W : Nat → SG) (p : SPair) : Prop := (W p.source).failed = true ∨ (W p.target).failed = true

/-- The graph pair counts. -/
def Kept (fl : Flags) (W : Nat → SG) (p : SPair) : Prop :=
  (fl.withFailed = true ∨ ¬ Failed W p) ∧ (fl.withUnalignedRoots = true ∨ RootLink W p)

/-- The alignment counts: both nodes do. -/
def Counted (fl : Flags) (W : Nat → SG) (p : SPair) (a : (String × String) × String) : Prop :=
  ∃ l m, (W p.source).nodes.get? a.1.1 = some l ∧ (W p.target).nodes.get? a.1.2 = some m ∧ Visible fl l ∧ Visible fl m

/-- The graph pairs that count. -/
noncomputable def kept (fl : Flags) (W : Nat → SG) (pairs : List SPair) : List SPair :=
  pairs.filter fun p => decide (Kept fl W p)

/-- The alignments of a pair that count. -/
noncomputable def counted (fl : Flags) (W : Nat → SG) (p : SPair) : List ((String × String) × String) :=
  p.align.filter fun a => decide (Counted fl W p a)

/-- All alignments that count, with their pairs. -/
noncomputable def links (fl : Flags) (W : Nat → SG) (pairs : List SPair) :
    List (SPair × ((String × String) × String)) :=
  (kept fl W pairs).flatMap fun p => (counted fl W p).map fun a => (p, a)

/-- The relations that the statistics know. -/
def relations : List String := ["equals", "restates", "specifies", "generalizes", "intersects"]

/-- Alignments between nodes of the graphs. -/
def NodesExist (W : Nat → SG) (p : SPair) : Prop :=
  ∀ a ∈ p.align, (W p.source).nodes.has a.1.1 = true ∧ (W p.target).nodes.has a.1.2 = true

end Verif.Spec.Stats

namespace Verif.Spec.Stats
open Verif Verif.Stats
open Classical

/-- The graph takes part in a graph pair that counts. -/
def Aligned (fl : Flags) (W : Nat → SG) (pairs : List SPair) (g : Nat) : Prop :=
  ∃ p ∈ kept fl W pairs, p.source = g ∨ p.target = g

/-- The graph is the source, or the target, of exactly one graph pair that counts. -/
def Single (fl : Flags) (W : Nat → SG) (pairs : List SPair) (g : Nat) : Prop :=
  (kept fl W pairs).countP (fun p => decide (p.source = g)) = 1 ∨
  (kept fl W pairs).countP (fun p => decide (p.target = g)) = 1

/-- The node takes part in an alignment that counts. -/
def NodeAligned (fl : Flags) (W : Nat → SG) (pairs : List SPair) (g : Nat) (n : String) : Prop :=
  ∃ x ∈ links fl W pairs, (x.1.source = g ∧ x.2.1.1 = n) ∨ (x.1.target = g ∧ x.2.1.2 = n)

/-- The graph is in a pair that counts although its roots are not aligned. -/
def RootUnaligned (fl : Flags) (W : Nat → SG) (pairs : List SPair) (g : Nat) : Prop :=
  ∃ p ∈ kept fl W pairs, ¬ RootLink W p ∧ (p.source = g ∨ p.target = g)

/-- The graph counts. -/
def GraphKept (fl : Flags) (W : Nat → SG) (pairs : List SPair) (g : Nat) : Prop :=
  (fl.withFailed = true ∨ (W g).failed = false) ∧ (fl.withUnalignedGraphs = true ∨ Aligned fl W pairs g)

/-- The graphs of a bank that count. -/
noncomputable def bankKept (fl : Flags) (W : Nat → SG) (pairs : List SPair) (bank : List Nat) : List Nat :=
  bank.filter fun g => decide (GraphKept fl W pairs g)

/-- The tokens of a graph that count. -/
noncomputable def shownTokens (fl : Flags) (g : SG) : List String :=
  g.tokens.filter fun t => decide (fl.withPunc = true ∨ ¬ t.toList <:+: DaesoGraph.punctuation)

/-- The nodes of a graph that count. -/
noncomputable def shownNodes (fl : Flags) (g : SG) : List String :=
  (g.nodes.filter fun n => decide (Visible fl n.2)).map Prod.fst

end Verif.Spec.Stats
