import Verif.PyDict

/-! Specification: an ordered directed graph is the list of its nodes, the list of its edges (each in order of
insertion) and the attributes of the edges. -/
namespace Verif.Spec

/-- Nodes and edges in order of insertion; attribute dictionaries by edge. -/
structure OGraph (κ ν : Type) where
  nodes : List κ
  edges : List (κ × κ)
  data : κ → κ → AD String ν

namespace OGraph
variable {κ ν : Type} [DecidableEq κ]

/-- Targets of the edges from `u`, oldest edge first. -/
def successors (s : OGraph κ ν) (u : κ) : List κ := (s.edges.filter fun e => e.1 = u).map Prod.snd

/-- Sources of the edges to `v`, oldest edge first. -/
def predecessors (s : OGraph κ ν) (v : κ) : List κ := (s.edges.filter fun e => e.2 = v).map Prod.fst

/-- A new node goes to the end. -/
def addNode (s : OGraph κ ν) (n : κ) : OGraph κ ν := if n ∈ s.nodes then s else { s with nodes := s.nodes ++ [n] }

/-- Attributes of an edge. -/
def setData (s : OGraph κ ν) (u v : κ) (d : AD String ν) : OGraph κ ν :=
  { s with data := fun a b => if a = u ∧ b = v then d else s.data a b }

/-- Overwrite attributes one by one. -/
def merge (d e : AD String ν) : AD String ν := e.foldl (fun d x => d.set x.1 x.2) d

/-- An existing edge keeps its place and its attributes are updated; a new one goes to the end.  Missing
endpoints are added first. -/
def addEdge (s : OGraph κ ν) (u v : κ) (d : AD String ν) : OGraph κ ν :=
  let s := (s.addNode u).addNode v
  if (u, v) ∈ s.edges then s.setData u v (merge (s.data u v) d)
  else ({ s with edges := s.edges ++ [(u, v)] } : OGraph κ ν).setData u v (merge [] d)

/-- Remove an edge. -/
def removeEdge (s : OGraph κ ν) (u v : κ) : OGraph κ ν := { s with edges := s.edges.filter fun e => e ≠ (u, v) }

/-- Remove a node with its edges. -/
def removeNode (s : OGraph κ ν) (n : κ) : OGraph κ ν :=
  { s with nodes := s.nodes.filter fun x => x ≠ n, edges := s.edges.filter fun e => e.1 ≠ n ∧ e.2 ≠ n }

end OGraph
end Verif.Spec
