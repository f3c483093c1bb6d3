import Verif.Model.Graph

/-! Model of the node alignments of lib/daeso/pgc/graphpair.py:190-411 (GraphMapping and GraphMatching).
A GraphMapping is a networkx DiGraph whose edges carry the attribute `relation`; source and target nodes live in
one name space.  networkx is not part of /repo; its DiGraph methods are those of Model/Graph.lean, with
insertion order for the order of its (unordered) dictionaries. -/
namespace Verif.GraphPair
open Verif Verif.Graph

variable {κ ρ : Type} [DecidableEq κ]

/-- graphpair.py:276-280 `get_align`: KeyError gives None. -/
def getAlign (g : G κ ρ) (s t : κ) : Py (Option ρ) :=
  match (do
    let m ← g.succ.get s
    let r ← m.get t
    (g.eheap r).get "relation" : Py ρ) with
  | .ok r => .ok (some r)
  | .error .keyError => .ok none
  | .error e => .error e

/-- graphpair.py:283-285 `GraphMapping.add_align`. -/
def addAlign (g : G κ ρ) (s t : κ) (r : ρ) : Py (G κ ρ) := addEdge g s t [("relation", r)]

/-- graphpair.py:291-297, 381-383, 393-395: remove a node that became unaligned.  networkx skips names that are
not in the graph; a NetworkXError of `remove_node` is ignored. -/
def prune (g : G κ ρ) (n : κ) : Py (G κ ρ) :=
  if g.succ.has n then
    match degree g n with
    | .error e => .error e
    | .ok d => if d = 0 then
        match removeNode g n with
        | .ok g' => .ok g'
        | .error .networkXError => .ok g
        | .error e => .error e
      else .ok g
  else .ok g

/-- graphpair.py:288-297 `del_align`. -/
def delAlign (g : G κ ρ) (s t : κ) : Py (G κ ρ) := do
  let g ← removeEdge g s t
  let g ← prune g s
  prune g t

/-- networkx `edges_iter(data=True)` with `data["relation"]`. -/
def alignmentsAll (g : G κ ρ) : Py (List ((κ × κ) × ρ)) :=
  Py.forIn (edges g) [] fun e l =>
    match edgeData g e.1 e.2 with
    | none => .error .keyError
    | some d => match d.get "relation" with
      | .error er => .error er
      | .ok r => .ok (l ++ [(e, r)])

/-- graphpair.py:303-310 `alignments_iter`, `alignments`: no filter for None and for an empty collection. -/
def alignments [DecidableEq ρ] (g : G κ ρ) (relations : Option (List ρ)) : Py (List ((κ × κ) × ρ)) :=
  match relations with
  | none => alignmentsAll g
  | some [] => alignmentsAll g
  | some rs => (alignmentsAll g).map fun l => l.filter fun x => decide (x.2 ∈ rs)

/-- graphpair.py:260-264 `__len__`. -/
def len (g : G κ ρ) : Nat := (edges g).length

/-- graphpair.py:317-324 `roots_aligned`, given the roots of the two graphs. -/
def rootsAligned (g : G κ ρ) (sourceRoot _targetRoot : κ) : Bool := hasEdge g sourceRoot sourceRoot

/-- graphpair.py:351-359: the loop over the alignments of self; None counts as false. -/
def alignmentsMatch [DecidableEq ρ] (h : G κ ρ) : List ((κ × κ) × ρ) → Py Bool
  | [] => .ok true
  | (e, r) :: l =>
    match (do
      let m ← h.succ.get e.1
      let a ← m.get e.2
      (h.eheap a).get "relation" : Py ρ) with
    | .ok r' => if r' ≠ r then .ok false else alignmentsMatch h l
    | .error .keyError => .ok false
    | .error er => .error er

/-- graphpair.py:341-361 `_alignments_equal`; None counts as false. -/
def alignmentsEqual [DecidableEq ρ] (g h : G κ ρ) : Py Bool :=
  if len g = len h then
    match alignments g none with
    | .error e => .error e
    | .ok l => alignmentsMatch h l
  else .ok false

/-- graphpair.py:373-383: free the source node of its alignment to another target. -/
def freeSource (g : G κ ρ) (s t : κ) : Py (G κ ρ) :=
  match (g.succ.get? s).bind fun m => m.keys.head? with
  | none => .ok g
  | some old => if old ≠ t then do
      let g ← removeEdge g s old
      prune g old
    else .ok g

/-- graphpair.py:385-395: free the target node of its alignment to another source. -/
def freeTarget (g : G κ ρ) (s t : κ) : Py (G κ ρ) :=
  match (g.pred.get? t).bind fun m => m.keys.head? with
  | none => .ok g
  | some old => if old ≠ s then do
      let g ← removeEdge g old t
      prune g old
    else .ok g

/-- graphpair.py:371-397 `GraphMatching.add_align`. -/
def matchAlign (g : G κ ρ) (s t : κ) (r : ρ) : Py (G κ ρ) := do
  let g ← freeSource g s t
  let g ← freeTarget g s t
  addEdge g s t [("relation", r)]

/-- graphpair.py:400-404 `get_aligned_source_node`. -/
def alignedSource (g : G κ ρ) (t : κ) : Option κ :=
  match predecessors g t with
  | .ok l => l.head?
  | .error _ => none

/-- graphpair.py:407-411 `get_aligned_target_node`. -/
def alignedTarget (g : G κ ρ) (s : κ) : Option κ :=
  match successors g s with
  | .ok l => l.head?
  | .error _ => none

/-- graphpair.py:244-257 `__deepcopy__`, through networkx `DiGraph(data=g)`: the nodes, then the edges with a copy of
their data.  (Node attributes are never set by a graph pair and are left out.) -/
def deepcopy (g : G κ ρ) : Py (G κ ρ) := do
  let h ← addNodesFrom empty (nodes g) []
  addEdgesFrom h ((edges g).map fun e => (e.1, e.2, (edgeData g e.1 e.2).getD [])) []

end Verif.GraphPair
