import Verif.PyDict

/-! Model of lib/daeso/graph/ograph.py:66-372 (ODiGraph) and of the inherited networkx DiGraph methods
`remove_node`, `remove_edge`, `successors`, `predecessors`, `degree` (networkx 1.x; not part of /repo).
Attribute dictionaries are objects: nodes and edges hold addresses into a heap.  Edge dictionaries are always
created by the graph, node dictionaries may be the caller's, so the two kinds live in separate heaps. -/
namespace Verif.Graph
open Verif

/-- An ODiGraph: `succ`, `pred` (dicts of dicts of edge data), `node`, and the heaps of attribute dicts. -/
structure G (κ ν : Type) where
  succ : AD κ (AD κ Nat)
  pred : AD κ (AD κ Nat)
  node : AD κ Nat
  nheap : Nat → AD String ν
  nfresh : Nat
  eheap : Nat → AD String ν
  efresh : Nat

/-- `d.update(e)`. -/
def dictUpdate {κ ν : Type} [DecidableEq κ] (d e : AD κ ν) : AD κ ν := e.foldl (fun d x => d.set x.1 x.2) d

/-- Assign to one address of a heap. -/
def upd {α : Type} (f : Nat → α) (a : Nat) (v : α) : Nat → α := fun x => if x = a then v else f x

variable {κ ν : Type} [DecidableEq κ]

/-- ograph.py:77-123 `__init__` without data. -/
def empty : G κ ν := ⟨[], [], [], fun _ => [], 0, fun _ => [], 0⟩

/-- The caller builds a dictionary. -/
def newDict (g : G κ ν) (d : AD String ν) : G κ ν × Nat :=
  ({ g with nheap := upd g.nheap g.nfresh d, nfresh := g.nfresh + 1 }, g.nfresh)

/-- ograph.py:180-185 / 218-223: store or update the attributes of node `n`, the dict being at address `a`. -/
def putNode (g : G κ ν) (n : κ) (a : Nat) : Py (G κ ν) :=
  if g.succ.has n then
    match g.node.get n with
    | .ok b => .ok { g with nheap := upd g.nheap b (dictUpdate (g.nheap b) (g.nheap a)) }
    | .error e => .error e
  else .ok { g with succ := g.succ.set n [], pred := g.pred.set n [], node := g.node.set n a }

/-- ograph.py:129-185 `add_node`; `attrDict` is the address of the caller's dictionary, if any. -/
def addNode (g : G κ ν) (n : κ) (attrDict : Option Nat) (attr : AD String ν) : Py (G κ ν) :=
  match attrDict with
  | none => putNode (newDict g attr).1 n (newDict g attr).2
  | some a => putNode { g with nheap := upd g.nheap a (dictUpdate (g.nheap a) attr) } n a

/-- ograph.py:187-223 `add_nodes_from`: all new nodes get the same dictionary object. -/
def addNodesFrom (g : G κ ν) (ns : List κ) (attr : AD String ν) : Py (G κ ν) :=
  Py.forIn ns (newDict g attr).1 fun n g' => putNode g' n (newDict g attr).2

/-- ograph.py:284-291: `if u not in self.succ: ...`. -/
def ensureNode (g : G κ ν) (n : κ) : G κ ν :=
  if g.succ.has n then g
  else { g with succ := g.succ.set n [], pred := g.pred.set n [], node := g.node.set n g.nfresh,
                nheap := upd g.nheap g.nfresh [], nfresh := g.nfresh + 1 }

/-- `d[u][v] = r` for a dict of dicts. -/
def setNested (d : AD κ (AD κ Nat)) (u v : κ) (r : Nat) : Py (AD κ (AD κ Nat)) :=
  match d.get u with
  | .ok m => .ok (d.set u (m.set v r))
  | .error e => .error e

/-- `del d[u][v]` for a dict of dicts. -/
def delNested (d : AD κ (AD κ Nat)) (u v : κ) : Py (AD κ (AD κ Nat)) :=
  match d.get u with
  | .ok m => if m.has v then .ok (d.set u (m.del v)) else .error .keyError
  | .error e => .error e

/-- ograph.py:293-296 / 368-372: get or create the data dict of edge (u, v), update it, store it in both views. -/
def putEdge (g : G κ ν) (u v : κ) (attr : AD String ν) : Py (G κ ν) := do
  let m ← g.succ.get u
  let (g1, r) := match m.get? v with
    | some r => (g, r)
    | none => ({ g with eheap := upd g.eheap g.efresh [], efresh := g.efresh + 1 }, g.efresh)
  let g2 := { g1 with eheap := upd g1.eheap r (dictUpdate (g1.eheap r) attr) }
  let s ← setNested g2.succ u v r
  let p ← setNested g2.pred v u r
  .ok { g2 with succ := s, pred := p }

/-- ograph.py:226-296 `add_edge`.  (The update of the caller's `attr_dict` is not modelled; the data is copied.) -/
def addEdge (g : G κ ν) (u v : κ) (attr : AD String ν) : Py (G κ ν) :=
  putEdge (ensureNode (ensureNode g u) v) u v attr

/-- ograph.py:299-372 `add_edges_from`; an edge is (u, v, dd), with `dd = {}` for a 2-tuple.
Updating with `attr ++ dd` is updating with `attr` and then with `dd`. -/
def addEdgesFrom (g : G κ ν) (es : List (κ × κ × AD String ν)) (attr : AD String ν) : Py (G κ ν) :=
  Py.forIn es g fun e g => addEdge g e.1 e.2.1 (attr ++ e.2.2)

/-- networkx `DiGraph.remove_edge`. -/
def removeEdge (g : G κ ν) (u v : κ) : Py (G κ ν) :=
  match delNested g.succ u v with
  | .error _ => .error .networkXError
  | .ok s => match delNested g.pred v u with
    | .error _ => .error .networkXError
    | .ok p => .ok { g with succ := s, pred := p }

/-- networkx `DiGraph.remove_node`. -/
def removeNode (g : G κ ν) (n : κ) : Py (G κ ν) :=
  match g.succ.get n with
  | .error _ => .error .networkXError
  | .ok nbrs =>
    if g.node.has n then do
      let p ← Py.forIn nbrs.keys g.pred fun u p => delNested p u n
      let s := g.succ.del n
      let back ← p.get n
      let s ← Py.forIn back.keys s fun u s => delNested s u n
      .ok { g with node := g.node.del n, pred := p.del n, succ := s }
    else .error .networkXError

/-- Assignment `g[u][v][key] = val` by a user, through the successor view. -/
def setEdgeAttr (g : G κ ν) (u v : κ) (key : String) (val : ν) : Py (G κ ν) :=
  match g.succ.get u with
  | .error e => .error e
  | .ok m => match m.get v with
    | .error e => .error e
    | .ok r => .ok { g with eheap := upd g.eheap r ((g.eheap r).set key val) }

/-- networkx `nodes()`. -/
def nodes (g : G κ ν) : List κ := g.succ.keys

/-- networkx `successors(n)`. -/
def successors (g : G κ ν) (n : κ) : Py (List κ) :=
  match g.succ.get? n with
  | some m => .ok m.keys
  | none => .error .networkXError

/-- networkx `predecessors(n)`. -/
def predecessors (g : G κ ν) (n : κ) : Py (List κ) :=
  match g.pred.get? n with
  | some m => .ok m.keys
  | none => .error .networkXError

/-- The address of the data dict of an edge in the successor view, `g.succ[u][v]`. -/
def succRef (g : G κ ν) (u v : κ) : Option Nat := (g.succ.get? u).bind fun m => m.get? v

/-- The address of the data dict of an edge in the predecessor view, `g.pred[v][u]`. -/
def predRef (g : G κ ν) (u v : κ) : Option Nat := (g.pred.get? v).bind fun m => m.get? u

/-- networkx `get_edge_data(u, v)`, i.e. `g[u][v]`. -/
def edgeData (g : G κ ν) (u v : κ) : Option (AD String ν) := (succRef g u v).map g.eheap

/-- networkx `has_edge`. -/
def hasEdge (g : G κ ν) (u v : κ) : Bool := (succRef g u v).isSome

/-- networkx `edges()`: for every node in turn its successors. -/
def edges (g : G κ ν) : List (κ × κ) := g.succ.flatMap fun e => e.2.keys.map fun v => (e.1, v)

/-- networkx `degree(n)` for a node of the graph. -/
def degree (g : G κ ν) (n : κ) : Py Nat :=
  match g.succ.get? n, g.pred.get? n with
  | some s, some p => .ok (s.length + p.length)
  | _, _ => .error .networkXError

/-- `g.node[n]`. -/
def nodeAttrs (g : G κ ν) (n : κ) : Option (AD String ν) := (g.node.get? n).map g.nheap

end Verif.Graph
