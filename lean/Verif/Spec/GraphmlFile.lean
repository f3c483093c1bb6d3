import Verif.Model.Graphml

/-! What a GraphML file says, and what graphs it should give (C61). -/
namespace Verif.Spec.GraphmlFile
open Verif Verif.Graphml

/-- A key declaration: its id, the kind of component it is for ("all" when absent) and the name of the attribute. -/
structure Decl where
  id : String
  kind : Option String
  name : String

/-- A <data> element: its key and its text, in the pieces in which it is read. -/
structure Data where
  key : String
  pieces : List Text

/-- A node: its id and its data. -/
structure Node where
  id : String
  data : List Data

/-- An edge: its ends and its data. -/
structure Edge where
  source : String
  target : String
  data : List Data

/-- A graph: its id, its own data, its nodes, its edges. -/
structure Graph where
  id : String
  data : List Data
  nodes : List Node
  edges : List Edge

/-- A file: declarations, then graphs. -/
structure File where
  decls : List Decl
  graphs : List Graph

/-! ### The document.  Any text `w` may stand between elements. -/

/-- Text before each element, and at the end. -/
def spaced (w : Text) (l : List Doc) : List Doc := (l.flatMap fun d => [.text w, d]) ++ [.text w]

/-- A <key> element. -/
def Decl.doc (k : Decl) : Doc :=
  .elem "key" ([("id", k.id), ("attr.name", k.name)] ++ (k.kind.toList.map fun f => ("for", f))) []

/-- A <data> element. -/
def Data.doc (d : Data) : Doc := .elem "data" [("key", d.key)] (d.pieces.map .text)

/-- A <node> element. -/
def Node.doc (w : Text) (n : Node) : Doc := .elem "node" [("id", n.id)] (spaced w (n.data.map Data.doc))

/-- An <edge> element. -/
def Edge.doc (w : Text) (e : Edge) : Doc :=
  .elem "edge" [("source", e.source), ("target", e.target)] (spaced w (e.data.map Data.doc))

/-- A <graph> element: its data, its nodes, its edges. -/
def Graph.doc (w : Text) (g : Graph) : Doc :=
  .elem "graph" [("id", g.id)]
    (spaced w (g.data.map Data.doc ++ g.nodes.map (Node.doc w) ++ g.edges.map (Edge.doc w)))

/-- The <graphml> element. -/
def File.doc (w : Text) (f : File) : Doc :=
  .elem "graphml" [] (spaced w (f.decls.map Decl.doc ++ f.graphs.map (Graph.doc w)))

/-! ### Its meaning -/

/-- The attribute that a key names for a kind of component: the last declaration for that kind, else the last one for all. -/
def attrName (decls : List Decl) (kind key : String) : Option String :=
  let named (k : String) := (decls.reverse.find? fun d => d.id = key ∧ d.kind.getD "all" = k).map Decl.name
  (named kind).or (named "all")

/-- The last text given for an attribute. -/
def lastText (decls : List Decl) (kind name : String) (data : List Data) : Option Text :=
  (data.reverse.find? fun d => attrName decls kind d.key = some name).map fun d => d.pieces.flatten

/-- The value of an attribute of a node: its last text, tokens split at single spaces; with no text, the label is None, the
tokens are empty. -/
def nodeValue (decls : List Decl) (data : List Data) (name : String) : Option Val :=
  match lastText decls "node" name data with
  | some t => some (if name = "tokens" then .toks (DaesoGraph.splitSpace t) else .str t)
  | none => if name = "label" then some .none else if name = "tokens" then some (.toks []) else none

/-- The value of an attribute of an edge. -/
def edgeValue (decls : List Decl) (data : List Data) (name : String) : Option Val :=
  match lastText decls "edge" name data with
  | some t => some (.str t)
  | none => if name = "label" then some .none else none

/-- The value of an attribute of a graph; its tokens are kept elsewhere. -/
def graphValue (decls : List Decl) (data : List Data) (name : String) : Option Val :=
  if name = "tokens" then none else (lastText decls "graph" name data).map .str

/-- A graph of the bank is the one that the file describes. -/
structure Means (ws : Char → Bool) (decls : List Decl) (g : Graph) (r : Gr) : Prop where
  id : r.id = g.id
  tokens : r.tokens = (lastText decls "graph" "tokens" g.data).map (DaesoGraph.splitWs ws)
  attrs : ∀ name, r.attrs.get? name = graphValue decls g.data name
  root : r.root = graphValue decls g.data "graph"
  nodes : r.nodes.keys = g.nodes.map fun n => some n.id
  nodeAttrs : ∀ n ∈ g.nodes, ∃ d, r.nodes.get? (some n.id) = some d ∧ ∀ name, d.get? name = nodeValue decls n.data name
  edges : r.edges.keys = g.edges.map fun e => (e.source, e.target)
  edgeAttrs : ∀ e ∈ g.edges, ∃ d, r.edges.get? (e.source, e.target) = some d ∧
    ∀ name, d.get? name = edgeValue decls e.data name

/-- Files that the parser accepts: kinds it knows, no double ids, every key declared, every graph with tokens, every node
with a label that is not empty and tokens, the ends of every edge among the nodes. -/
structure Valid (f : File) : Prop where
  kinds : ∀ d ∈ f.decls, d.kind.getD "all" ∈ ["graph", "node", "edge", "all"]
  graphIds : (f.graphs.map Graph.id).Nodup
  nodeIds : ∀ g ∈ f.graphs, (g.nodes.map Node.id).Nodup
  edgeIds : ∀ g ∈ f.graphs, (g.edges.map fun e => (e.source, e.target)).Nodup
  ends : ∀ g ∈ f.graphs, ∀ e ∈ g.edges, e.source ∈ g.nodes.map Node.id ∧ e.target ∈ g.nodes.map Node.id
  graphKeys : ∀ g ∈ f.graphs, ∀ d ∈ g.data, (attrName f.decls "graph" d.key).isSome
  nodeKeys : ∀ g ∈ f.graphs, ∀ n ∈ g.nodes, ∀ d ∈ n.data, (attrName f.decls "node" d.key).isSome
  edgeKeys : ∀ g ∈ f.graphs, ∀ e ∈ g.edges, ∀ d ∈ e.data, (attrName f.decls "edge" d.key).isSome
  graphTokens : ∀ g ∈ f.graphs, (lastText f.decls "graph" "tokens" g.data).isSome
  nodeLabel : ∀ g ∈ f.graphs, ∀ n ∈ g.nodes, ∃ t, lastText f.decls "node" "label" n.data = some t ∧ t ≠ []
  nodeTokens : ∀ g ∈ f.graphs, ∀ n ∈ g.nodes, (lastText f.decls "node" "tokens" n.data).isSome

/-- The ids of a file are distinct: graphs; nodes and edges of one graph. -/
structure Distinct (f : File) : Prop where
  graphIds : (f.graphs.map Graph.id).Nodup
  nodeIds : ∀ g ∈ f.graphs, (g.nodes.map Node.id).Nodup
  edgeIds : ∀ g ∈ f.graphs, (g.edges.map fun e => (e.source, e.target)).Nodup

/-- What is wrong with a graph, and the exception for it. -/
inductive GraphFault (decls : List Decl) (g : Graph) : Err → Prop where
  | graphKey (d : Data) (hd : d ∈ g.data) (h : attrName decls "graph" d.key = none) : GraphFault decls g .daesoError
  | nodeKey (n : Node) (hn : n ∈ g.nodes) (d : Data) (hd : d ∈ n.data) (h : attrName decls "node" d.key = none) :
      GraphFault decls g .daesoError
  | edgeKey (e : Edge) (he : e ∈ g.edges) (d : Data) (hd : d ∈ e.data) (h : attrName decls "edge" d.key = none) :
      GraphFault decls g .daesoError
  | noLabel (n : Node) (hn : n ∈ g.nodes) (h : ∀ t, lastText decls "node" "label" n.data = some t → t = []) :
      GraphFault decls g .daesoError
  | noNodeTokens (n : Node) (hn : n ∈ g.nodes) (h : lastText decls "node" "tokens" n.data = none) :
      GraphFault decls g .daesoError
  | noTokens (h : lastText decls "graph" "tokens" g.data = none) : GraphFault decls g .daesoError
  | noEnd (e : Edge) (he : e ∈ g.edges) (h : e.source ∉ g.nodes.map Node.id ∨ e.target ∉ g.nodes.map Node.id) :
      GraphFault decls g .valueError

/-- What is wrong with a file, and the exception for it. -/
inductive Fault (f : File) : Err → Prop where
  | kind (d : Decl) (hd : d ∈ f.decls) (h : d.kind.getD "all" ∉ ["graph", "node", "edge", "all"]) : Fault f .keyError
  | graph (g : Graph) (hg : g ∈ f.graphs) (e : Err) (h : GraphFault f.decls g e) : Fault f e

/-- A file with one graph, in which a <data> element of the graph comes last. -/
def lateDoc (w : Text) (decls : List Decl) (g : Graph) (d : Data) : Doc :=
  .elem "graphml" [] (spaced w (decls.map Decl.doc ++ [.elem "graph" [("id", g.id)]
    (spaced w (g.data.map Data.doc ++ g.nodes.map (Node.doc w) ++ g.edges.map (Edge.doc w) ++ [d.doc]))]))

end Verif.Spec.GraphmlFile
