import Verif.Py
import Verif.PyDict
import Verif.Model.DaesoGraph

/-! Model of lib/daeso/gb/graphml.py:52-258 and lib/daeso/gb/parser.py:43-100: the event handlers of the GraphML parser.
expat itself is not modelled; a document is the tree of its elements and pieces of text, and the parser is called for its
events in order.  `ws` is the white space test of `str.split()`.
A graph holds its own attribute dictionaries, so they are values here; `_comp_attrs` says which one is current. -/
namespace Verif.Graphml
open Verif

/-- Text of a document. -/
abbrev Text := List Char

/-- Attribute values: None, a string, a list of tokens. -/
inductive Val where
  | none
  | str (s : Text)
  | toks (l : List Text)
  deriving DecidableEq

/-- Truth of an attribute value. -/
def Val.truthy : Val → Bool
  | .none => false
  | .str s => s ≠ []
  | .toks l => l ≠ []

/-- The part of a DaesoGraph that the parser fills (daesograph.py:37-43; ograph.py:129-184; daesograph.py:180-203): nodes by
`attrs.get("id")`, edges by their ends, each with its attributes. -/
structure Gr where
  id : String
  tokens : Option (List Text) := none
  root : Option Val := none
  attrs : AD String Val := []
  nodes : AD (Option String) (AD String Val) := []
  edges : AD (String × String) (AD String Val) := []
  deriving DecidableEq

/-- graphml.py:103-105: a key object; its default value is set later. -/
structure Key where
  name : String
  default : Option Text := none
  deriving DecidableEq

/-- What `_comp_attrs` refers to: the attributes of the graph, of a node or of an edge. -/
inductive Comp where
  | graph
  | node (n : Option String)
  | edge (s t : String)
  deriving DecidableEq

/-- The state of the parser.  `ready`: a <graphml> start has set the attributes of graphml.py:80-98; key objects live on a
heap, as `_current_key` is shared with the key table; the graph under construction is the one stored under `graph`.
`node` is None before the first node. -/
structure St where
  ctx : List String := []
  buf : Text := []
  ready : Bool := false
  keys : AD String (AD String Nat) := []
  heap : List Key := []
  cur : Option Nat := none
  dataKey : Option String := none
  graph : Option String := none
  comp : Option Comp := none
  node : Option (Option String) := none
  bank : AD String (Option Gr) := []

/-- `self._graph_wanted()` (graphml.py:138-140). -/
def wanted (s : St) : Py Bool := if s.ready then .ok s.graph.isSome else .error .attributeError

/-- Change the graph under construction. -/
def modGraph (s : St) (f : Gr → Py Gr) : Py St :=
  match s.graph with
  | none => .error .attributeError
  | some i => match s.bank.get? i with
    | some (some g) => match f g with
      | .error e => .error e
      | .ok g' => .ok { s with bank := s.bank.set i (some g') }
    | _ => .error .attributeError

/-- `self._comp_attrs[name] = value` (None: TypeError). -/
def setAttr (s : St) (name : String) (v : Val) : Py St :=
  match s.comp with
  | none => .error .typeError
  | some .graph => modGraph s fun g => .ok { g with attrs := g.attrs.set name v }
  | some (.node n) => modGraph s fun g => match g.nodes.get n with
    | .error e => .error e
    | .ok d => .ok { g with nodes := g.nodes.set n (d.set name v) }
  | some (.edge a b) => modGraph s fun g => match g.edges.get (a, b) with
    | .error e => .error e
    | .ok d => .ok { g with edges := g.edges.set (a, b) (d.set name v) }

/-- `self._comp_attrs.get(name)` (None: AttributeError). -/
def getAttr (s : St) (name : String) : Py Val :=
  match s.comp, s.graph.bind fun i => (s.bank.get? i).bind id with
  | some .graph, some g => .ok ((g.attrs.get? name).getD .none)
  | some (.node n), some g => .ok ((((g.nodes.get? n).getD []).get? name).getD .none)
  | some (.edge a b), some g => .ok ((((g.edges.get? (a, b)).getD []).get? name).getD .none)
  | _, _ => .error .attributeError

/-- graphml.py:190-197, 251-258: store a value; tokens of graphs and nodes are split (daesograph.py:53-55, 140-141). -/
def store (ws : Char → Bool) (s : St) (keyFor : Option String) (name : String) (v : Text) : Py St :=
  if name = "tokens" ∧ keyFor = some "graph" then
    modGraph s fun g => .ok { g with tokens := some (DaesoGraph.splitWs ws v) }
  else if name = "tokens" ∧ keyFor = some "node" then
    match s.node with
    | none => .error .attributeError
    | some n => modGraph s fun g => match g.nodes.get n with
      | .error e => .error e
      | .ok d => .ok { g with nodes := g.nodes.set n (d.set "tokens" (.toks (DaesoGraph.splitSpace v))) }
  else setAttr s name (.str v)

/-- graphml.py:235-258 `_set_defaults`; the values of the dictionaries in order of insertion. -/
def setDefaults (ws : Char → Bool) (s : St) : Py St :=
  match s.ctx with
  | [] => .error .indexError
  | keyFor :: _ =>
    if ¬ s.ready then .error .attributeError
    else match s.keys.get "all" with
      | .error e => .error e
      | .ok all => match s.keys.get keyFor with
        | .error e => .error e
        | .ok own => Py.forIn (all.map Prod.snd ++ own.map Prod.snd) s fun r s =>
            match (s.heap[r]?).bind fun k => k.default.map fun d => (k.name, d) with
            | none => .ok s
            | some (name, d) => store ws s (some keyFor) name d

/-- graphml.py:80-98 `_start_graphml`. -/
def startGraphml (s : St) : St :=
  { s with ready := true, keys := [("graph", []), ("node", []), ("edge", []), ("all", [])], cur := none, dataKey := none,
           graph := none }

/-- graphml.py:101-105 `_start_key`. -/
def startKey (attrs : AD String String) (s : St) : Py St :=
  match attrs.get "attr.name" with
  | .error e => .error e
  | .ok name =>
    if ¬ s.ready then .error .attributeError
    else match s.keys.get ((attrs.get? "for").getD "all") with
      | .error e => .error e
      | .ok m => match attrs.get "id" with
        | .error e => .error e
        | .ok i => .ok { s with heap := s.heap ++ [{ name := name }], cur := some s.heap.length,
                                keys := s.keys.set ((attrs.get? "for").getD "all") (m.set i s.heap.length) }

/-- graphml.py:108-114 `_start_graph`; without id, None is no key of the dictionary of ids. -/
def startGraph (ws : Char → Bool) (sparse : Bool) (attrs : AD String String) (s : St) : Py St :=
  if sparse = false ∨ ((attrs.get? "id").any fun i => s.bank.has i) = true then
    match attrs.get "id" with
    | .error e => .error e
    | .ok i => setDefaults ws { s with graph := some i, bank := s.bank.set i (some { id := i }), comp := some .graph }
  else .ok s

/-- ograph.py:129-184 through daesograph.py:67-72, for `label=None`. -/
def addNode (g : Gr) (n : Option String) : Gr :=
  { g with nodes := g.nodes.set n ((((g.nodes.get? n).getD []).set "label" .none).set "tokens" (.toks [])) }

/-- graphml.py:117-123 `_start_node`. -/
def startNode (ws : Char → Bool) (attrs : AD String String) (s : St) : Py St :=
  match modGraph s fun g => .ok (addNode g (attrs.get? "id")) with
  | .error e => .error e
  | .ok s => match setDefaults ws { s with comp := some (.node (attrs.get? "id")) } with
    | .error e => .error e
    | .ok s => .ok { s with node := some (attrs.get? "id") }

/-- daesograph.py:180-203 with `label=None`: both nodes must exist. -/
def addEdge (g : Gr) (a b : String) : Py Gr :=
  if g.nodes.has (some a) = false ∨ g.nodes.has (some b) = false then .error .valueError
  else .ok { g with edges := g.edges.set (a, b) (((g.edges.get? (a, b)).getD []).set "label" .none) }

/-- graphml.py:126-131 `_start_edge`. -/
def startEdge (ws : Char → Bool) (attrs : AD String String) (s : St) : Py St :=
  match attrs.get "source" with
  | .error e => .error e
  | .ok a => match attrs.get "target" with
    | .error e => .error e
    | .ok b => match modGraph s fun g => addEdge g a b with
      | .error e => .error e
      | .ok s => setDefaults ws { s with comp := some (.edge a b) }

/-- graphml.py:134-135 `_start_data`. -/
def startData (attrs : AD String String) (s : St) : Py St :=
  match attrs.get "key" with
  | .error e => .error e
  | .ok k => .ok { s with dataKey := some k }

/-- graphml.py:61-77 `_start_element`. -/
def startElement (ws : Char → Bool) (sparse : Bool) (tag : String) (attrs : AD String String) (s : St) : Py St :=
  let s := { s with ctx := tag :: s.ctx, buf := [] }
  if tag = "graphml" then .ok (startGraphml s)
  else if tag = "key" then startKey attrs s
  else if tag = "graph" then startGraph ws sparse attrs s
  else match wanted s with
    | .error e => .error e
    | .ok false => .ok s
    | .ok true =>
      if tag = "node" then startNode ws attrs s
      else if tag = "edge" then startEdge ws attrs s
      else if tag = "data" then startData attrs s
      else .ok s

/-- graphml.py:157-167 `_end_graph`. -/
def endGraph (s : St) : Py St :=
  match wanted s with
  | .error e => .error e
  | .ok false => .ok s
  | .ok true => match modGraph s fun g => match g.tokens with
      | none => .error .daesoError
      | some _ => .ok { g with root := g.attrs.get? "graph" } with
    | .error e => .error e
    | .ok s => .ok { s with graph := none, comp := none }

/-- graphml.py:170-178 `_end_node`. -/
def endNode (s : St) : Py St :=
  match getAttr s "label" with
  | .error e => .error e
  | .ok l => if l.truthy = false then .error .daesoError
    else match getAttr s "tokens" with
      | .error e => .error e
      | .ok t => if t.truthy = false then .error .daesoError
        else .ok { s with node := some none, comp := none }

/-- `self._key_table[f][self._data_key]["name"]`. -/
def keyName (s : St) (f : String) : Py String :=
  match s.keys.get f with
  | .error e => .error e
  | .ok m => match s.dataKey with
    | none => .error .keyError
    | some k => match m.get k with
      | .error e => .error e
      | .ok r => match s.heap[r]? with
        | none => .error .keyError
        | some k => .ok k.name

/-- graphml.py:213-232 `_lookup_attr_name`. -/
def lookupName (s : St) : Py String :=
  match s.ctx[1]? with
  | none => .error .indexError
  | some f => match keyName s f with
    | .ok n => .ok n
    | .error .keyError => (match keyName s "all" with
      | .ok n => .ok n
      | .error _ => .error .daesoError)
    | .error e => .error e

/-- graphml.py:185-199 `_end_data`. -/
def endData (ws : Char → Bool) (s : St) : Py St :=
  match lookupName s with
  | .error e => .error e
  | .ok name => match store ws s s.ctx[1]? name s.buf with
    | .error e => .error e
    | .ok s => .ok { s with dataKey := none }

/-- graphml.py:202-205 `_end_default`. -/
def endDefault (s : St) : Py St :=
  match s.cur with
  | none => .error .typeError
  | some r => match s.heap[r]? with
    | none => .error .typeError
    | some k => .ok { s with heap := s.heap.set r { k with default := some s.buf } }

/-- graphml.py:143-154 `_end_element`; `tag in "node"` is a substring test. -/
def endElement (ws : Char → Bool) (tag : String) (s : St) : Py St :=
  match (if tag = "graph" then endGraph s
    else match wanted s with
      | .error e => .error e
      | .ok false => .ok s
      | .ok true =>
        if tag.toList <:+: "node".toList then endNode s
        else if tag = "data" then endData ws s
        else if tag = "default" then endDefault s
        else .ok s) with
  | .error e => .error e
  | .ok s => .ok { s with ctx := s.ctx.tail }

/-- graphml.py:208-210 `_char_data`. -/
def charData (d : Text) (s : St) : Py St :=
  match wanted s with
  | .error e => .error e
  | .ok true => .ok { s with buf := s.buf ++ d }
  | .ok false => .ok s

/-- A document: elements and pieces of text. -/
inductive Doc where
  | elem (tag : String) (attrs : AD String String) (content : List Doc)
  | text (t : Text)

mutual
/-- The handlers called for a piece of a document, in order. -/
def run (ws : Char → Bool) (sparse : Bool) : Doc → St → Py St
  | .text t, s => charData t s
  | .elem tag attrs content, s => match startElement ws sparse tag attrs s with
    | .error e => .error e
    | .ok s => match runAll ws sparse content s with
      | .error e => .error e
      | .ok s => endElement ws tag s
/-- The handlers called for pieces in sequence. -/
def runAll (ws : Char → Bool) (sparse : Bool) : List Doc → St → Py St
  | [], s => .ok s
  | d :: ds, s => match run ws sparse d s with
    | .error e => .error e
    | .ok s => runAll ws sparse ds s
end

/-- parser.py:74-87 `parse_file` with a fresh parser: the dictionary of ids as it is left. -/
def parseFile (ws : Char → Bool) (sparse : Bool) (bank : AD String (Option Gr)) (d : Doc) :
    Py (AD String (Option Gr)) :=
  match run ws sparse d { bank := bank } with
  | .error e => .error e
  | .ok s => if sparse = true ∧ (s.bank.any fun e => e.2.isNone) = true then .error .daesoError else .ok s.bank

/-- graphbank.py:150-158 `GraphBank.load`. -/
def load (ws : Char → Bool) (d : Doc) : Py (AD String (Option Gr)) := parseFile ws false [] d

/-- graphbank.py:203-220 `SparseGraphBank.load`, for the ids of the stubs in use. -/
def loadSparse (ws : Char → Bool) (ids : List String) (d : Doc) : Py (AD String (Option Gr)) :=
  parseFile ws true (ids.map fun i => (i, none)) d

/-- parser.py:56-66, 90-100 `parse_string`, up to the end of the data: `_check_for_unresolved_graphs` lacks its argument. -/
def parseString (ws : Char → Bool) (sparse : Bool) (bank : AD String (Option Gr)) (d : Doc) :
    Py (AD String (Option Gr)) :=
  match run ws sparse d { bank := bank } with
  | .error e => .error e
  | .ok s => if sparse then .error .typeError else .ok s.bank

end Verif.Graphml
