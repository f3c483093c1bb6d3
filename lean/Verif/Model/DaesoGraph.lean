import Verif.Model.Graph
import Verif.Lemmas.Base

/-! Model of lib/daeso/graph/daesograph.py:35-242. -/
namespace Verif.DaesoGraph
open Verif Verif.Graph

/-- Attribute values of nodes and edges: None, a string or a list of tokens. -/
inductive Val where
  | none
  | str (s : String)
  | toks (l : List String)
  deriving DecidableEq

/-- daesograph.py:37-43: the attributes of a DaesoGraph beside the ODiGraph. -/
structure DG (κ : Type) where
  graph : G κ Val
  tokens : Option (List String)
  root : Option κ

variable {κ : Type} [DecidableEq κ]

/-- daesograph.py:37-43 `__init__`. -/
def empty (tokens : Option (List String)) (root : Option κ) : DG κ := ⟨Graph.empty, tokens, root⟩

/-- daesograph.py:67-72 `add_node`; `tokens or []`. -/
def addNode (g : DG κ) (n : κ) (label : Val) (tokens : Option (List String)) (attrDict : Option Nat)
    (attr : AD String Val) : Py (DG κ) :=
  match Graph.addNode g.graph n attrDict ([("label", label), ("tokens", .toks (tokens.getD []))] ++ attr) with
  | .ok g' => .ok { g with graph := g' }
  | .error e => .error e

/-- daesograph.py:180-203 `add_edge`. -/
def addEdge (g : DG κ) (u v : κ) (label : Val) (attr : AD String Val) : Py (DG κ) :=
  if ¬ g.graph.succ.has u then .error .valueError
  else if ¬ g.graph.succ.has v then .error .valueError
  else match putEdge g.graph u v (attr ++ [("label", label)]) with
    | .ok g' => .ok { g with graph := g' }
    | .error e => .error e

/-- daesograph.py:206-242 `add_edges_from`: the graph as it is left, and the exception if there is one. -/
def addEdgesFrom (g : DG κ) (label : Val) (attr : AD String Val) : List (κ × κ × AD String Val) → DG κ × Option Err
  | [] => (g, none)
  | (u, v, dd) :: es =>
    if ¬ g.graph.succ.has u then (g, some .valueError)
    else if ¬ g.graph.succ.has v then (g, some .valueError)
    else match putEdge g.graph u v ((attr ++ [("label", label)]) ++ dd) with
      | .ok g' => addEdgesFrom { g with graph := g' } label attr es
      | .error e => (g, some e)

/-- `self.node[n]["tokens"]`. -/
def nodeTokens (g : DG κ) (n : κ) : Py Val :=
  match g.graph.node.get n with
  | .error e => .error e
  | .ok a => (g.graph.nheap a).get "tokens"

/-- Python 2 `string.punctuation`. -/
def punctuation : List Char := "!\"#$%&'()*+,-./:;<=>?@[\\]^_`{|}~".toList

/-- `t in string.punctuation`: a substring test. -/
def inPunct (t : String) : Bool := decide (t.toList <:+: punctuation)

/-- daesograph.py:114-121 `node_is_punct`; None counts as false.  A string is a sequence of characters. -/
def isPunct (g : DG κ) (n : κ) : Py Bool :=
  match nodeTokens g n with
  | .error e => .error e
  | .ok .none => .ok false
  | .ok (.str s) => .ok (s.toList ≠ [] ∧ s.toList.all fun c => decide (c ∈ punctuation))
  | .ok (.toks l) => .ok (l ≠ [] ∧ l.all inPunct)

/-- daesograph.py:109-111 `node_is_empty`. -/
def isEmpty (g : DG κ) (n : κ) : Py Bool :=
  match nodeTokens g n with
  | .error e => .error e
  | .ok .none => .ok true
  | .ok (.str s) => .ok (s.toList = [])
  | .ok (.toks l) => .ok (l = [])

/-- daesograph.py:81-84 `node_is_terminal`, with the lazy evaluation of `and` and `or`. -/
def isTerminal (g : DG κ) (n : κ) (withPunct withEmpty : Bool) : Py Bool :=
  match g.graph.succ.get n with
  | .error e => .error e
  | .ok m =>
    if m ≠ [] then .ok false
    else
      match (if withPunct then .ok true else (isPunct g n).map (! ·) : Py Bool) with
      | .error e => .error e
      | .ok false => .ok false
      | .ok true => if withEmpty then .ok true else (isEmpty g n).map (! ·)

/-- Local variables of `terminal_yield`: `queue` (top first), `seen`, `terminals`. -/
structure YState (κ : Type) where
  queue : List κ
  seen : List κ
  terminals : List κ

/-- daesograph.py:157-161: look at the top of the stack for the first time. -/
def visit (T : κ → Py Bool) (v : κ) (s : YState κ) : Py (YState κ) :=
  if v ∈ s.seen then .ok s
  else match T v with
    | .error e => .error e
    | .ok t => .ok { s with terminals := if t then s.terminals ++ [v] else s.terminals, seen := s.seen ++ [v] }

/-- daesograph.py:163-172: push the first unseen successor, or pop. -/
def advance (succs : κ → Py (List κ)) (v : κ) (s : YState κ) : Py (YState κ) :=
  match succs v with
  | .error e => .error e
  | .ok ws => match ws.find? fun w => decide (w ∉ s.seen) with
    | some w => .ok { s with queue := w :: s.queue }
    | none => .ok { s with queue := s.queue.tail }

/-- daesograph.py:155-172: body of the loop. -/
def yieldBody (succs : κ → Py (List κ)) (T : κ → Py Bool) (s : YState κ) : Py (YState κ) :=
  match s.queue with
  | [] => .error .indexError
  | v :: _ => match visit T v s with
    | .error e => .error e
    | .ok s1 => advance succs v s1

/-- daesograph.py:154-172: the loop, with a budget of loop tests. -/
def yieldLoop (succs : κ → Py (List κ)) (T : κ → Py Bool) (fuel : Nat) (s : YState κ) : Py (YState κ) :=
  Py.whileLoop (fun s : YState κ => .ok (decide (s.queue ≠ []))) (yieldBody succs T) fuel s

/-- daesograph.py:144-174 `terminal_yield`.  `falsy` tells which node names count as false in `n or self.root`;
None is not a node, so `self[None]` raises KeyError. -/
def terminalYield (falsy : κ → Bool) (fuel : Nat) (g : DG κ) (n : Option κ) (withPunct withEmpty : Bool) :
    Py (List κ) :=
  match (match n with
    | some x => if falsy x then g.root else some x
    | none => g.root) with
  | none => .error .keyError
  | some x =>
    match yieldLoop (successors g.graph) (fun v => isTerminal g v withPunct withEmpty) fuel ⟨[x], [], []⟩ with
    | .ok s => .ok s.terminals
    | .error e => .error e

/-- daesograph.py:91-97 `terminals`. -/
def terminals (g : DG κ) (withPunct withEmpty : Bool) : Py (List κ) :=
  Py.forIn (nodes g.graph) [] fun v l => match isTerminal g v withPunct withEmpty with
    | .error e => .error e
    | .ok t => .ok (if t then l ++ [v] else l)

/-! ### Token strings, as lists of characters -/

/-- `" ".join(tokens)`. -/
def join : List (List Char) → List Char
  | [] => []
  | [t] => t
  | t :: ts => t ++ ' ' :: join ts

/-- `s.split(" ")`: cut at every space. -/
def splitSpace : List Char → List (List Char)
  | [] => [[]]
  | c :: cs => if c = ' ' then [] :: splitSpace cs
    else match splitSpace cs with
      | t :: ts => (c :: t) :: ts
      | [] => [[c]]

/-- `s.split()` with the white space test `ws`: the maximal runs of other characters. -/
def splitWs (ws : Char → Bool) : List Char → List (List Char)
  | [] => []
  | c :: cs => if ws c then splitWs ws cs
    else match cs with
      | [] => [[c]]
      | d :: _ => if ws d then [c] :: splitWs ws cs
        else match splitWs ws cs with
          | t :: ts => (c :: t) :: ts
          | [] => [[c]]

/-- daesograph.py:140-141 `set_node_token_string`, as a change of the node's tokens. -/
def setNodeTokenString (s : List Char) : List (List Char) := splitSpace s

/-- daesograph.py:132-137 `get_node_token_string`. -/
def getNodeTokenString (tokens : List (List Char)) : List Char := join tokens

/-- daesograph.py:53-55 `set_graph_token_string`. -/
def setGraphTokenString (ws : Char → Bool) (s : List Char) : List (List Char) := splitWs ws s

/-- daesograph.py:46-50 `get_graph_token_string`. -/
def getGraphTokenString (tokens : List (List Char)) : List Char := join tokens

/-- daesograph.py:124-125, 128-129 `set_node_tokens`. -/
def setNodeTokens (g : DG κ) (n : κ) (v : Val) : Py (DG κ) :=
  match g.graph.node.get n with
  | .error e => .error e
  | .ok a => .ok { g with graph := { g.graph with nheap := upd g.graph.nheap a ((g.graph.nheap a).set "tokens" v) } }

end Verif.DaesoGraph
