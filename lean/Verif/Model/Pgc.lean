import Verif.Model.Corpus

/-! Model of lib/daeso/pgc/corpus.py:719-1217 (PGCParser, PGCGenerator), with lib/daeso/gb/graphbank.py:41-219 and
lib/daeso/gb/graphstub.py (graph banks and graph stubs).  The XML library is not part of /repo: writing and reading
an element tree gives the same tree with empty texts absent (`reread`). -/
namespace Verif.Pgc
open Verif Verif.Etree Verif.Corpus

/-! ### Generator -/

/-- corpus.py:1192-1199 `_gen_node_pairs`: one element. -/
def nodePairElem (x : (String × String) × String) : Elem :=
  .mk "node_pair" [("from_node_id", x.1.1), ("to_node_id", x.1.2), ("relation", x.2)] none none []

/-- corpus.py:1144-1150: the table from banks to the banks that stand for them, the list of banks to be written, and
the `_id` attributes given. -/
structure BankTable where
  table : AD Nat Nat
  banks : List Nat
  ids : AD Nat String

/-- corpus.py:1165-1187: the id written for a bank. -/
def bankId (eq : Nat → Nat → Py Bool) (s : BankTable) (old : Nat) : Py (BankTable × String) :=
  match s.table.get? old with
  | some new => match s.ids.get? new with
    | some i => .ok (s, i)
    | none => .error .attributeError
  | none => match findBank eq old (s.table.map Prod.snd) with
    | .error e => .error e
    | .ok (some new) => match s.ids.get? new with
      | some i => .ok ({ s with table := s.table.set old new }, i)
      | none => .error .attributeError
    | .ok none =>
      let i := toString (s.banks.length + 1)
      .ok (⟨s.table.set old old, s.banks ++ [old], s.ids.set old i⟩, i)

/-- corpus.py:1152-1187: one graph pair.  An element without children counts as false. -/
def genPair (eq : Nat → Nat → Py Bool) (gp : GP) (n : Nat) (s : BankTable) : Py (BankTable × Elem) :=
  match GraphPair.alignments gp.align none with
  | .error e => .error e
  | .ok l => match bankId eq s gp.source with
    | .error e => .error e
    | .ok (s, b1) => match bankId eq s gp.target with
      | .error e => .error e
      | .ok (s, b2) => .ok (s, .mk "graph_pair"
          [("n", toString (n + 1)), ("from_graph_id", gp.sourceId), ("to_graph_id", gp.targetId),
            ("from_bank_id", b1), ("to_bank_id", b2)] none none
          ((if gp.meta.elem.children ≠ [] then [gp.meta.elem] else []) ++ l.map nodePairElem))

/-- corpus.py:1136-1189 `_gen_aligned_graphs`: the children of the element. -/
def genPairs (eq : Nat → Nat → Py Bool) (gp : Nat → GP) : List Nat → Nat → BankTable → Py (BankTable × List Elem)
  | [], _, s => .ok (s, [])
  | p :: ps, n, s => match genPair eq (gp p) n s with
    | .error e => .error e
    | .ok (s, e) => match genPairs eq gp ps (n + 1) s with
      | .error e => .error e
      | .ok (s, es) => .ok (s, e :: es)

/-- corpus.py:1202-1217 `_gen_graphbanks`: one element.  `shown` is the text for a path (relative or absolute). -/
def fileElem (w : World) (format : Nat → String) (shown : String → Text) (ids : AD Nat String) (b : Nat) : Elem :=
  .mk "file" [("id", (ids.get? b).getD ""), ("format", format b)] (some (shown (w.path b))) none []

/-- corpus.py:1116-1126, 1129-1133 `_gen_pg_corpus`. -/
def generate (stat : String → Option Nat) (w : World) (format : Nat → String) (shown : String → Text) (c : Corpus) :
    Py Elem :=
  match genPairs (fun a b => bankEq stat (w.path a) (w.path b)) w.gp c.pairs 0 ⟨[], [], []⟩ with
  | .error e => .error e
  | .ok (s, es) => .ok <| .mk "parallel_graph_corpus" [] none none <|
      (match c.meta with
        | some m => if m.elem.children ≠ [] then [m.elem] else []
        | none => []) ++
      [.mk "graphbanks" [] none none (s.banks.map (fileElem w format shown s.ids)),
       .mk "node_relations" [] none none ((w.rels c.rel).map fun r => .mk "relation" [] (some r.toList) none []),
       .mk "aligned_graphs" [] none none es]

/-! ### XML library -/

/-- An empty text is not there after reading. -/
def noEmpty (x : Option Text) : Option Text := if x = some [] then none else x

mutual
/-- The element read from the text written for an element. -/
def reread : Elem → Elem
  | .mk t a x l c => .mk t a (noEmpty x) (noEmpty l) (rereadList c)
/-- All elements of a list. -/
def rereadList : List Elem → List Elem
  | [] => []
  | e :: es => reread e :: rereadList es
end

/-- Events of `iterparse`.  Handlers of start events look at tag and attributes only; the element of an end event is
an object that gets its tail after the event. -/
inductive Event where
  | start (e : Elem)
  | stop (e : Elem)

mutual
/-- The events for an element: its start, its children, its end. -/
def events : Elem → List Event
  | .mk t a x l c => .start (.mk t a x l c) :: (eventsList c ++ [.stop (.mk t a x l c)])
/-- The events for a list of elements. -/
def eventsList : List Elem → List Event
  | [] => []
  | e :: es => events e ++ eventsList es
end

/-! ### Parser -/

/-- corpus.py:49-50: how to load graphs. -/
inductive Load where
  | all | sparse | none
  deriving DecidableEq

variable {γ : Type}

/-- A graph bank while parsing (graphbank.py:41-61, 186-193): the absolute file path, the format, whether it is loaded,
the graphs (LOAD_ALL), and for each graph stub the graph pairs that use it, its clients. -/
structure Bank (γ : Type) where
  path : Text
  format : Option String
  loaded : Bool := false
  graphs : AD String γ := []
  stubs : AD String (List Nat) := []

/-- A graph pair while parsing.  Banks are given by their ids (there is one bank object for an id); a graph is a stub
(none) or a full graph. -/
structure PPair (γ : Type) where
  sourceBank : String
  targetBank : String
  sourceId : String
  targetId : String
  source : Option γ
  target : Option γ
  «meta» : Elem
  align : Graph.G (Option String) (Option String)

/-- State of the parser, corpus.py:751-762, and the corpus.  `graph_pair` is the last graph pair of the corpus.  Once
`set_relations` got the non-empty list of relations, the corpus shares it (`shared`). -/
structure State (γ : Type) where
  defaultFormat : Option String := none
  relations : List String := []
  shared : Bool := false
  «meta» : Option Elem := none
  banks : AD (Option String) (Bank γ) := []
  pairs : List (PPair γ) := []

/-- The relations of the corpus. -/
def State.rels (s : State γ) : List String := if s.shared then s.relations else []

/-- Everything outside the program that parsing depends on: the white space test, the absolute path for the text of a
<file> element (corpus.py:949-974; graphbank.py:138), and the graphs in a graph bank file, all of them or those with
the ids wanted. -/
structure Env (γ : Type) where
  ws : Char → Bool
  resolve : Text → Text
  readAll : Text → Option String → Py (AD String γ)
  readSparse : Text → Option String → List String → Py (AD String γ)

/-- corpus.py:832-840 (IOError becomes DaesoError). -/
def ioError : Err → Err
  | .osError => .daesoError
  | e => e

/-- graphbank.py:150-158 `GraphBank.load`. -/
def loadAll (env : Env γ) (b : Bank γ) : Py (Bank γ) :=
  if b.loaded then .error .assertionError
  else match env.readAll b.path b.format with
    | .error e => .error (ioError e)
    | .ok gs => .ok { b with graphs := gs, loaded := true }

/-- graphstub.py:88-96: one client gets the full graph.  A full graph belongs to one bank and one id, as a stub does. -/
def replaceIn (bank : Option String) (i : String) (g : γ) (pairs : List (PPair γ)) (k : Nat) : Py (List (PPair γ)) :=
  match pairs[k]? with
  | none => .error .indexError
  | some p =>
    if p.sourceBank = p.targetBank ∧ p.sourceId = p.targetId ∧ p.source.isSome = p.target.isSome then
      .error .assertionError
    else if some p.sourceBank = bank ∧ p.sourceId = i ∧ p.source.isNone then .ok (pairs.set k { p with source := some g })
    else if some p.targetBank = bank ∧ p.targetId = i ∧ p.target.isNone then .ok (pairs.set k { p with target := some g })
    else .error .valueError

/-- graphstub.py:88-96: the loop over the clients; the graph pairs as they are left, and the exception. -/
def replaceClients (bank : Option String) (i : String) (g : γ) : List Nat → List (PPair γ) → List (PPair γ) × Option Err
  | [], pairs => (pairs, none)
  | k :: ks, pairs => match replaceIn bank i g pairs k with
    | .error e => (pairs, some e)
    | .ok pairs => replaceClients bank i g ks pairs

/-- graphstub.py:73-100 `replace_stub`. -/
def replaceStub (bank : Option String) (i : String) (clients : List Nat) (g : γ) (pairs : List (PPair γ)) :
    List (PPair γ) × Option Err :=
  if clients = [] then (pairs, some .assertionError) else replaceClients bank i g clients pairs

/-- graphbank.py:212-217: the loop over the stubs. -/
def replaceStubs (bank : Option String) (gs : AD String γ) : List (String × List Nat) → List (PPair γ) →
    List (PPair γ) × Option Err
  | [], pairs => (pairs, none)
  | x :: l, pairs => match gs.get? x.1 with
    | none => (pairs, some .keyError)
    | some g => match replaceStub bank x.1 x.2 g pairs with
      | (pairs, some e) => (pairs, some e)
      | (pairs, none) => replaceStubs bank gs l pairs

/-- graphbank.py:203-219 `SparseGraphBank.load`, parser.py:84-100: DaesoError when a graph is missing.  The graph pairs
as they are left, and the bank or the exception. -/
def loadSparse (env : Env γ) (id : Option String) (b : Bank γ) (pairs : List (PPair γ)) :
    List (PPair γ) × Py (Bank γ) :=
  if b.loaded then (pairs, .error .assertionError)
  else match env.readSparse b.path b.format b.stubs.keys with
    | .error e => (pairs, .error (ioError e))
    | .ok gs =>
      if b.stubs.keys.any fun i => (gs.get? i).isNone then (pairs, .error .daesoError)
      else match replaceStubs id gs b.stubs pairs with
        | (pairs, some e) => (pairs, .error e)
        | (pairs, none) => (pairs, .ok { b with loaded := true, graphs := gs })

/-- corpus.py:832-840 `load_graphbanks`: one bank. -/
def loadBank (env : Env γ) (mode : Load) (x : Option String × Bank γ) (s : State γ) : Py (State γ) :=
  match mode with
  | .all => match loadAll env x.2 with
    | .error e => .error e
    | .ok b => .ok { s with banks := s.banks.set x.1 b }
  | _ => match loadSparse env x.1 x.2 s.pairs with
    | (_, .error e) => .error e
    | (pairs, .ok b) => .ok { s with banks := s.banks.set x.1 b, pairs := pairs }

/-- corpus.py:832-840 `load_graphbanks`. -/
def loadBanks (env : Env γ) (mode : Load) (s : State γ) : Py (State γ) := Py.forIn s.banks s (loadBank env mode)

/-- corpus.py:925-929 with graphbank.py:196-200 `get_graph_stub`, graphstub.py:46-70 (an empty id is an assertion
error), and corpus.py:863-876 `add_client`: graph pair `k` becomes a client of stub `i`. -/
def addStub (b : Bank γ) (i : String) (k : Nat) : Py (Bank γ) :=
  if b.loaded then .error .assertionError
  else if i = "" then .error .assertionError
  else .ok { b with stubs := b.stubs.set i ((b.stubs.get? i).getD [] ++ [k]) }

/-- A new graph pair: graphpair.py:43-78, without alignments and with empty metadata. -/
def newPair (sb tb si ti : String) (s t : Option γ) : PPair γ :=
  ⟨sb, tb, si, ti, s, t, .mk "graph_meta_data" [] none none [], Graph.empty⟩

/-- corpus.py:863-931 `handle_graph_pair_elem_start` with `_get_banks` and `_get_graphs`. -/
def startPair (mode : Load) (s : State γ) (a : AD String String) : Py (State γ) :=
  match a.get? "from_bank_id", a.get? "to_bank_id" with
  | some sb, some tb =>
    match s.banks.get? (some sb), s.banks.get? (some tb) with
    | some bs, some bt =>
      match a.get? "from_graph_id", a.get? "to_graph_id" with
      | some si, some ti =>
        match mode with
        | .all => match bs.graphs.get? si, bt.graphs.get? ti with
          | some g, some h => .ok { s with pairs := s.pairs ++ [newPair sb tb si ti (some g) (some h)] }
          | _, _ => .error .daesoError
        | _ =>
          match addStub bs si s.pairs.length with
          | .error e => .error e
          | .ok b => match (s.banks.set (some sb) b).get? (some tb) with
            | none => .error .keyError
            | some bt => match addStub bt ti s.pairs.length with
              | .error e => .error e
              | .ok b' => .ok { s with
                  banks := (s.banks.set (some sb) b).set (some tb) b'
                  pairs := s.pairs ++ [newPair sb tb si ti none none] }
      | _, _ => .error .daesoError
    | _, _ => .error .daesoError
  | _, _ => .error .daesoError

/-- corpus.py:934-938 `handle_node_pair_start`; before the first graph pair an AttributeError. -/
def startNodePair (s : State γ) (a : AD String String) : Py (State γ) :=
  match s.pairs.getLast? with
  | none => .error .attributeError
  | some p =>
    match GraphPair.matchAlign p.align (a.get? "from_node_id") (a.get? "to_node_id") (a.get? "relation") with
    | .error e => .error e
    | .ok g => .ok { s with pairs := s.pairs.dropLast ++ [{ p with align := g }] }

/-- `elem.get("format") or self.default_format`. -/
def orDefault (f d : Option String) : Option String :=
  match f with
  | some f => if f = "" then d else some f
  | none => d

/-- corpus.py:949-979 `handle_file_elem_end`. -/
def endFile (env : Env γ) (s : State γ) (e : Elem) : Py (State γ) :=
  if s.banks.has (e.attrib.get? "id") then .error .assertionError
  else match e.text with
    | none => .error .attributeError
    | some x => .ok { s with
        banks := s.banks.set (e.attrib.get? "id")
          (Bank.mk (env.resolve (strip env.ws x)) (orDefault (e.attrib.get? "format") s.defaultFormat) false [] []) }

/-- corpus.py:984-985 `handle_relation_elem_end`. -/
def endRelation (env : Env γ) (s : State γ) (e : Elem) : Py (State γ) :=
  match e.text with
  | none => .error .attributeError
  | some x => .ok { s with relations := s.relations ++ [String.ofList (strip env.ws x)] }

/-- corpus.py:988-989 `handle_node_relations_elem_end`, 431-433 `set_relations`. -/
def endRelations (s : State γ) : State γ :=
  if s.relations = [] then { s with shared := false }
  else { s with relations := s.relations.mergeSort (fun x y => decide (x ≤ y)), shared := true }

/-- corpus.py:992-994 `handle_graph_meta_data_elem_end`. -/
def endGraphMeta (s : State γ) (e : Elem) : Py (State γ) :=
  match s.pairs.getLast? with
  | none => .error .attributeError
  | some p => .ok { s with pairs := s.pairs.dropLast ++ [{ p with «meta» := e }] }

/-- corpus.py:801-826, 1043-1074: the handler of an event.  (Warnings about illegal elements, and `in_meta_data`, which
serves them only, are not modelled.) -/
def step (env : Env γ) (mode : Load) (s : State γ) : Event → Py (State γ)
  | .start e =>
    if e.tag = "graphbanks" then .ok { s with defaultFormat := e.attrib.get? "format" }
    else if e.tag = "graph_pair" then startPair mode s e.attrib
    else if e.tag = "node_pair" then startNodePair s e.attrib
    else .ok s
  | .stop e =>
    if e.tag = "corpus_meta_data" then .ok { s with «meta» := some e }
    else if e.tag = "file" then endFile env s e
    else if e.tag = "graphbanks" then if mode = .all then loadBanks env .all s else .ok s
    else if e.tag = "relation" then endRelation env s e
    else if e.tag = "node_relations" then .ok (endRelations s)
    else if e.tag = "graph_meta_data" then endGraphMeta s e
    else if e.tag = "aligned_graphs" then if mode = .sparse then loadBanks env .sparse s else .ok s
    else .ok s

/-- corpus.py:765-829 `parse` into a new corpus. -/
def parse (env : Env γ) (mode : Load) (evs : List Event) : Py (State γ) :=
  Py.forIn evs {} fun e s => step env mode s e

end Verif.Pgc
