Z="Model.Graphml"; T="Graphml GraphmlFile"
m("gml-ctx",Z,"startElement","ctx := tag :: s.ctx, buf := [] }\n  if","ctx := tag :: s.ctx }\n  if","text before an element is dropped",T)
m("gml-keyall",Z,"startKey",'s.keys.get ((attrs.get? "for").getD "all")','s.keys.get ((attrs.get? "for").getD "node")',"a key without for holds for all",T)
m("gml-heap",Z,"startKey","(m.set i s.heap.length)","(m.set i 0)","each key names its own attribute",T)
m("gml-keyset",Z,"startKey",'keys := s.keys.set ((attrs.get? "for").getD "all") (m.set i s.heap.length)','keys := s.keys.set "all" (m.set i s.heap.length)',"a key for nodes holds for nodes only",T)
m("gml-first",Z,"startGraphml",'[("graph", []), ("node", []), ("edge", []), ("all", [])]','[("graph", []), ("node", []), ("all", [])]',"keys for edges",T)
m("gml-sparse",Z,"startGraph","if sparse = false ∨","if sparse = true ∨","only the wanted graphs in sparse mode",T)
m("gml-comp",Z,"startGraph","comp := some .graph }","comp := none }","data of a graph are stored",T)
m("gml-addnode",Z,"addNode",'.set "label" .none).set "tokens" (.toks [])','.set "label" .none).set "tokens" .none',"a node starts with no tokens",T)
m("gml-addlab",Z,"addNode",'(((g.nodes.get? n).getD []).set "label" .none).set "tokens" (.toks [])','((g.nodes.get? n).getD []).set "tokens" (.toks [])',"label None first",T)
m("gml-node",Z,"startNode","| .ok s => .ok { s with node := some (attrs.get? \"id\") }","| .ok s => .ok s","tokens go to the current node",T)
m("gml-ends",Z,"addEdge","if g.nodes.has (some a) = false ∨ g.nodes.has (some b) = false","if g.nodes.has (some a) = false","both ends must exist",T)
m("gml-swap",Z,"addEdge","edges := g.edges.set (a, b) (((g.edges.get? (a, b))","edges := g.edges.set (b, a) (((g.edges.get? (b, a))","direction of an edge",T)
m("gml-src",Z,"startEdge","modGraph s fun g => addEdge g a b","modGraph s fun g => addEdge g b a","direction of an edge",T)
m("gml-edgecomp",Z,"startEdge","{ s with comp := some (.edge a b) }","s","data of an edge go to the edge",T)
m("gml-root",Z,"endGraph",'root := g.attrs.get? "graph"','root := g.attrs.get? "root"',"the root is looked up under graph",T)
m("gml-notok",Z,"endGraph","| none => .error .daesoError\n      | some _ =>","| none => .ok g\n      | some _ =>","a graph needs tokens",T)
m("gml-leave",Z,"endGraph",".ok { s with graph := none, comp := none }",".ok { s with comp := none }","a graph ends",T)
m("gml-label",Z,"endNode","if l.truthy = false then .error .daesoError","if l.truthy = true then .error .daesoError","a node needs a label",T)
m("gml-label0",Z,"endNode","if l.truthy = false then .error .daesoError\n    else","if false then .error .daesoError\n    else","a node needs a label",T)
m("gml-tokens0",Z,"endNode","if t.truthy = false then .error .daesoError\n        else","if false then .error .daesoError\n        else","a node needs tokens",T)
m("gml-endnode",Z,"endNode",".ok { s with node := some none, comp := none }",".ok s","graph data after a node fail",T)
m("gml-all",Z,"lookupName",'match keyName s "all" with','match keyName s "node" with',"general keys are found",T)
m("gml-undef",Z,"lookupName","| .error _ => .error .daesoError)",'| .error _ => .ok "")',"an undeclared key is an error",T)
m("gml-split",Z,"store","tokens := some (DaesoGraph.splitWs ws v)","tokens := some (DaesoGraph.splitSpace v)","tokens of a graph are split at white space",T)
m("gml-split2",Z,"store","(.toks (DaesoGraph.splitSpace v))","(.toks (DaesoGraph.splitWs ws v))","tokens of a node are split at spaces",T)
m("gml-kind",Z,"store",'name = "tokens" ∧ keyFor = some "graph"','name = "tokens"',"tokens of a node go to the node",T)
m("gml-default",Z,"charData","| .ok true => .ok { s with buf := s.buf ++ d }","| .ok true => .ok { s with buf := d }","text in pieces is joined",T)
m("gml-default2",Z,"endElement",'| .ok false => .ok s\n      | .ok true =>\n        if tag.toList','| .ok false => if tag = "default" then endDefault s else .ok s\n      | .ok true =>\n        if tag.toList',"defaults are ignored",T)
m("gml-unres",Z,"parseFile","if sparse = true ∧ (s.bank.any fun e => e.2.isNone) = true","if sparse = true ∧ (s.bank.all fun e => e.2.isNone) = true","a missing graph is an error",T)
m("gml-unres2",Z,"parseFile","if sparse = true ∧ (s.bank.any fun e => e.2.isNone) = true then .error .daesoError else","if false then .error .daesoError else","a missing graph is an error",T)
m("gml-stub",Z,"loadSparse","(ids.map fun i => (i, none))","[]","the wanted ids",T)
m("gml-string",Z,"parseString","if sparse then .error .typeError else .ok s.bank",".ok s.bank","sparse strings fail",T)
m("gml-edgeattr",Z,"setAttr","edges := g.edges.set (a, b) (d.set name v)","edges := g.edges.set (a, b) [(name, v)]","attributes of an edge are kept",T)
m("gml-nodeattr",Z,"setAttr","nodes := g.nodes.set n (d.set name v)","nodes := g.nodes.set n ((name, v) :: d)","an attribute has one value",T)
m("gml-truth",Z,"truthy","| .str s => s ≠ []","| .str _ => true","an empty label is no label",T)
m("gml-late",Z,"endNode",".ok { s with node := some none, comp := none }",".ok { s with node := some none, comp := some .graph }","graph data after a node raise TypeError",T)
m("gml-undef2",Z,"lookupName","| .error _ => .error .daesoError)","| .error e => .error e)","an undeclared key raises DaesoError",T)
m("gml-kinderr",Z,"startKey",'match s.keys.get ((attrs.get? "for").getD "all") with\n      | .error e => .error e\n      | .ok m =>','match (.ok ((s.keys.get? ((attrs.get? "for").getD "all")).getD []) : Py _) with\n      | .error e => .error e\n      | .ok m =>',"an unknown kind is an error",T)
tight={"gml-notok":["loads_iff","fault_raised"],"gml-undef":["loads_iff","fault_raised"],"gml-truth":["loads_iff","fault_raised"]}
