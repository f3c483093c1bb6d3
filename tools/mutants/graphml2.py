Z="Model.Graphml"; T="Graphml GraphmlFile"
m("gm2-getattr-edge",Z,"getAttr","| some (.edge a b), some g => .ok ((((g.edges.get? (a, b)).getD []).get? name).getD .none)","| some (.edge _ _), some g => .ok ((g.attrs.get? name).getD .none)","the label of the current element is checked",T)
m("gm2-getattr-node",Z,"getAttr","| some (.node n), some g => .ok ((((g.nodes.get? n).getD []).get? name).getD .none)","| some (.node _), some g => .ok ((g.attrs.get? name).getD .none)","the label of the node is checked",T)
m("gm2-def-order",Z,"setDefaults","(all.map Prod.snd ++ own.map Prod.snd)","(own.map Prod.snd ++ all.map Prod.snd)","own defaults override general ones",T)
m("gm2-def-own",Z,"setDefaults","(all.map Prod.snd ++ own.map Prod.snd)","(all.map Prod.snd)","own defaults are set",T)
m("gm2-def-none",Z,"setDefaults","| none => .ok s\n            | some (name, d)","| none => .error .typeError\n            | some (name, d)","a key without default sets nothing",T)
m("gm2-start-data",Z,"startData","dataKey := some k","dataKey := none","data is named by its key",T)
m("gm2-start-data2",Z,"startData",'attrs.get "key"','attrs.get "id"',"data is named by its key",T)
m("gm2-key-name",Z,"keyName","| some k => .ok k.name",'| some _ => .ok k',"an attribute is named by attr.name",T)
m("gm2-end-data",Z,"endData","store ws s s.ctx[1]? name s.buf","store ws s s.ctx[0]? name s.buf","tokens of graphs are split",T)
m("gm2-end-data2",Z,"endData","store ws s s.ctx[1]? name s.buf","store ws s s.ctx[1]? name []","data are stored",T)
m("gm2-end-tail",Z,"endElement","ctx := s.ctx.tail }","ctx := s.ctx }","elements are closed",T)
m("gm2-load-sparse",Z,"load","parseFile ws false [] d","parseFile ws true [] d","all graphs are loaded",T)
m("gm2-start-setdef",Z,"startGraph","s.bank.set i (some { id := i })",'s.bank.set i (some ((s.bank.get? i).bind id |>.getD { id := i }))',"a graph given twice starts anew",T)
m("gm2-node-id",Z,"startNode",'addNode g (attrs.get? "id")','addNode g (some ((attrs.get? "id").getD ""))',"a node without id is None",T)
m("gm2-edge-miss",Z,"addEdge",".error .valueError",".error .keyError","an unknown end raises ValueError",T)
m("gm2-lookup-ctx",Z,"lookupName","match s.ctx[1]? with","match s.ctx.getLast? with","the key is looked up for the element",T)
m("gm2-elem-buf",Z,"startElement","buf := [] }","buf := s.buf }","text before is dropped",T)
m("gm2-wanted",Z,"wanted","else .error .attributeError","else .ok false","no graphml element fails",T)
m("gm2-key-get",Z,"startKey",'attrs.get "attr.name"','attrs.get "id"',"keys are named by attr.name",T)
m("gm2-run-rest",Z,"runAll","| .ok s => runAll ws sparse ds s","| .ok s => .ok s","all pieces are read",T)
m("gm2-store-tok",Z,"store",'name = "tokens" ∧ keyFor = some "node"','name = "tokens" ∧ keyFor = some "edge"',"tokens of nodes are split",T)
m("gm2-set-graph",Z,"setAttr","attrs := g.attrs.set name v","attrs := [(name, v)]","attributes of the graph accumulate",T)
