G="Model.Graph"; D="Model.DaesoGraph"; P="Model.GraphPair"; E="Model.Etree"; C="Model.Corpus"
# --- ODiGraph
m("g1",G,"putNode","pred := g.pred.set n [], node := g.node.set n a","pred := g.pred, node := g.node.set n a","a new node is missing from the predecessor view","Graph")
m("g2",G,"addNode","| none => putNode (newDict g attr).1 n (newDict g attr).2","| none => putNode g n 0","new nodes all get the dictionary at address 0","Graph")
m("g3",G,"putEdge","let p ← setNested g2.pred v u r","let p ← setNested g2.pred u v r","source and target swapped in the predecessor view","Graph")
m("g4",G,"putEdge","    | some r => (g, r)\n","    | some _ => ({ g with eheap := upd g.eheap g.efresh [], efresh := g.efresh + 1 }, g.efresh)\n","adding an edge again forgets its old data","Graph")
m("g5",G,"putEdge","let p ← setNested g2.pred v u r","let p ← setNested g2.pred v u (r + 1)","the two views do not share the data","Graph")
m("g6",G,"addEdge","putEdge (ensureNode (ensureNode g u) v) u v attr","putEdge (ensureNode g u) u v attr","the target node is not added","Graph")
m("g7",G,"removeEdge","| .ok p => .ok { g with succ := s, pred := p }","| .ok _ => .ok { g with succ := s }","a removed edge stays in the predecessor view","Graph")
m("g8",G,"removeNode","let s ← Py.forIn back.keys s fun u s => delNested s u n\n","","edges into a removed node stay","Graph")
m("g9",G,"addEdgesFrom","(attr ++ e.2.2)","(e.2.2 ++ attr)","common attributes override those of the edge","Graph")
m("g10",G,"ensureNode","if g.succ.has n then g\n  else","if g.succ.has n then { g with succ := g.succ.set n [] }\n  else","adding an edge clears the other edges of its source","Graph")
m("g11",G,"putNode","nheap := upd g.nheap b (dictUpdate (g.nheap b) (g.nheap a))","nheap := upd g.nheap b (g.nheap a)","adding a node again replaces its attributes","Graph")
m("g12",G,"addNodesFrom","Py.forIn ns (newDict g attr).1 fun n g' => putNode g' n (newDict g attr).2","Py.forIn ns g fun n g' => putNode (newDict g' attr).1 n (newDict g' attr).2","every node gets its own dictionary (the documented behaviour)","Graph")
m("g13",G,"degree",".ok (s.length + p.length)",".ok s.length","degree counts outgoing edges only","Graph GraphPair")
m("g14",G,"edges","e.2.keys.map fun v => (e.1, v)","e.2.keys.map fun v => (v, e.1)","edges are listed backwards","Graph GraphPair")
# --- DaesoGraph
m("dg1",D,"addEdge","if ¬ g.graph.succ.has v then .error .valueError\n  else match","if False then .error .valueError\n  else match","an edge to an unknown node is not refused","DaesoGraph")
m("dg2",D,"isTerminal","if m ≠ [] then .ok false","if m = [] then .ok false","terminals are the nodes with successors","DaesoGraph")
m("dg3",D,"visit","terminals := if t then s.terminals ++ [v] else s.terminals","terminals := if t then v :: s.terminals else s.terminals","terminals in reverse order","DaesoGraph")
m("dg4",D,"visit","  if v ∈ s.seen then .ok s\n","","terminals are repeated","DaesoGraph")
m("dg5",D,"advance","| none => .ok { s with queue := s.queue.tail }","| none => .ok { s with queue := [] }","only the first path is followed","DaesoGraph")
m("dg6",D,"isTerminal","if withPunct then .ok true else (isPunct g n).map (! ·)","if withPunct then (isPunct g n).map (! ·) else .ok true","with_punct reversed","DaesoGraph")
m("dg7",D,"isEmpty","| .ok (.toks l) => .ok (l = [])","| .ok (.toks _) => .ok false","a node without tokens is not empty","DaesoGraph")
m("dg8",D,"isPunct","| .ok (.toks l) => .ok (l ≠ [] ∧ l.all inPunct)","| .ok (.toks l) => .ok (l ≠ [] ∧ l.any inPunct)","one punctuation token is enough","DaesoGraph")
m("dg9",D,"addEdgesFrom","((attr ++ [(\"label\", label)]) ++ dd)","(dd ++ (attr ++ [(\"label\", label)]))","the common label overrides that of the edge","DaesoGraph")
m("dg10",D,"addEdgesFrom","    else if ¬ g.graph.succ.has v then (g, some .valueError)\n    else match","    else match","an unknown target node raises something else","DaesoGraph")
m("dg11",D,"splitSpace","| [] => [[]]","| [] => []","the empty string has no tokens","DaesoGraph")
m("dg12",D,"splitWs","      | d :: _ => if ws d then [c] :: splitWs ws cs","      | d :: _ => if ws d then splitWs ws cs","the last character of a token is lost","DaesoGraph")
m("dg13",D,"addNode","(\"tokens\", .toks (tokens.getD []))","(\"tokens\", .toks [])","the tokens of a new node are forgotten","DaesoGraph")
m("dg14",D,"terminalYield","| some x => if falsy x then g.root else some x\n    | none => g.root","| some x => some x\n    | none => g.root","a false node name means itself (as one would expect)","DaesoGraph")
m("dg15",D,"terminals","nodes g.graph","(nodes g.graph).reverse","terminals in reverse order of nodes","DaesoGraph")
m("dg16",D,"setNodeTokens","(g.graph.nheap a).set \"tokens\" v","(g.graph.nheap a).set \"label\" v","the label is set instead","DaesoGraph")
# --- GraphMapping, GraphMatching
m("gp1",P,"addAlign",": Py (G κ ρ) := addEdge g s t",": Py (G κ ρ) := addEdge g t s","source and target swapped","GraphPair")
m("gp2",P,"delAlign","  let g ← prune g s\n  prune g t","  prune g s","unaligned target nodes stay","GraphPair")
m("gp3",P,"prune","if d = 0 then","if d ≤ 1 then","nodes with one alignment left are removed","GraphPair")
m("gp4",P,"freeTarget","| some old => if old ≠ s then do\n      let g ← removeEdge g old t\n      prune g old\n    else .ok g","| some _ => .ok g","a target keeps its old source: not one to one","GraphPair")
m("gp5",P,"freeSource","let g ← removeEdge g s old","let g ← removeEdge g old s","the wrong edge is removed","GraphPair")
m("gp6",P,"freeSource","      prune g old\n    else .ok g\n\n/-- graphpair.py:385","      .ok g\n    else .ok g\n\n/-- graphpair.py:385","a target that lost its alignment stays","GraphPair")
m("gp7",P,"alignments","| some [] => alignmentsAll g\n","| some [] => .ok []\n","an empty collection of relations selects nothing","GraphPair")
m("gp8",P,"alignments","decide (x.2 ∈ rs)","decide (x.2 ∉ rs)","the filter is reversed","GraphPair")
m("gp9",P,"rootsAligned","hasEdge g sourceRoot sourceRoot","true","the roots always count as aligned","GraphPair")
m("gp10",P,"alignmentsMatch","if r' ≠ r then .ok false else alignmentsMatch h l","if r' = r then .ok true else alignmentsMatch h l","equality found too early","GraphPair")
m("gp11",P,"alignmentsEqual","if len g = len h then","if True then","a pair with more alignments is equal","GraphPair")
m("gp12",P,"matchAlign","  let g ← freeSource g s t\n","","a source keeps its old target","GraphPair")
m("gp13",P,"getAlign","| .error .keyError => .ok none\n  | .error e => .error e\n\n/-- graphpair.py:283","| .error e => .error e\n\n/-- graphpair.py:283","unaligned nodes raise","GraphPair")
m("gp14",P,"deepcopy","(edgeData g e.1 e.2).getD []","[]","the copy loses the relations","GraphPair")
m("gp15",P,"alignedSource","predecessors g t","successors g t","the wrong direction","GraphPair")
m("gp16",P,"freeTarget","removeEdge g old t\n      prune g old","removeEdge g old t\n      prune g t","the freed source stays","GraphPair")
# --- Etree
m("et1",E,"equals","if strip ws s3 ≠ strip ws s4 then .ok false else","","tails are not compared","Etree Corpus")
m("et2",E,"equals","if ¬ dictEq a1 a2 then .ok false else","","attributes are not compared","Etree Corpus")
m("et3",E,"equals","if c1.length ≠ c2.length then .ok false else","","extra children are not noticed","Etree Corpus")
m("et4",E,"equals",".ok (bs.all id)",".ok (bs.any id)","one equal child is enough","Etree Corpus")
m("et5",E,"dictEq","decide (d.length = e.length) && ","","extra attributes are not noticed","Etree Corpus")
m("et6",E,"fixLast","| [e] => [if blank ws e.tail then e.setTail (some i) else e]","| [e] => [e.setTail (some i)]","indent overwrites the tail of the last child","Etree")
m("et7",E,"indent","if c ≠ [] ∧ blank ws x then","if blank ws x then","indent changes the text of leaves","Etree")
m("et8",E,"indent","if level ≠ 0 ∧ blank ws l then","if level ≠ 0 then","indent overwrites tails","Etree")
m("et9",E,"str","| none => .ok \"None\".toList","| none => .ok []","no text and empty text are the same (as one would expect)","Etree Corpus")
m("et10",E,"indentList","| e :: es => indent ws level e :: indentList ws level es","| e :: es => indent ws level e :: indentList ws (level + 1) es","later children are indented deeper","Etree")
m("et11",E,"newline","List.replicate (2 * level) ' '","List.replicate level ' '","one space per level","Etree")
# --- Corpus
K="Corpus"
m("c1",C,"gpEq","decide ((w.gp a).targetId = (w.gp b).targetId)","decide ((w.gp a).targetId = (w.gp b).sourceId)","wrong id compared",K)
m("c2",C,"gpEq","    andThen (metaEq ws (w.gp a).meta (w.gp b).meta) <|\n","","metadata not compared",K)
m("c3",C,"listEq","if l.length ≠ m.length then .ok false else go l m","go l m","longer corpora are equal to their beginning",K)
m("c4",C,"corpusEq","andThen (.ok (decide (w.rels c.rel = w.rels d.rel))) <|\n","","relations not compared",K)
m("c5",C,"bankEq","if p = q then .ok true\n  else match","match","the same missing file raises",K)
m("c6",C,"corpusMetaEq","| _, _ => .error .attributeError","| _, _ => .ok false","missing metadata makes corpora unequal (as one would expect)",K)
m("c7",C,"checkCompat","if w.rels c.rel ≠ w.rels d.rel then .error .valueError else .ok d",".ok d","corpora with other relations are accepted",K)
m("c8",C,"iadd","{ c with pairs := c.pairs ++ d.pairs }","{ c with pairs := d.pairs ++ c.pairs }","order of concatenation",K)
m("c9",C,"bound","(max 0 (if i < 0 then i + n else i)).toNat","(max 0 (if i ≤ 0 then i + n else i)).toNat","0 counts from the end",K)
m("c10",C,"sliceList","(l.take j).drop i","(l.drop i).take j","length instead of end",K)
m("c11",C,"delSlice","c.pairs.take (bound n i) ++ c.pairs.drop (max (bound n i) (bound n j))","c.pairs.take (bound n i) ++ c.pairs.drop (bound n j)","an empty slice duplicates pairs",K)
m("c12",C,"setSlice","c.pairs.take (bound n i) ++ d.pairs ++","d.pairs ++ c.pairs.take (bound n i) ++","replaced pairs go to the front",K)
m("c13",C,"mul","List.replicate n.toNat c.pairs","List.replicate (n.toNat + 1) c.pairs","one too many",K)
m("c14",C,"pop","c.pairs.eraseIdx k.toNat","c.pairs.eraseIdx (k.toNat + 1)","the wrong pair is removed",K)
m("c15",C,"pop","if k < 0 ∨ n ≤ k","if k < 0 ∨ n < k","index off by one",K)
m("c16",C,"newBank","| .ok (some new) => .ok (table.set old new, new)","| .ok (some new) => .ok (table.set old new, old)","the old bank is kept",K)
m("c17",C,"newBank","| .ok none => .ok (table.set old old, old)","| .ok none => .ok (table, old)","seen banks are not remembered",K)
m("c18",C,"purgeStep","source := b1, target := b2","source := b1, target := b1","target bank becomes the source bank",K)
m("c19",C,"purge","if GraphPair.len (w.gp p).align ≠ 0 then [p] else c.pairs","[p]","a pair without alignments is purged alone (as one would expect)",K)
m("c20",C,"setRelations","(w.rels a).mergeSort (fun s t => decide (s ≤ t))","w.rels a","relations are not sorted",K)

m("c22",C,"append","c.pairs ++ [p]","p :: c.pairs","appended at the front",K)
m("c23",C,"findBank","| .ok true => .ok (some new)","| .ok true => .ok (some old)","the known bank is not used",K)
m("c24",C,"metaEq","if m.oid = n.oid then .ok true else equals ws m.elem n.elem","if m.oid = n.oid then .ok true else .ok false","metadata compared by identity",K)
tight={"dg7":["DaesoGraph.isTerminal_exact"],"dg8":["DaesoGraph.isTerminal_exact"],"dg15":["DaesoGraph.terminals_exact"],
 "gp7":["GraphPair.mapping_refines","GraphPair.matching_refines"],"et11":["Etree.indent_layout"],
 "c9":["Corpus.slice_exact","Corpus.delslice_exact","Corpus.setslice_exact"],"c13":["Corpus.mul_exact"],"c22":["Corpus.append_exact"]}
