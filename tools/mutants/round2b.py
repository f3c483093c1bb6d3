Z="Model.Graph"; T="Graph DaesoGraph"
m("g2-upd",Z,"dictUpdate","e.foldl (fun d x => d.set x.1 x.2) d","d.foldl (fun e x => e.set x.1 x.2) e","new values win",T)
m("g2-setn",Z,"setNested",".ok (d.set u (m.set v r))",".ok (d.set u [(v, r)])","other edges are kept",T)
m("g2-deln",Z,"delNested","if m.has v then .ok (d.set u (m.del v)) else .error .keyError",".ok (d.set u (m.del v))","removing a missing edge raises",T)
m("g2-deln2",Z,"delNested",".ok (d.set u (m.del v)) else",".ok (d.set u []) else","other edges are kept",T)
m("g2-succ",Z,"successors","match g.succ.get? n with","match g.pred.get? n with","successors",T)
m("g2-pred",Z,"predecessors","match g.pred.get? n with","match g.succ.get? n with","predecessors",T)
m("g2-sref",Z,"succRef","(g.succ.get? u).bind fun m => m.get? v","(g.succ.get? v).bind fun m => m.get? u","direction",T)
m("g2-pref",Z,"predRef","(g.pred.get? v).bind fun m => m.get? u","(g.pred.get? u).bind fun m => m.get? v","direction",T)
m("g2-nodes",Z,"nodes","g.succ.keys","g.succ.keys.reverse","nodes in order of insertion",T)
m("g2-data",Z,"setEdgeAttr","upd g.eheap r ((g.eheap r).set key val)","upd g.eheap r [(key, val)]","other attributes are kept",T)
m("g2-attrs",Z,"nodeAttrs","(g.node.get? n).map g.nheap","(g.node.get? n).map fun _ => []","attributes of nodes",T)
Z="Model.DaesoGraph"; T="DaesoGraph"
m("d2-punct",Z,"punctuation","!\\\"#$%","!#$%","all punctuation characters",T)
m("d2-in",Z,"inPunct","t.toList <:+: punctuation","t.toList <+: punctuation","any punctuation character",T)
m("d2-body",Z,"yieldBody","| .ok s1 => advance succs v s1","| .ok s1 => .ok { s1 with queue := s1.queue.tail }","descends to terminals",T)
m("d2-set",Z,"setNodeTokenString","List (List Char) := splitSpace s","List (List Char) := [s]","tokens are cut",T)
m("d2-gts",Z,"setGraphTokenString","splitWs ws s","splitSpace s","tokens are cut at white space",T)
m("d2-ggs",Z,"getGraphTokenString","(tokens : List (List Char)) : List Char := join tokens\n\n/-- daesograph.py:124","(tokens : List (List Char)) : List Char := tokens.flatten\n\n/-- daesograph.py:124","tokens are joined with spaces",T)
m("d2-tok",Z,"nodeTokens",'(g.graph.nheap a).get "tokens"','(g.graph.nheap a).get "label"',"tokens of a node",T)
Z="Model.Stats"; T="Stats StatsCorpus"
m("s2-prist",Z,"pristine","fun _ => true, fun _ _ => 0","fun _ => false, fun _ _ => 0","roots count as aligned at first",T)
m("s2-inc",Z,"inc","if k = col then r k + 1 else r k","r k + 1","one column",T)
m("s2-empty",Z,"nodeEmpty",".ok (l = [])",".ok (l ≠ [])","empty nodes",T)
m("s2-np",Z,"nodePunct","l ≠ [] ∧ l.all DaesoGraph.inPunct)\n\n/-- `a or b`","l ≠ [] ∧ l.any DaesoGraph.inPunct)\n\n/-- `a or b`","punctuation only",T)
m("s2-or",Z,"orElse","| .ok true => .ok true\n  | .ok false => b","| .ok true => b\n  | .ok false => .ok false","or",T)
m("s2-nps",Z,"nodePairStats","Py.forIn p.align st","Py.forIn p.align.dedup st","each alignment counts",T)
m("s2-na",Z,"nodeAligned","at'.nFrom g n ≠ 0 || at'.nTo g n ≠ 0","at'.nFrom g n ≠ 0","aligned on either side",T)
m("s2-ga",Z,"graphAligned","at'.gFrom g ≠ 0 || at'.gTo g ≠ 0","at'.gFrom g ≠ 0 && at'.gTo g ≠ 0","aligned on either side",T)
m("s2-gs",Z,"graphStats","Py.forIn bank r","Py.forIn bank.tail r","all graphs of a bank",T)
m("s2-cs",Z,"corpusStats","graphStats fl c.graph at' bank zeroRow","graphStats fl c.graph pristine bank zeroRow","alignment of the corpus",T)
m("s2-ps",Z,"pgcStats","(l.map Prod.snd).flatten","(l.map Prod.snd).reverse.flatten","rows in order",T)
m("s2-zero",Z,"zeroRow","fun _ => 0\n\n/-- gbstats.py:110","fun _ => 1\n\n/-- gbstats.py:110","counts start at 0",T)
Z="Model.StatsTable"; T="StatsTable"
m("t2-len",Z,"len","| .other l => l.length\n\n/-- table.py:37","| .other _ => 0\n\n/-- table.py:37","rows of all columns",T)
m("t2-type",Z,"ofType",'if type = "count".toList then .count [] else','if type = "string".toList then .count [] else',"types of columns",T)
m("t2-lines",Z,"splitLines","if c = '\\n' then [] :: splitLines cs else match splitLines cs with","if c = '\\n' then splitLines cs else match splitLines cs with","lines",T)
m("t2-init",Z,"init","Py.forIn (splitLines columnsDef) []","Py.forIn (splitLines columnsDef).tail []","all lines define columns",T)
m("t2-ljust",Z,"ljust","s ++ List.replicate (w - s.length) ' '","s.take w ++ List.replicate (w - s.length) ' '","long strings are kept",T)
m("t2-trunc",Z,"truncate","if q < 0 then ⌈q⌉ else ⌊q⌋","⌊q⌋","overall counts",T)
m("t2-tw",Z,"totWidth","(t.map width).sum","(t.map width).sum + 1","rules as wide as the table",T)
m("t2-body",Z,"bodyLine","(t.map fun c => bodyCell c i).flatten ++ ['\\n']","(t.map fun c => bodyCell c (i+1)).flatten ++ ['\\n']","rows",T)
m("t2-leg",Z,"writeLegenda","(t.mapIdx legendaLine).flatten","(t.tail.mapIdx legendaLine).flatten","all columns in the legenda",T)
m("t2-dig",Z,"allDigits","decide (s ≠ []) && s.all Char.isDigit","s.all Char.isDigit","an empty number is an error",T)
m("t2-sign",Z,"signOf","| '-' :: s => (-1, s)","| '-' :: s => (1, s)","negative numbers",T)
m("t2-app",Z,"appendVal","| .string l => .ok (.string (l ++ [v]))","| .string l => .ok (.string (v :: l))","rows in order",T)
m("t2-read",Z,"read","readLines ws (fileLines file) 0 t","readLines ws (fileLines file) 1 t","the head is no row",T)
Z="Model.Pgc"; T="Pgc"
m("p2-gen",Z,"genPairs","genPairs eq gp ps (n + 1) s","genPairs eq gp ps n s","pairs are numbered",T)
m("p2-noempty",Z,"noEmpty","if x = some [] then none else x","x","empty text is not there",T)
m("p2-reread",Z,"reread",".mk t a (noEmpty x) (noEmpty l) (rereadList c)",".mk t a (noEmpty x) l (rereadList c)","empty tails are not there",T)
m("p2-ev",Z,"events",".start (.mk t a x l c) :: (eventsList c ++ [.stop (.mk t a x l c)])",".start (.mk t a x l c) :: .stop (.mk t a x l c) :: eventsList c","an element ends after its children",T)
m("p2-rels",Z,"rels","if s.shared then s.relations else []","s.relations","relations are set when they are complete",T)
m("p2-io",Z,"ioError","| .osError => .daesoError","| .osError => .osError","IOError becomes DaesoError",T)
m("p2-la",Z,"loadAll","{ b with graphs := gs, loaded := true }","{ b with graphs := gs }","banks are loaded once",T)
m("p2-rc",Z,"replaceClients","| .ok pairs => replaceClients bank i g ks pairs","| .ok pairs => (pairs, none)","all clients get the graph",T)
m("p2-rss",Z,"replaceStubs","| (pairs, none) => replaceStubs bank gs l pairs","| (pairs, none) => (pairs, none)","all stubs are replaced",T)
m("p2-lb",Z,"loadBank","banks := s.banks.set x.1 b, pairs := pairs }","banks := s.banks.set x.1 b }","pairs get their graphs",T)
m("p2-lbs",Z,"loadBanks","Py.forIn s.banks s","Py.forIn s.banks.tail s","all banks are loaded",T)
m("p2-stub",Z,"addStub","(b.stubs.get? i).getD [] ++ [k]","[k]","all pairs with the stub",T)
m("p2-stub2",Z,"addStub",'else if i = "" then .error .assertionError',"","an empty graph id is an error",T)
m("p2-new",Z,"newPair","⟨sb, tb, si, ti, s, t,","⟨tb, sb, si, ti, s, t,","banks of a pair",T)
m("p2-rel",Z,"endRelation","s.relations ++ [String.ofList (strip env.ws x)]","s.relations ++ [String.ofList x]","relations are stripped",T)
m("p2-parse",Z,"parse","Py.forIn evs {}","Py.forIn evs.dropLast {}","all events",T)
Z="Model.Corpus"; T="Corpus"
m("c2-slice",Z,"getSlice","(match j with | some j => bound n j | none => n)","(match j with | some j => bound n j | none => n - 1)","slices to the end",T)
m("c2-bound",Z,"bound","(max 0 (if i < 0 then i + n else i))","(max 0 (if i < 0 then 0 else i))","negative bounds count from the end",T)
m("c2-ne",Z,"ne",".error .typeError\n\n/-- corpus.py:436",".ok true\n\n/-- corpus.py:436","!= raises TypeError",T)
m("c2-ins",Z,"insert","| some _ => (c, some .nameError)","| some p => ({ c with pairs := p :: c.pairs }, none)","insert raises NameError",T)
m("c2-rmul",Z,"rmul",".error .typeError\n\n/-- corpus.py:349",".ok _c\n\n/-- corpus.py:349","n * corpus raises TypeError",T)
Z="Model.CacheThreads"; T="CacheThreads"
m("ct-disc",Z,"lruDiscard","setLru fun s => { s with next := LRUStock.upd s.next (s.prev node) (s.next node) }","pure ()","unlinking",T)
m("ct-upd",Z,"lruUpdate","  lruDiscard k\n  lruAdd k","  lruAdd k","unlinking",T)
m("ct-pop",Z,"lruPop","if e then pure none else look fun c => .ok (c.lru.item (c.lru.next 0))","if e then pure none else look fun c => .ok (c.lru.item (c.lru.prev 0))","least recent",T)
m("ct-clr",Z,"lruClear","  setLru fun s => { s with next := LRUStock.upd s.next 0 0 }\n","","clear empties the list",T)
m("ct-rem",Z,"removeBody","    lruDiscard key\n","","remove forgets the key",T)
m("ct-shrA",Z,"shrinkA","c.maxsize ≠ 0","c.maxsize ≠ 1","0 is no limit",T)
m("ct-exp",Z,"hasExpiredA","e.2 + c.expiry < now","e.2 + c.expiry ≤ now","expiry",T)
m("ct-genlock",Z,"memoImpl","synchronized (memoBody key f fuel op)","memoBody key f fuel op","memoised calls hold the lock",T)
m("ct-ins",Z,"insertBody","if b then pure () else shrinkA fuel 1","shrinkA fuel 1","a present key needs no room",T)
m("ct-clear",Z,"clearBody","  lruClear\n","  pure ()\n","clear empties the list",T)
m("ct-recon",Z,"reconfigureBody","  shrinkA fuel 0\n","  pure ()\n","reconfigure shrinks",T)
m("ct-coll",Z,"collectLoop","if x then removeA key else pure ()","if x then pure () else removeA key","expired entries go",T)
Z="Model.Threads"; T="CacheThreads"
m("th-look",Z,"stepThread","done := (c.th i).done ++ [(k, r)]","done := (k, r) :: (c.th i).done","calls in order",T)
m("th-try",Z,"tryWrite","(fun s => if ok s then f s else s)","f","failing statements change nothing",T)
tight={"t2-lines":["StatsTable.init_columns"],"t2-init":["StatsTable.init_columns"]}
