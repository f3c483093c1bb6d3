Z="Model.Agreement"; T="Agreement"
m("a3-set",Z,"setCell","return d.set row (r.set col v)","return d.set row [(col, v)]","a cell is set, the others stay",T)
m("a3-stat",Z,"calculateStatistics","  calculateSd labels d","  return d","standard deviations are calculated",T)
Z="Model.AlignEval"; T="AlignEval"
m("e3-pc",Z,"perCount","    | .pred => b\n    | .common => c","    | .pred => c\n    | .common => b","counts",T)
m("e3-pm",Z,"perMeasure","    | .prec => a\n    | .recall => b","    | .prec => b\n    | .recall => a","measures",T)
m("e3-rec",Z,"recall","Py.div (c .common) (c .true)","Py.div (c .common) (c .pred)","recall",T)
m("e3-ev",Z,"evalCounts","let f ← fScore beta p r","let f ← fScore beta r p","f-score",T)
m("e3-sel",Z,"select","rels.mapM fun r","rels.tail.mapM fun r","all relations",T)
Z="Model.Corpus"; T="Corpus"
m("c3-mk",Z,"mkCorpus","⟨pairs, (setRelations w rel).2, «meta»⟩","⟨pairs, (setRelations w rel).2, none⟩","meta data are kept",T)
Z="Model.Counter"; T="Counter"
m("n3-count",Z,"count","(c.get? x).getD 0\n","(c.get? x).getD 1\n","absent elements count 0",T)
m("n3-upd",Z,"updateIter","((c.get? x).getD 0 + 1)","1","occurrences are added",T)
m("n3-of",Z,"ofIter","updateIter [] l","updateIter [] l.dropLast","all elements",T)
m("n3-copy",Z,"copy","updateMap [] c","[]","copy",T)
m("n3-sub",Z,"sub","combine (· - ·) c d","combine (· - ·) d c","subtraction",T)
m("n3-and",Z,"andLoop","min (count c x) (count d x)","max (count c x) (count d x)","intersection",T)
Z="Model.Creation"; T="Creation FromPtc"
m("k3-doc",Z,"docTree","update { ws := c.ws } t fresh","fresh","elements are indexed",T)
m("k3-none",Z,"getGraph","| none => .error .keyError","| none => match b.head? with\n    | some g => .ok g\n    | none => .error .keyError","a missing id raises KeyError",T)
m("k3-ptc",Z,"pgcFromPtc","(docTree c tF) (docTree c tT) bS bT","(docTree c tT) (docTree c tF) bS bT","source and target",T)
Z="Model.Etree"; T="Etree"
m("x3-strip",Z,"strip","((s.dropWhile ws).reverse.dropWhile ws).reverse","s.dropWhile ws","text is stripped at both ends",T)
m("x3-eql",Z,"equalsList","| .ok bs => .ok (b :: bs)","| .ok bs => .ok bs","all children are compared",T)
m("x3-blank",Z,"blank","| none => true","| none => false","no text is blank",T)
m("x3-tail",Z,"setTail","| mk t a x _ c, l => mk t a x l c","| mk t a x _ c, l => mk t a l l c","tails",T)
Z="Model.GenericCache"; T="GenericCache"
m("g3-ins",Z,"insert","if c.values.has key then .ok (store c key v now)","if c.values.has key then .ok c","an old key gets the new value",T)
m("g3-ins2",Z,"insert","match shrink fuel 1 c with","match shrink fuel 0 c with","room for one more entry",T)
m("g3-size",Z,"size","def size (c : Cache ν) : Nat := c.values.length","def size (c : Cache ν) : Nat := c.values.length - 1","size",T)
Z="Model.GraphPair"; T="GraphPair"
m("gp3-all",Z,"alignmentsAll","Py.forIn (edges g) []","Py.forIn (edges g).tail []","all alignments",T)
m("gp3-len",Z,"len","(edges g).length","(edges g).length + 1","number of alignments",T)
m("gp3-al",Z,"alignedTarget","match successors g s with\n  | .ok l => l.head?\n  | .error _ => none","match successors g s with\n  | .ok l => l.head?\n  | .error _ => some s","no alignment",T)
Z="Model.HitaextDoc"; T="HitaextDoc"
m("h3-addn",Z,"addN","fromN := some fn, toN := some tn","fromN := some tn, toN := some fn","numbers of a link",T)
m("h3-addid",Z,"addId","fromId := fi, toId := ti","fromId := ti, toId := fi","ids of a link",T)
m("h3-int",Z,"int","| none => .error .typeError","| none => .ok 1","a missing number",T)
m("h3-tag",Z,"lookTag","| none => .error .keyError","| none => match d.head? with\n    | some x => .ok x.2\n    | none => .error .keyError","a missing tag",T)
m("h3-injn",Z,"injectN","resolveN s.1 s.2 l with\n    | .ok p => .ok (join p s)\n    | .error e => .error e","resolveN s.1 s.2 l with\n    | .ok p => .ok (join p s)\n    | .error _ => .ok s","bad links raise",T)
m("h3-elem",Z,"elemAt","| some e => .ok e\n  | none => .error .attributeError","| some e => .ok e\n  | none => .ok t","elements by address",T)
m("h3-num",Z,"numberOf","| some n => .ok n\n  | none => .error .attributeError","| some n => .ok n\n  | none => .ok 0","numbers",T)
Z="Model.HitaextFile"; T="HitaextFile"
m("f3-find",Z,"find","| t :: ts, e => findKids t (find ts) e.children","| t :: _, e => findKids t some e.children","search",T)
m("f3-text",Z,"setText","| .mk t a _ l c, x => .mk t a x l c","| .mk t a y l c, _ => .mk t a y l c","text is set",T)
m("f3-chg",Z,"change","| some r => .ok { d with root := r }\n  | none => .error .attributeError","| some r => .ok { d with root := r }\n  | none => .ok d","a missing element raises",T)
m("f3-look",Z,"look","match find path d.root with\n  | some e => .ok e\n  | none => .error .attributeError","match find path d.root with\n  | some e => .ok e\n  | none => .ok d.root","a missing element raises",T)
m("f3-fn",Z,"setFilename","setText e (some x)","setText e none","file name",T)
m("f3-ps",Z,"getPseudoRoot",'e.attrib.get? "pseudo_root"','e.attrib.get? "root"',"pseudo root",T)
m("f3-tags",Z,"getElemTags","(e.children.map Elem.tag)","(e.children.tail.map Elem.tag)","all tags",T)
m("f3-set",Z,"setElem","fun e => setAttr e k v","fun e => setAttr e v k","attribute",T)
m("f3-wr",Z,"writeRead","openFile ws file (Pgc.reread d.root)","openFile ws file d.root","empty texts are lost",T)
Z="Model.IElemTree"; T="HitaextDoc IElemTree"
m("i3-iter",Z,"iterList","| c :: cs => iter c ++ iterList cs","| c :: cs => iterList cs ++ iter c","document order",T)
m("i3-iter2",Z,"iterList","| c :: cs => iter c ++ iterList cs","| c :: cs => c :: iterList cs","all descendants",T)
Z="Model.LRUStock"; T="LRUStock"
m("l3-size",Z,"size","s.keys.length","s.keys.length + 1","size",T)
m("l3-list",Z,"toListFrom",".ok (s.item (s.next a) :: l)",".ok (s.item a :: l)","items in order",T)
Z="Model.NGram"; T="NGram"
m("ng3-slice",Z,"slice","(l.drop i).take (j - i)","(l.drop i).take j","slices",T)
m("ng3-pad",Z,"paddedSkipBigramSlices","(pad tokens 1 padString)","(pad tokens 2 padString)","padding",T)
Z="Model.Number"; T="Number"
m("nu3-un",Z,"unitsWord",".ok (w ++ ['e', 'n'])",".ok w","en",T)
m("nu3-ten",Z,"tensWord","tripleToWord.get ['0', d2, '0'] else .ok []","tripleToWord.get ['0', d2, '0'] else .error .keyError","no tens",T)
m("nu3-last",Z,"lastTriple","List.replicate (3 - r.length) '0' ++ r","r ++ List.replicate (3 - r.length) '0'","leading zeros",T)
m("nu3-strip",Z,"strip","((w.dropWhile (· == ' ')).reverse.dropWhile (· == ' ')).reverse","w","stripped",T)
Z="Model.ODict"; T="ODict"
m("o3-items",Z,"items","o.keys.mapM fun k => (getItem o k)","o.keys.reverse.mapM fun k => (getItem o k)","order",T)
Z="Model.PgcTools"; T="PgcTools"
m("t3-part",Z,"partSize","((n : Int).fdiv parts : ℚ) + 1/2","((n : Int).fdiv parts : ℚ)","size of a part",T)
m("t3-part2",Z,"partSize","if size = none ∨ size = some 0 then","if size = none then","size 0 is no size",T)
m("t3-chd",Z,"chdir","files.mapM (chdirPath fr dst)","files.mapM (chdirPath dst fr)","from and to",T)
Z="Model.PgcZip"; T="PgcZip"
m("z3-zip",Z,"pgcZip","(archDir zip)","(archDir zip ++ ['x'])","archive directory",T)
Z="Model.PosixPath"; T="RelPath PgcZip PtcChdir"
m("pp3-head",Z,"head","(p.reverse.dropWhile (· ≠ '/')).reverse","(p.reverse.dropWhile (· ≠ '/')).reverse.dropLast","dirname",T)
m("pp3-rs",Z,"rstripSlash","(p.reverse.dropWhile (· = '/')).reverse","p","dirname has no slash at its end",T)
Z="Model.PtcDiff"; T="PtcDiff"
m("pd3-only",Z,"onlyIn","Py.forIn (C.source.st.aligns a) s","Py.forIn (C.source.st.aligns a).tail s","all alignments",T)
Z="Model.PtcEval"; T="PtcEval"
m("pe3-get",Z,"getAlignment","d.links.foldl","d.links.tail.foldl","all links",T)
Z="Model.RelPath"; T="RelPath"
m("r3-abs",Z,"isAbs","p.head? = some '/'","p.head? = some '.'","absolute paths",T)
m("r3-ren",Z,"render","if l = [] then ['/'] else","if l = [] then [] else","the root",T)
Z="Model.Rouge"; T="Rouge"
m("ro3-s",Z,"rougeS","(skipBigramSlices limit t1) (skipBigramSlices limit t2)","(skipBigramSlices limit t2) (skipBigramSlices limit t1)","ROUGE-S",T)
Z="Model.Similar"; T="Similar"
m("s3-int",Z,"inter","seq1.toFinset ∩ seq2.toFinset","seq1.toFinset ∪ seq2.toFinset","intersection",T)
m("s3-max",Z,"overlapMax","((max seq1.length seq2.length : Nat) : ℚ)","((min seq1.length seq2.length : Nat) : ℚ)","overlap by the longest",T)
m("s3-acc2",Z,"accumulate","(op acc.1 seq.length, acc.2 ∩ seq.toFinset)","(op acc.1 seq.length, acc.2 ∪ seq.toFinset)","common elements",T)
Z="Model.TextAlign"; T="TextAlign"
m("ta3-pair",Z,"pairScore",".ok (r, s.1.addr, t.1.addr)",".ok (r, t.1.addr, s.1.addr)","source and target",T)
m("ta3-sim",Z,"scoreSim","| .ok rest => .ok (row ++ rest)","| .ok rest => .ok (rest ++ row)","ties are kept in document order",T)
Z="Model.TfIdf"; T="TfIdf"
m("ti3-doc",Z,"docLoop","incr s.2 t)","incr s.2 t |>.set t 1)","term frequency",T)

tight={"h3-int":["HitaextDoc.incomplete_link"],"h3-tag":["HitaextDoc.incomplete_link","HitaextDoc.incomplete_id_link"],
"f3-look":["HitaextFile.missing_part"],"ng3-pad":["NGram.padded_skip_bigrams_eq"]}
equiv={"h3-elem":"no behaviour changes: links are only made between elements of the two trees, so the branch cannot be reached",
"h3-num":"no behaviour changes: every element of a tree has a number after update, so the branch cannot be reached",
"nu3-ten":"no behaviour changes: triples with second digit 0 are in the table, so the branch cannot be reached"}
