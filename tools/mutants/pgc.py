P="Model.Pgc"; A="Model.AlignEval"; D="Model.PgcDiff"; G="Model.Agreement"
# --- reading and writing corpora
m("p1",P,"nodePairElem",'("from_node_id", x.1.1), ("to_node_id", x.1.2)','("from_node_id", x.1.2), ("to_node_id", x.1.1)',"node ids swapped in the file","Pgc")
m("p2",P,"bankId","      .ok (⟨s.table.set old old, s.banks ++ [old], s.ids.set old i⟩, i)","      .ok (⟨s.table, s.banks ++ [old], s.ids.set old i⟩, i)","a bank is written once for every graph pair","Pgc")
m("p3",P,"bankId","toString (s.banks.length + 1)","toString s.banks.length","bank numbers start at 0","Pgc")
m("p4",P,"genPair",'("from_bank_id", b1), ("to_bank_id", b2)','("from_bank_id", b1), ("to_bank_id", b1)',"the target bank is lost","Pgc")
m("p5",P,"genPair","((if gp.meta.elem.children ≠ [] then [gp.meta.elem] else []) ++ l.map nodePairElem)","(l.map nodePairElem)","metadata of graph pairs is not written","Pgc")
m("p6",P,"generate","        | some m => if m.elem.children ≠ [] then [m.elem] else []","        | some _ => []","metadata of the corpus is not written","Pgc")
m("p7",P,"generate","(w.rels c.rel).map fun r =>","((w.rels c.rel).drop 1).map fun r =>","the first relation is lost","Pgc")
m("p8",P,"replaceIn","some p.sourceBank = bank ∧ p.sourceId = i ∧ p.source.isNone","p.sourceId = i ∧ p.source.isNone","stubs of another bank with the same id are replaced","Pgc")
m("p9",P,"loadSparse","if b.stubs.keys.any fun i => (gs.get? i).isNone then (pairs, .error .daesoError)\n      else match","match","missing graphs are not reported with DaesoError","Pgc")
m("p10",P,"startPair","    | _, _ => .error .daesoError\n  | _, _ => .error .daesoError","    | _, _ => .ok s\n  | _, _ => .error .daesoError","graph pairs with an unknown bank are skipped silently","Pgc")
m("p11",P,"startNodePair","GraphPair.matchAlign p.align (a.get? \"from_node_id\") (a.get? \"to_node_id\")","GraphPair.matchAlign p.align (a.get? \"to_node_id\") (a.get? \"from_node_id\")","node ids swapped when reading","Pgc")
m("p12",P,"startNodePair","s.pairs.dropLast ++ [{ p with align := g }]","s.pairs ++ [{ p with align := g }]","every node pair adds a graph pair","Pgc")
m("p13",P,"orDefault","| some f => if f = \"\" then d else some f","| some _ => d","the format of a file is ignored","Pgc")
m("p14",P,"endFile","if s.banks.has (e.attrib.get? \"id\") then .error .assertionError\n  else match","match","a second bank with the same id replaces the first","Pgc")
m("p15",P,"endGraphMeta","{ p with «meta» := e }","p","metadata of graph pairs is not read","Pgc")
m("p16",P,"step","if mode = .sparse then loadBanks env .sparse s else .ok s",".ok s","sparse loading never loads","Pgc")
m("p17",P,"step","if e.tag = \"corpus_meta_data\" then .ok { s with «meta» := some e }","if e.tag = \"corpus_meta_data\" then .ok s","metadata of the corpus is not read","Pgc")
m("p18",P,"endRelations","s.relations.mergeSort (fun x y => decide (x ≤ y))","s.relations","relations are not sorted","Pgc")
m("p19",P,"startPair","| some g, some h => .ok { s with pairs := s.pairs ++ [newPair sb tb si ti (some g) (some h)] }\n          | _, _ => .error .daesoError","| some g, some h => .ok { s with pairs := s.pairs ++ [newPair sb tb si ti (some g) (some h)] }\n          | _, _ => .ok s","graph pairs with an unknown graph are skipped silently","Pgc")
m("p20",P,"replaceIn","{ p with target := some g }","{ p with source := some g }","the wrong graph is replaced","Pgc")
m("p21",P,"loadSparse","graphs := gs })","graphs := [] })","the bank has no graphs after sparse loading","Pgc")
m("p22",P,"fileElem","(\"format\", format b)","(\"format\", \"\")","formats are not written","Pgc")
# --- evaluation
m("ae1",A,"precision","Py.div (c .common) (c .pred)","Py.div (c .common) (c .true)","precision is recall","AlignEval")
m("ae2",A,"fScore","(beta ^ 2 + 1) * prec * rec","(beta + 1) * prec * rec","beta not squared (same for 0 and 1)","AlignEval")
m("ae3",A,"fScore","(beta ^ 2 * prec + rec)","(prec + beta ^ 2 * rec)","roles of precision and recall swapped","AlignEval")
m("ae4",A,"variance","(values.length - 1)","values.length","population variance","AlignEval")
m("ae5",A,"evalTable","let microVar ← perMeasure fun m => variance (rows.map fun x => x m) (microMean m)","let microVar ← perMeasure fun m => variance (rows.map fun x => x m) (macroMean m)","variance around the wrong mean","AlignEval")
m("ae6",A,"bump","row c + n","row c + 1","counts by one","AlignEval")
m("ae7",A,"addTrue","if r = x.2 then bump d x.2 .common 1 else return d","bump d x.2 .common 1","other relations count as common","AlignEval")
m("ae8",A,"addTrue","    let d ← bump d anyRel .common 1\n","","common alignments of any relation not counted","AlignEval")
m("ae9",A,"addPair","let d ← Py.forIn ps d fun y d => bump d y.2 .pred 1","let d ← Py.forIn ts d fun y d => bump d y.2 .pred 1","the true alignments are counted as predicted","AlignEval")
m("ae10",A,"addPair","  bump d anyRel .pred ps.length","  bump d anyRel .pred ts.length","wrong total of predicted alignments","AlignEval")
m("ae11",A,"add","if ts.length ≠ ps.length then .error .assertionError\n  else match","match","corpora of different length are compared","AlignEval")
m("ae12",A,"add","any.length + 1}\" else n","any.length}\" else n","part numbers from 0","AlignEval")
m("ae13",A,"runEval","Py.div (part.map fun t => t.microMean m).sum e.relations.length","Py.div (part.map fun t => t.macroMean m).sum e.relations.length","mean of the macro means","AlignEval")
m("ae14",A,"runEval","(e.relations.take e.tables.length)","(e.relations.take 1)","only the first relation","AlignEval")
m("ae15",A,"evalTable","let microMean ← evalCounts 1 sum\n  let microVar","let microMean ← evalCounts (1/2) sum\n  let microVar","wrong beta for micro averages","AlignEval")
m("ae16",A,"fScore","if 0 ≤ beta ∧ beta ≤ 1 then","if 0 ≤ beta then","beta above 1 accepted","AlignEval")
m("ae17",A,"new","relations.foldl (fun d r => d.set r []) [(anyRel, [])]","relations.foldl (fun d r => d.set r []) []","no table for any relation","AlignEval")
# --- diff
m("pd1",D,"first","if falsy rel2 then return { p with uniq1 := p.uniq1 ++ [x.1] }","if falsy rel2 then return p","alignments only in the first corpus are lost","PgcDiff")
m("pd2",D,"first","else if rel2 = some x.2 then","else if rel2 ≠ some x.2 then","identical and different swapped","PgcDiff")
m("pd3",D,"second","if falsy rel1 then return { p with uniq2 := p.uniq2 ++ [x.1] } else return p","return { p with uniq2 := p.uniq2 ++ [x.1] }","all alignments of the second count as its own","PgcDiff")
m("pd4",D,"skip","if ← b.termS n.1 then return true else b.termT n.2","if ← b.termS n.1 then b.termT n.2 else return false","and instead of or","PgcDiff")
m("pd5",D,"sortNodes","if l.length < 2 then .ok l\n  else ","","a single non-number raises","PgcDiff")
m("pd6",D,"sortNodes","(num a.1).getD 0 ≤ (num b.1).getD 0","(num b.1).getD 0 ≤ (num a.1).getD 0","sorted backwards","PgcDiff")
m("pd7",D,"printAlignments","s.2 ++ [⟨s.1 + 1, n, rel1, rel2⟩]","s.2 ++ [⟨s.1, n, rel1, rel2⟩]","numbers from 0","PgcDiff")
m("pd8",D,"printAlignments","⟨s.1 + 1, n, rel1, rel2⟩","⟨s.1 + 1, n, rel2, rel1⟩","relations swapped","PgcDiff")
m("pd9",D,"diffPair","    let o ← section' num b .only2 p.uniq2 o\n","","the last section is forgotten","PgcDiff")
m("pd10",D,"diffPair","let o ← (if showIdent then","let o ← (if !showIdent then","show_ident reversed","PgcDiff")
m("pd11",D,"compared","  | some [] => relations1\n","  | some [] => []\n","an empty selection","PgcDiff")
m("pd12",D,"parts","GraphPair.alignments b.second (some relations)","GraphPair.alignments b.second none","the second corpus is not filtered by relation","PgcDiff")
m("pd13",D,"pgcDiff","if n1 ≠ n2 then .error .assertionError\n  else do","do","corpora of different lengths are compared","PgcDiff")
m("pd14",D,"section'","if l = [] then s.2 else s.2 ++ [(t, r.2)]","s.2 ++ [(t, r.2)]","empty sections are printed","PgcDiff")
m("pd15",D,"diffPair","return (o.1, s.2 ++ [o.2])","return (0, s.2 ++ [o.2])","numbering restarts with every pair","PgcDiff")
# --- agreement
m("ag1",G,"comparisons","fun p => t.2 ≠ p.2","fun p => t.2 < p.2","every pair compared one way only","Agreement")
m("ag2",G,"comparisons","fun p => t.2 ≠ p.2","fun _ => true","annotators are compared with themselves","Agreement")
m("ag3",G,"columnSum","if col ≠ row then do\n      let v ← cell d row col\n      return a + v","if True then do\n      let v ← cell d row col\n      return a + v","the diagonal is read","Agreement")
m("ag4",G,"avColumn","Py.div sum (labels.length - 1)","Py.div sum labels.length","divided by n","Agreement")
m("ag5",G,"calculateAv","Py.div s.2 (labels.length * (labels.length - 1))","Py.div s.2 labels.length","overall mean divided by n","Agreement")
m("ag6",G,"columnDev","a.2 + (v - overallAv) ^ 2","a.2 + (v - colAv) ^ 2","deviation from the wrong mean","Agreement")
m("ag7",G,"sdColumn","Py.div dev.1 (labels.length - 1 - 1)","Py.div dev.1 (labels.length - 1)","population variance","Agreement")
m("ag8",G,"calculateSd","Py.div s.2 (labels.length * (labels.length - 1) - 1)","Py.div s.2 (labels.length * (labels.length - 1))","population variance overall","Agreement")
m("ag9",G,"tableize","setCell d x.1.1 x.1.2 (x.2 m)","setCell d x.1.2 x.1.1 (x.2 m)","rows and columns swapped","Agreement")
m("ag10",G,"wordsOnly","if ← ntS x.1.1 then return true else ntT x.1.2","if ← ntS x.1.1 then ntT x.1.2 else return false","and instead of or","Agreement")
m("ag11",G,"annotatorNames","| some l => if l.length = n then .ok l else .error .assertionError","| some l => .ok l","wrong number of names accepted","Agreement")
m("ag12",G,"labelsOf",".dedup.insertionSort (· ≤ ·)",".dedup","labels are not sorted","Agreement")
m("ag13",G,"defaultNames","s!\"A{i + 1}\"","s!\"A{i}\"","names from A0","Agreement")
m("ag14",G,"crossEvaluate","add e c.2.1 c.2.2 (some \"pair\")","add e c.2.2 c.2.1 (some \"pair\")","true and predicted corpora swapped","Agreement")
m("ag15",G,"newTable","(labels ++ [\"mean\", \"SD\"])","(labels ++ [\"mean\"])","no row for the deviations","Agreement")
tight={"p18":["Pgc.relations_as_declared"],"pd4":["PgcDiff.words_only_inverted"],"ag13":["Agreement.default_names"]}
