V="Model.PtcEval"; D="Model.PtcDiff"
m("pe1",V,"collect","l.fromTag = some tag ∧ l.toTag = some tag","l.fromTag = some tag","the target tag is not checked","PtcEval")
m("pe2",V,"collect","if (l.fromId, l.toId) ∈ s then s else s ++","if False then s else s ++","repeated links count twice","PtcEval")
m("pe3",V,"collect","s ++ [(l.fromId, l.toId)]","s ++ [(l.toId, l.fromId)]","ids swapped","PtcEval")
m("pe4",V,"countAlignment","(a.length, b.length, (a.filter","(b.length, a.length, (a.filter","true and predicted counts swapped","PtcEval")
m("pe5",V,"countAlignment","(a.filter fun x => x ∈ b).length","(a.filter fun x => x ∉ b).length","common counts the uncommon ones","PtcEval")
m("pe6",V,"computeScores","(Py.div nCommon nPred)","(Py.div nCommon nTrue)","precision is recall","PtcEval")
m("pe7",V,"computeScores","(2 * precision * recall)","(precision * recall)","half the F score","PtcEval")
m("pe8",V,"computeScores","Py.catchZeroDiv 0 (Py.div (2 *","(Py.div (2 *","division by zero is not caught","PtcEval")
m("pe9",V,"computeScores","(Py.div nPred nTrue)","(Py.div nTrue nPred)","ratio inverted","PtcEval")
m("pe10",V,"basename",".takeWhile (· ≠ '/')).reverse",".takeWhile (· ≠ '.')).reverse","extension instead of file name","PtcEval")
m("pe11",V,"basename","String.ofList (p.toList.reverse.takeWhile (· ≠ '/')).reverse","String.ofList (p.toList.takeWhile (· ≠ '/'))","the first directory instead of the file name","PtcEval")
m("pe12",V,"evalPair","s.1.2.1 + n.2.1","n.2.1","predicted counts are not summed","PtcEval")
m("pe13",V,"evalPair","let p ← read x.1.2","let p ← read x.1.1","the true file is read twice","PtcEval")
m("pe14",V,"evalPair","s.2 ++ [(r, x.2)]","[(r, x.2)] ++ s.2","rows in reverse","PtcEval")
m("pe15",V,"labelsOf","| none | some [] => pairs.map fun x => basename x.2","| none | some [] => pairs.map fun x => basename x.1","labelled with the true file","PtcEval")
m("pe16",V,"evalAlignment","computeScores s.1.1 s.1.2.1 s.1.2.2","computeScores s.1.1 s.1.2.2 s.1.2.1","last row with wrong counts","PtcEval")
m("pf1",D,"readCorpus","let T := update { ws := ws } c.target fresh","let T := update { ws := ws } c.source fresh","the source document is read twice","PtcDiff")
m("pf2",D,"readCorpus","{ F with st := s.1 }, { T with st := s.2 }","F, T","alignments are not injected","PtcDiff")
m("pf3",D,"idsOf","return e.id :: r","return r","no ids","PtcDiff")
m("pf4",D,"onlyStep","if e.id ∈ others then return s","if e.id ∉ others then return s","prints the common ones","PtcDiff")
m("pf5",D,"onlyStep","idsOf D.target.root (D.source.st.aligns b)","idsOf C.target.root (C.source.st.aligns a)","compares with itself","PtcDiff")
m("pf6",D,"onlyStep","[⟨s.1 + 1, side,","[⟨s.1, side,","numbered from 0","PtcDiff")
m("pf7",D,"onlyStep","(s.1 + 1, s.2 ++","(s.1, s.2 ++","all numbered 1","PtcDiff")
m("pf8",D,"onlyStep","side, f.id, e.id, getElemText","side, e.id, f.id, getElemText","ids swapped","PtcDiff")
m("pf9",D,"onlyStep","getElemText C.source a, getElemText C.target x","getElemText C.source a, getElemText D.target x","text of the other corpus","PtcDiff")
m("pf10",D,"bothWays","onlyIn .predOnly P T x.2 x.1 s","onlyIn .predOnly P T x.1 x.2 s","elements of the wrong documents","PtcDiff")
m("pf11",D,"bothWays","onlyIn .predOnly P T x.2 x.1 s","return s","predicted only alignments are not printed","PtcDiff")
m("pf12",D,"bothWays","onlyIn .trueOnly T P x.1 x.2 s","onlyIn .predOnly T P x.1 x.2 s","wrong heading","PtcDiff")
m("pf13",D,"printDiff","let bs ← P.source.st.count.get tag","let bs ← T.source.st.count.get tag","elements of the true corpus only","PtcDiff")
m("pf14",D,"printDiff","(as.zip bs)","((as.zip bs).drop 1)","the first element is not compared","PtcDiff")
