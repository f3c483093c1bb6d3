I="Model.IElemTree"; H="Model.HitaextDoc"; T="Model.TextAlign"; C="Model.Creation"; O="Model.PgcTools"; S="Model.Stats"
m("ie1",I,"regCount","| some l => d.set tag (l ++ [a])","| some l => d.set tag (a :: l)","elements in reverse order","IElemTree HitaextDoc")
m("ie2",I,"regId","| some m => d.set tag (m.set id a)","| some _ => d.set tag [(id, a)]","only the last id is known","IElemTree HitaextDoc")
m("ie3",I,"separator","['\\n', '\\n'] else if","['\\n'] else if","one line break for a blank line","IElemTree")
m("ie4",I,"indexElem","if ignore ∨ tag ∈ o.ignoreTags then","if tag ∈ o.ignoreTags then","elements below an ignored one are not ignored","IElemTree")
m("ie5",I,"indexElem","(indexIgnored o a cs s1, [] ++ strip o.ws tail)","(indexIgnored o a cs s1, [])","the text after an ignored element is lost","IElemTree")
m("ie6",I,"indexElem","stop := put r.1.stop a (some (start + r.2.length))","stop := put r.1.stop a (some (start + r.2.length + 1))","spans end one too late","IElemTree")
m("ie7",I,"indexElem","r.2 ++ separator o tag ++ strip o.ws tail","r.2 ++ strip o.ws tail ++ separator o tag","line break after the tail","IElemTree")
m("ie8",I,"indexChildren","indexElem o c (start + r.2.length) false r.1","indexElem o c start false r.1","children all start where the parent starts","IElemTree")
m("ie9",I,"indexIgnored","{ s with ignored := put s.ignored a true }","s","ignored elements are not marked","IElemTree")
m("ie10",I,"getElemText","(d.text.take ((d.st.stop a).getD 0)).drop ((d.st.start a).getD 0)","(d.text.drop ((d.st.start a).getD 0)).take ((d.st.stop a).getD 0)","length instead of end","IElemTree")
m("ie11",I,"update","{ s with count := [], ids := [] }","s","a second update counts on","IElemTree")
m("ie12",I,"register","aligns := put s.aligns a []","aligns := s.aligns","alignments survive an update","IElemTree")
m("ie13",I,"register","(count.get? tag).map List.length","(s.count.get? tag).map List.length","numbers from 0","IElemTree HitaextDoc")
m("hd1",H,"resolveN","Py.getI fs (fn - 1)","Py.getI fs fn","numbers count from 0","HitaextDoc")
m("hd2",H,"join","put s.2.aligns p.2 (s.2.aligns p.2 ++ [p.1])","s.2.aligns","only one direction","HitaextDoc")
m("hd3",H,"resolveN","let b ← Py.getI ts (tn - 1)","let b ← Py.getI ts (fn - 1)","the source number is used for the target","HitaextDoc")
m("hd4",H,"extractElemN","(addN d e.tag fn e'.tag tn)","(addN d e'.tag fn e.tag tn)","tags swapped","HitaextDoc")
m("hd5",H,"extractN","(iter from') (clear d) fun e d => extractElemN","(iter from') d fun e d => extractElemN","old links stay","HitaextDoc")
m("hd6",H,"resolveId","ts.get l.toId","ts.get l.fromId","the source id is used for the target","HitaextDoc")
m("hd7",H,"inject","| none => injectN d.links s","| none => injectId d.links s","ids are the default","HitaextDoc")
m("hd8",H,"extract","if m = \"n\" then extractN from' to' F T d else if m = \"id\" then extractId from' to' F d\n    else .error .assertionError","extractN from' to' F T d","always by number","HitaextDoc")
m("hd9",H,"setAlignmentMethod","if m ∈ [\"n\", \"id\"] then .ok { d with method := some m } else .error .assertionError",".ok { d with method := some m }","any method accepted","HitaextDoc")
m("ta1",T,"weightedCosine","(Real.sqrt ((v.map fun x => x ^ 2).sum * (w.map fun x => x ^ 2).sum))","((v.map fun x => x ^ 2).sum * (w.map fun x => x ^ 2).sum)","no square root","TextAlign")
m("ta2",T,"thresholdFilter","decide (x.1 > t)","decide (x.1 ≥ t)","the threshold itself passes","TextAlign")
m("ta3",T,"crossed","|| (decide (p.1 > i) && decide (p.2 < j))","","crossings on one side are not seen","TextAlign")
m("ta4",T,"noCrossLoop","if x.1 < t then out","if x.1 ≤ t then out","the threshold itself does not pass","TextAlign")
m("ta5",T,"noCrossLoop","noCrossLoop t n n' xs (idx ++ [(n x.2.1, n' x.2.2)]) (out ++ [x])","noCrossLoop t n n' xs idx (out ++ [x])","accepted pairs are not remembered","TextAlign")
m("ta6",T,"clearAlignments","l.fromTag ≠ some source ∧ l.toTag ≠ some target","l.fromTag ≠ some source ∨ l.toTag ≠ some target","only links with both tags are removed","TextAlign")
m("ta7",T,"findall","(iter e).tail.filter","(iter e).filter","the element itself is found","TextAlign")
m("ta8",T,"focusElems","!d.st.ignored e.addr","d.st.ignored e.addr","only ignored elements","TextAlign")
m("ta9",T,"createAlignments","if x.2.2 ∈ s.aligns x.2.1 then s\n    else","if False then s\n    else","links are doubled","TextAlign")
m("ta10",T,"scopeTags","put dF.st.aligns dF.root.addr [dT.root.addr]","put dF.st.aligns dF.root.addr (dF.st.aligns dF.root.addr ++ [dT.root.addr])","old links of the root stay (as one would expect)","TextAlign")
m("ta11",T,"alignScope","if T.tag ∉ scopeT then .ok dF else","","target scope tags are ignored","TextAlign")
m("ta12",T,"alignCorpus","if clear then clearAlignments d c.focusS c.focusT else d","clearAlignments d c.focusS c.focusT","always cleared","TextAlign")
m("ta13",T,"scores","(all.take ss.length) (all.drop ss.length)","(all.drop ss.length) (all.take ss.length)","sources and targets swapped","TextAlign")
m("ta14",T,"scores","ts.map (fun e => c.term (getElemText dT e.addr))","ts.map (fun e => c.term (getElemText dF e.addr))","target terms from the source document","TextAlign")
m("ta15",T,"alignScopes","if S.tag ∉ scopeS then .ok dF else","","source scope tags are ignored","TextAlign")
m("ta16",T,"alignWithin","let ts := focusElems dT T c.focusT","let ts := focusElems dT T c.focusS","wrong focus tag","TextAlign")
m("cr1",C,"tokenDiff"," + (t.filter fun x => decide (x ∉ s)).length","","only the tokens of the source","Creation")
m("cr2",C,"step","(s.length : Int) > c.maxLen ∨ (t.length : Int) > c.maxLen","(s.length : Int) > c.maxLen","long targets pass","Creation")
m("cr3",C,"step","(tokenDiff s t : Int) < c.minDiff","(tokenDiff s t : Int) ≤ c.minDiff","the minimal difference itself does not pass","Creation")
m("cr4",C,"step","l.fromTag ≠ some c.focusS ∨ l.toTag ≠ some c.focusT","l.fromTag ≠ some c.focusS","the target tag is not checked","Creation")
m("cr5",C,"step","⟨g.1, h.1, g.2, h.2⟩","⟨g.1, h.1, h.2, g.2⟩","graphs swapped","Creation")
m("cr6",C,"elemTokens","c.lower (getElemText d a)","getElemText d a","case matters","Creation")
m("cr7",C,"step","let h ← getGraph bT l.toId","let h ← getGraph bS l.toId","target graph from the source bank","Creation")
m("cr8",C,"step","c.minDiff ≠ 0 ∧ ","","(no change: a difference is never negative... unless minDiff is negative)","Creation")
m("pt1",O,"split","min (i + s.toNat) pairs.length","i + s.toNat","the last file name has a wrong number","PgcTools")
m("pt2",O,"rangeStep","(n + step.toNat - 1) / step.toNat","n / step.toNat","the last part is lost","PgcTools")
m("pt4",O,"chdirPath","dst ++ p.drop fr.length","dst ++ p","the old prefix stays","PgcTools")
m("pt5",O,"chdirPath","if fr.isPrefixOf p then","if fr.isSuffixOf p then","suffix instead of prefix","PgcTools")
m("pt6",O,"partName","pad4 (i + 1)","pad4 i","names from 0","PgcTools")
m("pt7",O,"pad4","4 - (Nat.toDigits 10 n).length","3 - (Nat.toDigits 10 n).length","three digits","PgcTools")
m("pt8",O,"joinPurge","match purge stat w c none with","match (Except.ok w : Py World) with","banks are not purged","PgcTools")
m("pt9",O,"pyRound","⌊x + 1/2⌋","⌊x⌋","rounds down","PgcTools")
m("st1",S,"skipAlign","(if fl.withPunc then .ok false else orElse (nodePunct s a.1) (nodePunct t a.2))","(.ok false)","punctuation is counted","Stats")
m("st2",S,"skipAlign","orElse (nodeEmpty s a.1) (nodeEmpty t a.2)","nodeEmpty s a.1","empty target nodes are counted","Stats")
m("st3",S,"relColumn",'.ok "CSPEC"','.ok "CGEN"',"specifies counted as generalizes","Stats")
m("st4",S,"nodeStep",'inc (inc st.1 "CNP") c','inc st.1 c',"node pairs are not counted","Stats")
m("st5",S,"markNodes","if g = gt ∧ n = a.2 then","if g = gt ∧ n = a.1 then","wrong node marked","Stats")
m("st6",S,"rootsAligned","decide ((r, s) ∈ p.align.map Prod.fst)","decide ((s, r) ∈ p.align.map Prod.fst)","roots swapped","Stats")
m("st7",S,"countPair","if !failed && !unaligned then","if !failed || !unaligned then","wrong condition","Stats")
m("st8",S,"pairStep","if unaligned && !fl.withUnalignedRoots then .ok st","if unaligned && fl.withUnalignedRoots then .ok st","flag reversed","Stats")
m("st9",S,"graphSingle","at'.gFrom g = 1 || at'.gTo g = 1","at'.gFrom g + at'.gTo g = 1","single alignment in total","Stats")
m("st10",S,"bankNode",'else if nodeAligned at\' g n.1 then inc (inc r "CN") "CNA"','else if nodeAligned at\' g n.1 then inc (inc r "CN") "CNU"',"aligned nodes counted as unaligned","Stats")
m("st11",S,"bankStep",'let r := inc r "CG"\n',"","graphs are not counted","Stats")
m("st12",S,"countTokens","if withPunc then g.tokens.length","if !withPunc then g.tokens.length","flag reversed","Stats")
m("st13",S,"bankFlags","⟨withEmpty, withFailed, withPunc, true, threshold, true⟩","⟨withEmpty, withFailed, withPunc, true, threshold, false⟩","banks alone: unaligned graphs left out","Stats")
m("st14",S,"percent","(q * 100)","q","fractions instead of percentages","Stats")
m("st15",S,"share","percent a b else .ok 0","percent a b else .ok 100","wrong default","Stats")
m("st16",S,"overall","(rows.map fun r => r col).sum","((rows.drop 1).map fun r => r col).sum","the first row is not summed","Stats")
m("st17",S,"markRoots","if g = p.source ∨ g = p.target then false","if g = p.source then false","target graph not marked","Stats")
m("st18",S,"markGraphs","gTo := fun g => if g = p.target then at'.gTo g + 1 else at'.gTo g","gTo := fun g => if g = p.target then 1 else at'.gTo g","counts once only","Stats")
m("st19",S,"gbStats","pristine bank zeroRow","pristine (bank.drop 1) zeroRow","the first graph is left out","Stats")
m("st20",S,"average","Py.div a b else .ok 0","Py.div a b else .ok 1","wrong default","Stats")
tight={"st13":["Stats.banks_alone_exact"],"st20":["Stats.average_exact"],"ie3":["IElemTree.document_text (specification of the line breaks)"],"pt6":["PgcTools.split_covers"],"pt7":["PgcTools.split_covers"],"pt8":["PgcTools.join_purge"]}
