Z="Model.Munkres"; T="Munkres"
m("mk-upd2",Z,"upd2","if i' = i ∧ j' = j then v","if i' = i then v","one entry is set",T)
m("mk-upd",Z,"upd","if i' = i then b else m i'","if i' = i then b else false","other entries are kept",T)
m("mk-cells",Z,"cells","(List.range r).flatMap","(List.range (r - 1)).flatMap","all rows are visited",T)
m("mk-entry",Z,"entry","(m.getD i []).getD j 0","(m.getD j []).getD i 0","rows and columns",T)
m("mk-step1",Z,"step1","s.C i j - rowMin s i","s.C i j + rowMin s i","subtract the row minimum",T)
m("mk-clear",Z,"clearCovers","rowC := fun _ => false, colC := fun _ => false","rowC := fun _ => false","both covers cleared",T)
m("mk-st2col",Z,"step2Body","s.C p.1 p.2 = 0 ∧ s.colC p.2 = false ∧ s.rowC p.1 = false","s.C p.1 p.2 = 0 ∧ s.rowC p.1 = false","one star per column",T)
m("mk-st2row",Z,"step2Body","s.C p.1 p.2 = 0 ∧ s.colC p.2 = false ∧ s.rowC p.1 = false","s.C p.1 p.2 = 0 ∧ s.colC p.2 = false","one star per row",T)
m("mk-st2zero",Z,"step2Body","if s.C p.1 p.2 = 0 ∧","if s.C p.1 p.2 ≥ 0 ∧","stars are zeros",T)
m("mk-st2cl",Z,"step2","clearCovers ((cells s.n s.n).foldl step2Body s)","(cells s.n s.n).foldl step2Body s","covers cleared after step 2",T)
m("mk-st3",Z,"step3Body","if a.1.mark p.1 p.2 = 1 then","if a.1.mark p.1 p.2 = 2 then","stars cover columns",T)
m("mk-st3cnt",Z,"step3Body","a.2 + 1) else a","a.2) else a","stars are counted",T)
m("mk-st3end",Z,"step3","if a.2 ≥ s.n then 7","if a.2 + 1 ≥ s.n then 7","n stars are needed",T)
m("mk-fz",Z,"findAZero","s.C i j = 0 && !s.rowC i && !s.colC j","s.C i j = 0 && !s.rowC i","uncovered zeros",T)
m("mk-fsr",Z,"findStarInRow","s.mark row j = 1","s.mark row j = 2","stars in the row",T)
m("mk-fsc",Z,"findStarInCol","s.mark i col = 1","s.mark col i = 1","stars in the column",T)
m("mk-fpr",Z,"findPrimeInRow","s.mark row j = 2","s.mark row j = 1","primes in the row",T)
m("mk-s4",Z,"step4","step4Loop (s.n + 1) s","step4Loop s.n s","the budget: exhausting it is an error",T)
m("mk-bp",Z,"buildPath","(r1, c) :: (r1, c1) :: l","(r1, c1) :: l","stars on the path are unstarred",T)
m("mk-flip",Z,"flip","(if mark p.1 p.2 = 1 then 0 else 1)","(if mark p.1 p.2 = 1 then 1 else 0)","the path is flipped",T)
m("mk-conv",Z,"convertPath","path.foldl flip s.mark","path.tail.foldl flip s.mark","the whole path is flipped",T)
m("mk-erase",Z,"erasePrimes","if s.mark i j = 2 then 0 else s.mark i j","s.mark i j","primes are erased",T)
m("mk-s5",Z,"step5","erasePrimes (clearCovers (convertPath s (s.z :: l)))","erasePrimes (convertPath s (s.z :: l))","covers are cleared",T)
m("mk-s5z",Z,"step5","convertPath s (s.z :: l)","convertPath s l","the path starts at the prime",T)
m("mk-run6",Z,"runStep","| 6 => .ok (step6 a.1, 4)","| 6 => .ok (step6 a.1, 3)","after step 6 step 4",T)
m("mk-run5",Z,"runStep","| .ok s => .ok (s, 3)","| .ok s => .ok (s, 4)","after step 5 step 3",T)
m("mk-run2",Z,"runStep","| 2 => .ok (step2 a.1, 3)","| 2 => .ok (step2 a.1, 4)","after step 2 step 3",T)
m("mk-init",Z,"initSt","⟨P.length, entry P,","⟨P.length - 1, entry P,","the padded size",T)
m("mk-s6add",Z,"step6","if s.rowC i then s.C i j + m","if s.rowC i then s.C i j + 2 * m","covered rows get the minimum",T)
m("mk-maxint",Z,"maxint","9223372036854775807","100","no bound on costs",T)
Z="Model.Lcs"; T="Lcs"
m("lcs-cond",Z,"tbCond","v ≠ 0","v > 1","trace back to 0",T)
m("lcs-up",Z,"goUp","{ s with i := s.i - 1 }","{ s with j := s.j - 1 }","go up",T)
m("lcs-upc",Z,"goUp",".ok (v = u))",".ok (v ≠ u))","go up while equal",T)
m("lcs-left",Z,"goLeft",".ok (v = l))",".ok (v < l))","go left while equal",T)
m("lcs-rev",Z,"lcs",".ok s.out.reverse",".ok s.out","order",T)
m("lcs-start",Z,"lcs","j := seq2.length, out","j := seq1.length, out","start in the last cell",T)
Z="Model.Median"; T="Median"
m("med-sods",Z,"sods","Py.forRange 0 i sod","Py.forRange 1 i sod","all pairs count",T)
m("med-sods2",Z,"sods","Py.forRange 0 strings.length (List","Py.forRange 0 (strings.length - 1) (List","all pairs count",T)
m("med-med",Z,"median","let i ← argmin sod\n  Py.get strings i","let _ ← argmin sod\n  Py.get strings 0","the median is returned",T)
Z="Model.SmithWaterman"; T="SmithWaterman"
m("sw-gap",Z,"maxScore","(left.1 + gap y, .L)","(left.1 + gap x, .L)","gap of the skipped item",T)
m("sw-keys",Z,"keys","(List.range (n + 1)).flatMap","(List.range n).flatMap","the last row counts",T)
m("sw-items",Z,"items","(keys n m).filterMap","(keys m n).filterMap","all cells",T)
m("sw-elt",Z,"entryLt","Cell.lt a.1 b.1 ||","Cell.lt b.1 a.1 ||","the highest score",T)
m("sw-run",Z,"smithWaterman","bestPair seq1.length seq2.length t","bestPair seq2.length seq1.length t","over the whole matrix",T)
m("sw-fb",Z,"findBestScore","bestStep (0, ((n : Int) + 2, (m : Int) + 2))","bestStep (1, ((n : Int) + 2, (m : Int) + 2))","any positive score counts",T)
m("sw-col",Z,"recalcCol","maxScore seq1 seq2 sim gap k j t","maxScore seq1 seq2 sim gap j k t","column cells recalculated",T)
m("sw-pair",Z,"recalcPair","let t := t.set (i, j) (0, .T)","let t := t","aligned cells are cleared",T)
m("sw-pair1",Z,"recalcPair","let i := p.1.toNat + 1\n","let i := p.1.toNat\n","cells are one-based",T)
m("sw-we",Z,"weBody","all := s.all ++ [al]","all := al :: s.all","best alignment first",T)
m("sw-we2",Z,"weBody","if best.1 = 0 then","if best.1 = 1 then","stop at score 0",T)
m("sw-lim",Z,"weCond","decide (s.all.length < limit)","decide (s.all.length ≤ limit)","limit",T)
m("sw-row",Z,"recalcRow","let old ← t.get (i, l)\n    if ms = old then .ok t","let old ← t.get (i, l)\n    if ms ≠ old then .ok t","changed cells are updated",T)
m("sw-row2",Z,"recalcRow","maxScore seq1 seq2 sim gap i l t","maxScore seq1 seq2 sim gap l i t","row cells recalculated",T)
m("sw-wein",Z,"watermanEggert","{ t := t, all := [], stop := false }\n  .ok s.all","{ t := t, all := [], stop := false }\n  .ok s.all.reverse","best alignment first",T)
