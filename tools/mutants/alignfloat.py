Z="Model.AlignFloat"; T="AlignFloat"
m("af-bord",Z,"borderFl","fl (gap x * i)","fl (gap x)","the border costs i gaps",T)
m("af-bordl",Z,"borderFl","t.set (0, j) (fl (gap y * j), .L)","t.set (0, j) (fl (gap y * j), .U)","the step of the upper border is L",T)
m("af-bordr",Z,"borderFl","Py.forRange 1 (seq1.length + 1) t","Py.forRange 1 seq1.length t","the border is complete",T)
m("af-cellg",Z,"cellFl",".ok (cmax (cmax (fl (up.1 + gap x), .U) (fl (diag.1 + sim x y), .D)) (fl (left.1 + gap y), .L))",".ok (cmax (cmax (fl (up.1 + gap y), .U) (fl (diag.1 + sim x y), .D)) (fl (left.1 + gap y), .L))","a step up costs the gap of the first sequence (with constant gap costs for each sequence)",T)
m("af-cells",Z,"cellFl",".ok (cmax (cmax (fl (up.1 + gap x), .U) (fl (diag.1 + sim x y), .D)) (fl (left.1 + gap y), .L))",".ok (cmax (cmax (fl (up.1 + gap x), .U) (fl (diag.1 - sim x y), .D)) (fl (left.1 + gap y), .L))","a diagonal step gains the similarity",T)
m("af-celld",Z,"cellFl",".ok (cmax (cmax (fl (up.1 + gap x), .U) (fl (diag.1 + sim x y), .D)) (fl (left.1 + gap y), .L))",".ok (cmax (cmax (fl (up.1 + gap x), .U) (fl (diag.1 + sim x y), .L)) (fl (left.1 + gap y), .L))","the letter of the diagonal step",T)
m("af-cellu",Z,"cellFl",".ok (cmax (cmax (fl (up.1 + gap x), .U) (fl (diag.1 + sim x y), .D)) (fl (left.1 + gap y), .L))",".ok (cmax (cmax (fl (up.1 + gap x), .U) (fl (diag.1 + sim x y), .D)) (fl (up.1 + gap y), .L))","a step left continues the left cell",T)
m("af-two",Z,"cellFl",".ok (cmax (cmax (fl (up.1 + gap x), .U) (fl (diag.1 + sim x y), .D)) (fl (left.1 + gap y), .L))",".ok (cmax (cmax (fl (up.1 + gap x), .U) (fl (fl diag.1 + fl (sim x y + sim x y)), .D)) (fl (left.1 + gap y), .L))","one similarity for a pair",T)
m("af-nwstop",Z,"needlemanWunschFl","s.i + s.j > 0","s.i > 0","the traceback covers both sequences (equivalent: only gaps are left)",T)
m("af-nwstop2",Z,"needlemanWunschFl","s.i + s.j > 0","s.i + s.j > 1","the traceback ends at the start",T)
m("af-nwstart",Z,"needlemanWunschFl","i := seq1.length, j","i := seq2.length, j","the traceback starts at the end",T)
m("af-ms0",Z,"maxScoreFl","(0, .T))","(1, .T))","a new local alignment starts with zero",T)
m("af-msmin",Z,"maxScoreFl",".ok (cmax (cmax (cmax (fl (up.1 + gap x), .U) (fl (diag.1 + sim x y), .D)) (fl (left.1 + gap y), .L)) (0, .T))",".ok (cmax (cmax (cmax (fl (up.1 + gap x), .U) (fl (diag.1 + sim x y), .D)) (fl (left.1 + gap x), .L)) (0, .T))","a step left costs the gap of the second sequence",T)
m("af-msD",Z,"maxScoreFl",".ok (cmax (cmax (cmax (fl (up.1 + gap x), .U) (fl (diag.1 + sim x y), .D)) (fl (left.1 + gap y), .L)) (0, .T))",".ok (cmax (cmax (cmax (fl (up.1 + gap x), .U) (fl (left.1 + sim x y), .D)) (fl (left.1 + gap y), .L)) (0, .T))","a diagonal step continues the diagonal cell",T)
m("af-swpair",Z,"smithWatermanFl","bestPair seq1.length seq2.length t","bestPair seq2.length seq1.length t","the best end of all",T)
m("af-colk",Z,"recalcColW","(t.set (k, j) c)","t","recalculated scores are stored",T)
m("af-rcset",Z,"recalcPairW","t.set (i, j) (0, .T)","t","the pairs of the alignment get the score zero",T)
m("af-rci",Z,"recalcPairW","p.1.toNat + 1","p.1.toNat","indices of the alignment start at 0",T)
m("af-rcol",Z,"recalcPairW","(n - i) (i + 1)","(n - i + 1) (i + 1)","the column ends at the last row",T)
m("af-rrow",Z,"recalcPairW","recalcRowW ms i (m - j) (j + 1) t","recalcRowW ms i (m - j) j t","the row starts after the pair",T)
m("af-we0",Z,"weBodyW","if best.1 = 0 then","if best.1 = 1 then","stops when no score is positive",T)
m("af-weall",Z,"weBodyW","s.all ++ [al]","[al] ++ s.all","alignments in the order in which they are found",T)
m("af-welim",Z,"watermanEggertFl","weCond limit","weCond (limit + 1)","not more than limit alignments",T)
m("af-wet",Z,"weBodyW","traceAlignment tfuel s.t best.2","traceAlignment tfuel s.t ((n : Int), (m : Int))","the alignment starts at the best score",T)
