Z="Model.EvalFloat"; T="EvalFloat"
m("ef-sqrt",Z,"sqrtPy","if x < 0 then","if x ≤ 0 then","sqrt of 0 does not raise",T)
m("ef-sqrtneg",Z,"devFl","fl (a + fl (fl (x - mean) ^ 2))","fl (a + fl (x - mean))","the deviations are squared: no square root of a negative number",T)
m("ef-sumdup",Z,"sumFl","fl (a + x)","fl (a + x + x)","a mean is at most 1",T)
m("ef-prec",Z,"precisionFl","(c .common) (c .pred)","(c .common) (c .true)","precision by the predicted alignments",T)
m("ef-preccatch",Z,"precisionFl","Py.catchZeroDiv 0 (ratioFl fl (c .common) (c .pred))","(ratioFl fl (c .common) (c .pred))","precision without predictions is 0",T)
m("ef-rec",Z,"recallFl","(c .common) (c .true)","(c .pred) (c .true)","recall counts common alignments",T)
m("ef-f",Z,"fScoreFl","fl (fl (fl (b + 1) * prec) * rec)","fl (fl (fl (b + 1) * prec) * prec)","F near the exact F",T)
m("ef-f2",Z,"fScoreFl","fl (b + 1)","b","F near the exact F",T)
m("ef-fcatch",Z,"fScoreFl","Py.catchZeroDiv 0 (divFl fl (fl (fl (fl (b","(divFl fl (fl (fl (fl (b","F without common alignments is 0",T)
m("ef-row",Z,"evalCountsFl","let f ← fScoreFl fl beta p r","let f ← fScoreFl fl beta p p","F of precision and recall",T)
m("ef-var",Z,"varianceFl","fl (fl values.length - 1)","fl values.length","the variance divides by n - 1",T)
m("ef-varcatch",Z,"varianceFl","Py.catchZeroDiv 0 (divFl fl (devFl","(divFl fl (devFl","the variance of one value is 0",T)
m("ef-var0",Z,"varianceFl","devFl fl mean 0 values","devFl fl mean 1 values","deviations of perfect scores are 0",T)
m("ef-rows",Z,"evalTableFl","let rows ← t.mapM (evalCountsFl fl 1)","let rows ← t.reverse.mapM (evalCountsFl fl 1)","rows in order",T)
m("ef-cmean",Z,"evalTableFl","ratioFl fl (sum c) t.length","ratioFl fl (sum c) rows.length.succ","the mean of counts",T)
m("ef-mmean",Z,"evalTableFl","divFl fl (sumFl fl 0 (rows.map fun x => x m)) (fl t.length)","divFl fl (sumFl fl 0 (rows.map fun x => x m)) (fl (t.length + 1))","the macro mean of perfect scores is 1",T)
m("ef-msd",Z,"evalTableFl","sqrtPy sq (macroVar m)","sqrtPy sq (countVar .true)","the deviation is the root of the variance",T)
m("ef-micro",Z,"evalTableFl","let microMean ← evalCountsFl fl 1 sum","let microMean ← pure macroMean","micro scores are those of the sums",T)
m("ef-mivar",Z,"evalTableFl","(rows.map fun x => x m) (microMean m)","(rows.map fun x => x m) 0","deviations from the micro mean",T)
m("ef-csd",Z,"evalTableFl","let countSd ← perCount fun c => sqrtPy sq (countVar c)","let countSd ← perCount fun c => sqrtPy sq (countMean c)","the deviation is the root of the variance",T)
m("ef-csum",Z,"columnSumFl","0 fun row a => if col ≠ row then do","0 fun row a => if col = row then do","the column without the diagonal",T)
m("ef-avn",Z,"avColumnFl","(fl (labels.length - 1))","(fl labels.length)","the mean of unanimous scores is 1",T)
m("ef-avsum",Z,"avColumnFl","fl (s.2 + sum)","fl (s.2 + m)","the overall mean is that of all scores",T)
m("ef-avcol",Z,"avColumnFl","setCell s.1 \"mean\" col m","setCell s.1 col \"mean\" m","means in their row",T)
m("ef-all",Z,"calculateAvFl","(fl (labels.length * (labels.length - 1)))","(fl (labels.length * labels.length))","the overall mean of unanimous scores is 1",T)
m("ef-dev",Z,"columnDevFl","fl (a.1 + fl (fl (v - colAv) ^ 2))","fl (a.1 + fl (fl (v - overallAv + 1) ^ 2))","deviations of unanimous scores are 0",T)
m("ef-dev2",Z,"columnDevFl","fl (a.2 + fl (fl (v - overallAv) ^ 2))","fl (a.2 + fl (v ^ 2))","the overall deviation of unanimous scores is 0",T)
m("ef-sdcatch",Z,"sdColumnFl","let v ← Py.catchZeroDiv 0 (do","let v ← (do","two annotators: the deviation of a column is 0",T)
m("ef-sdn",Z,"sdColumnFl","fl (labels.length - 1 - 1)","fl (labels.length - 2 - 1)","three annotators: no square root of a negative number",T)
m("ef-sdall",Z,"calculateSdFl","setCell s.1 \"SD\" \"overall\" v","setCell s.1 \"mean\" \"overall\" v","the overall deviation in its row",T)
m("ef-sdoa",Z,"calculateSdFl","fl (labels.length * (labels.length - 1) - 1)","fl (labels.length * (labels.length - 1) - 2)","two annotators: no division by zero",T)
m("ef-stat",Z,"calculateStatisticsFl","calculateSdFl fl sq labels d","return d","deviations are in the table",T)
m("ef-tab",Z,"tableizeFl","setCell d x.1.1 x.1.2 (x.2 m)","setCell d x.1.2 x.1.1 (x.2 m)","rows are the true annotators",T)
m("ef-cs1",Z,"computeScoresFl","(ratioFl fl nPred nTrue)","(ratioFl fl nTrue nPred)","the ratio of predicted and true",T)
m("ef-cs2",Z,"computeScoresFl","(ratioFl fl nCommon nTrue)","(ratioFl fl nCommon nPred)","recall by true alignments",T)
m("ef-cs3",Z,"computeScoresFl","fl (2 * precision) * recall","precision * recall","F near the exact F",T)
m("ef-cs4",Z,"computeScoresFl","return (ratio, precision, recall, f)","return (ratio, recall, precision, f)","the order of the scores",T)
m("ef-wc1",Z,"weightedCosineFl","v.map fun x => fl (x ^ 2)","v.map fun x => fl x","with itself 1",T)
m("ef-wc2",Z,"weightedCosineFl","sqrtPy sq (fl (v1 * v2))","sqrtPy sq (fl (v1 * v1))","symmetric",T)
m("ef-wc3",Z,"weightedCosineFl","fl (x * y)) v w","fl (x * x)) v w","symmetric",T)
m("ef-wc4",Z,"weightedCosineFl","fl (v1 * v2)","fl (v1 - v2)","no square root of a negative number",T)
m("ef-wc5",Z,"weightedCosineFl","Py.catchZeroDiv 0 (do\n    let r ←","(do\n    let r ←","zero vectors give 0",T)
m("ef-mivar2",Z,"evalTableFl","(rows.map fun x => x m) (microMean m)","(rows.map fun x => x m) (macroMean m)","micro variances are about the micro mean",T)
m("ef-cvar",Z,"evalTableFl","(t.map fun x => fl (x c)) (countMean c)","(t.map fun x => fl (x c + 1)) (countMean c)","the variance of counts",T)
m("ef-devswap",Z,"columnDevFl","fl (a.1 + fl (fl (v - colAv) ^ 2))","fl (a.1 + fl (fl (v - overallAv) ^ 2))","column deviations are about the column mean",T)
m("ef-sdn2",Z,"sdColumnFl","fl (labels.length - 1 - 1)","fl (labels.length - 1)","the variance of n - 1 scores divides by n - 2",T)
m("ef-sdoa2",Z,"calculateSdFl","fl (labels.length * (labels.length - 1) - 1)","fl (labels.length * (labels.length - 1))","the overall variance divides by the number of scores less 1",T)
m("ef-cube",Z,"devFl","fl (fl (x - mean) ^ 2)","fl (fl (x - mean) ^ 4)","the deviations are squared",T)
