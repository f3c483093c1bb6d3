Z="Model.EvalPrint"; T="EvalPrint"
m("ep-round",Z,"showPlaces","let h := roundEven (|q| * 10 ^ k)","let h := (|q| * 10 ^ k).floor.toNat","values are rounded, not cut off",T)
m("ep-sign",Z,"showPlaces","(if q < 0 then ['-'] else [])","[]","the sign is shown",T)
m("ep-zeros",Z,"showPlaces","(List.replicate (k - d.length) '0' ++ d)","d","zeros after the point",T)
m("ep-pct",Z,"showMeasure","if percent then q * 100 else q","if percent then q else q * 100","percentages",T)
m("ep-line",Z,"line","ljust a label ++ (fields.map (rjust w)).flatten","rjust a label ++ (fields.map (ljust w)).flatten","the fields are at the right",T)
m("ep-keys",Z,"countKeys","[.true, .pred, .common]","[.true, .common, .pred]","the counts are in the columns of their titles",T)
m("ep-mkeys",Z,"measureKeys","[.prec, .recall, .f]","[.recall, .prec, .f]","the measures are in the columns of their titles",T)
m("ep-ttl",Z,"measureTitle",'| .prec => "Prec:".toList\n  | .recall => "Rec:".toList','| .prec => "Rec:".toList\n  | .recall => "Prec:".toList',"titles",T)
m("ep-ns",Z,"namespaceOf","(l.map Name.len).foldl max n.len + 4","n.len + 4","the column is as wide as the longest name",T)
m("ep-ns0",Z,"namespaceOf","| [] => .error .valueError","| [] => .ok 14","no names raise",T)
m("ep-sum",Z,"countPart",'line a 14 "Sum:".toList (countKeys.map fun c => str (s.sum c))','line a 14 "Sum:".toList (countKeys.map fun c => showPlaces 2 (s.countMean c))',"the sum is shown",T)
m("ep-sd",Z,"countPart","showPlaces 2 (sqrt (s.countVar c))","showPlaces 2 (s.countVar c)","the standard deviation",T)
m("ep-mac",Z,"measurePart",'line a 14 "Macro Mean:".toList (measureKeys.map fun m => showMeasure percent (s.macroMean m))','line a 14 "Macro Mean:".toList (measureKeys.map fun m => showMeasure percent (s.microMean m))',"macro means",T)
m("ep-row",Z,"measurePart","(names.zip s.rows)","(names.zip s.rows.reverse)","rows belong to names",T)
m("ep-rowc",Z,"countPart","(names.zip counts)","(names.zip counts.tail)","rows belong to names",T)
m("ep-head",Z,"writeTable",'(if heading = [] then [] else heading ++ "\\n\\n".toList) ++ countPart','(heading ++ "\\n\\n".toList) ++ countPart',"no heading",T)
m("ep-miss",Z,"writeTable","measurePart sqrt percent a names s ++ ","","the measures are printed",T)
m("ep-relk",Z,"writeRelation","| _, _ => ([], some .keyError)","| _, _ => ([], none)","unknown relations raise",T)
m("ep-relp",Z,"writeRelation","writeTable sqrt true heading","writeTable sqrt false heading","percentages",T)
m("ep-any",Z,"writeOnly","(writeRelation sqrt names e s [] anyRel)",'(writeRelation sqrt names e s [] "equals")',"alignment regardless of relation",T)
m("ep-per",Z,"writePerRelation","e.relations)","e.relations.tail)","every relation is printed",T)
m("ep-rl",Z,"relationLine","line 14 14 rel.toList (f ts)","line 14 14 [] (f ts)","the relation is named",T)
m("ep-ov",Z,"writeOverall",'line 14 14 "Macro Mean:".toList (measureKeys.map fun m => showMeasure percent (s.macroMean m))','line 14 14 "Macro Mean:".toList (measureKeys.map fun m => showMeasure percent (s.microMean m))',"overall macro mean",T)
m("ep-ovs",Z,"writeOverall","countKeys.map fun c => str (ts.sum c)","countKeys.map fun c => str (s.sum c)","sums per relation",T)
m("ep-ev",Z,"writeEval","(Out.andThen (writePerRelation sqrt names e s) (writeOverall true e s))","(writeOverall true e s)","the parts of an evaluation",T)
m("ep-cell",Z,"showCell","if percent then showPlaces 2 (q * 100) else showPlaces 4 q","if percent then showPlaces 2 q else showPlaces 4 q","percentages",T)
m("ep-mc",Z,"matrixCell","Agreement.cell d row col","Agreement.cell d col row","cells are by row and column",T)
m("ep-diag",Z,"annotatorLine","else (spaces 12, none)","else (spaces 11, none)","the diagonal is blank",T)
m("ep-over",Z,"statLine",'d row) (labels ++ ["overall"])','d row) labels',"the overall mean",T)
m("ep-mean",Z,"writeMatrix",'(statLine percent id labels d "mean")','(statLine percent id labels d "SD")',"means",T)
m("ep-sdm",Z,"writeMatrix",'(statLine percent sqrt labels d "SD")','(statLine percent id labels d "SD")',"the root of the variance",T)
m("ep-tab",Z,"writeTables","(measureName y.1) labels y.2","(measureName .f) labels y.2","the measure is named",T)
m("ep-pair",Z,"Name.ofPair",'repr p.1 ++ ", ".toList ++ repr p.2','repr p.2 ++ ", ".toList ++ repr p.1',"the order of the annotators",T)

equiv={"ep-relk":"no behaviour changes: run_eval makes statistics for every relation that has a table, and add makes a table for every relation of the list, so the branch cannot be reached"}
