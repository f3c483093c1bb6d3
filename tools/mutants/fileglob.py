Z="Model.FileGlob"; T="FileGlob"
m("fg-star-one",Z,"star","| [] => f []","| [] => false","* stands for no character as well",T)
m("fg-star-none",Z,"star","f (c :: s) || star f s","star f s","* stands for a middle part",T)
m("fg-any",Z,"fnmatch","(a == '?' || a == c)","(a == '?' || a == '.' || a == c)","a dot is a dot",T)
m("fg-q",Z,"fnmatch","(a == '?' || a == c)","(a == c)","? stands for any character",T)
m("fg-prefix",Z,"fnmatch","| [], s => s.isEmpty","| [], _ => true","the whole name has the form",T)
m("fg-hidden",Z,"pyGlob","names.filter fun n => n.head? != some '.'","names","hidden files are left out",T)
m("fg-hidden2",Z,"pyGlob","if p.head? = some '.' then names else names.filter","if False then names else names.filter","a dot selects hidden files",T)
m("fg-missing",Z,"pyGlob","then [p] else []","then [p] else [p]","names of no file are passed over",T)
m("fg-sort",Z,"glob","(pyGlob names p).mergeSort fun x y => decide (String.ofList x ≤ String.ofList y)","pyGlob names p","in order",T)
m("fg-sort2",Z,"multiglob","SplitJoin.multiglob (pyGlob names) ps","ps.flatMap (glob names)","in order over all patterns",T)
m("fg-once",Z,"multiglob","SplitJoin.multiglob (pyGlob names) ps","(SplitJoin.multiglob (pyGlob names) ps).dedup","files are there as often as selected",T)
m("fg-magic",Z,"magic","c == '*' || c == '?' || c == '['","c == '*' || c == '['","? is magic",T)
