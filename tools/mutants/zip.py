Z="Model.PgcZip"; T="PgcZip"
m("pz1",Z,"bankPath","!site.ex p && relax","relax","relaxed reading ignores the recorded paths",T)
m("pz2",Z,"bankPath","!site.ex p && relax","!site.ex p","strict reading looks in the corpus directory too",T)
m("pz3",Z,"bankPath","PosixPath.basename p)","x)","the recorded relative path is used again",T)
m("pz4",Z,"bankPath","site.real (PosixPath.join dir (PosixPath.basename p))","site.real (PosixPath.basename p)","the bank is searched in the working directory",T)
m("pz5",Z,"bankPath","site.real (PosixPath.join dir x)\n","site.real x\n","relative paths are taken from the working directory",T)
m("pz6",Z,"env","site.real (bankPath site relax dir x)","bankPath site false dir x","relax has no effect, and links are kept",T)
m("pz7",Z,"graphbanks","[p.sourceBank, p.targetBank]","[p.sourceBank]","target banks are not packed",T)
m("pz8",Z,"graphbanks",".dedup","","banks are packed once for each graph pair",T)
m("pz9",Z,"store","(PosixPath.join archDir (PosixPath.basename fn), c)","(PosixPath.join archDir fn, c)","full paths in the archive",T)
m("pz10",Z,"store","(PosixPath.join archDir (PosixPath.basename fn), c)","(PosixPath.basename fn, c)","no directory in the archive",T)
m("pz11",Z,"store","  | none => .error .osError\n  | some c => .ok (arch","  | none => .ok arch\n  | some c => .ok (arch","missing files are skipped",T)
m("pz12",Z,"packCorpus","  match store site archDir arch fn with","  match (Except.ok arch : Py _) with","the corpus itself is not packed",T)
m("pz13",Z,"packCorpus","readCorpus rd site false .none fn","readCorpus rd site true .none fn","packing reads with relaxed paths",T)
m("pz14",Z,"packCorpus","Py.forIn (ord (graphbanks s)) arch","Py.forIn (ord (graphbanks s)) []","the entries before are lost",T)
m("pz15",Z,"multiglob","(pats.flatMap site.glob)","(pats.take 1 |>.flatMap site.glob)","only the first pattern",T)
m("pz16",Z,"multiglob","(pats.flatMap site.glob).mergeSort fun x y => decide (String.ofList x ≤ String.ofList y)","pats.flatMap site.glob","not sorted",T)
m("pz17",Z,"archDir","stem (PosixPath.basename zip)","stem zip","the directory of the archive is kept",T)
m("pz18",Z,"stem","if root.all (· = '.') then p else root","root","names without extension become empty",T)
m("pz19",Z,"packBank","  | none => .error .keyError\n  | some bank => store site archDir arch bank.path","  | none => .error .keyError\n  | some bank => store site archDir [] bank.path","each bank replaces the archive",T)
m("pz20",Z,"readCorpus","      | some e => .error e\n      | none => .ok s","      | some _ => .ok s\n      | none => .ok s","broken XML at the end is accepted",T)
m("pz21",Z,"readCorpus","PosixPath.dirname fn","fn","the corpus file is taken for its directory",T)
