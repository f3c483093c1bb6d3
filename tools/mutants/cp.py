Z="Model.PgcCp"; T="PgcCp"
m("cp1",Z,"copyOne","if pathExists ps disk t && sameFile ps source t then (disk, some .same, none)\n      else if","if","a source is written onto itself with --overwrite",T)
m("cp2",Z,"copyOne","pathExists ps disk t && !overwrite then","pathExists ps disk t && overwrite then","--overwrite inverted",T)
m("cp3",Z,"copyOne","pathExists ps disk t && !overwrite then","!pathExists ps disk t && !overwrite then","only existing files are written",T)
m("cp4",Z,"copyOne","| .error _ => (disk, some .invalid, none)","| .error e => (disk, some .invalid, some e)","an invalid source stops the run",T)
m("cp5",Z,"copyOne","(disk, some .missing, none)","(disk, some .missing, some .osError)","a missing source stops the run",T)
m("cp6",Z,"copyOne","if !pathExists ps disk source then (disk, some .missing, none)\n  else match","match","missing sources are called invalid",T)
m("cp7",Z,"targetOf","PosixPath.join target (PosixPath.basename source)","PosixPath.join target source","the whole path of the source below the directory",T)
m("cp8",Z,"targetOf","PosixPath.join target (PosixPath.basename source)","target","the directory itself as target",T)
m("cp9",Z,"targetOf","PosixPath.join target (PosixPath.basename source)","PosixPath.basename source","written to the working directory",T)
m("cp10",Z,"sameFile","ps.isDir p = ps.isDir q && ps.place p = ps.place q","p = q","compares names instead of files",T)
m("cp11",Z,"pgcCp","sources.length > 1","sources.length > 2","two sources to one file",T)
m("cp12",Z,"pgcCp","!ps.isDir target && sources.length > 1","sources.length > 1","several sources never accepted",T)
m("cp13",Z,"writeTarget","if n = ps.place t then some c else disk n","if n = ps.place t then some c else none","other files are lost",T)
m("cp14",Z,"copyAll","    | (disk, w, some e) => (disk, [w], some e)","    | (_, w, some e) => match copyAll ps cd overwrite target disk rest with\n      | (disk, ws, _) => (disk, w :: ws, some e)","an exception while writing does not stop the run",T)
m("cp15",Z,"copyAll","match copyAll ps cd overwrite target disk rest with","match copyAll ps cd true target disk rest with","overwrites after the first source",T)
m("cp16",Z,"readSource","  | some c => cd.read source c","  | some c => cd.read [] c","bank paths are taken from the working directory",T)
m("cp17",Z,"writeAt","bankText fs cwd false fn p.toList","bankText fs cwd false [] p.toList","paths relative to the working directory",T)
m("cp18",Z,"writeAt","bankText fs cwd false fn p.toList","bankText fs cwd false (PosixPath.dirname fn) p.toList","paths relative to the parent directory",T)
m("cp19",Z,"readAt","    | some e => .error e\n    | none => .ok s","    | some _ => .ok s\n    | none => .ok s","torn files are read",T)
m("cp20",Z,"readAt","RelPath.bankPath fs cwd fn x","RelPath.bankPath fs cwd [] x","bank paths are taken from the working directory",T)
m("cp21",Z,"complete","x.1.1.isSome && x.1.2.isSome && x.2.isSome","x.1.1.isSome && x.1.2.isSome","a missing relation is written as an empty one",T)
m("cp22",Z,"world","idxOf (some p.targetBank), p.sourceId","idxOf (some p.sourceBank), p.sourceId","target bank replaced",T)
m("cp23",Z,"world","p.sourceId, p.targetId,\n        ⟨k, p.meta⟩, plainAlign p.align⟩\n  path","p.targetId, p.sourceId,\n        ⟨k, p.meta⟩, plainAlign p.align⟩\n  path","graph ids swapped",T)
m("cp24",Z,"world","rels _ := s.rels","rels _ := []","relations dropped",T)
m("cp25",Z,"corpus","s.meta.map fun e => ⟨s.pairs.length, e⟩","none","corpus metadata dropped",T)
m("cp26",Z,"corpus","⟨List.range s.pairs.length,","⟨List.range (s.pairs.length - 1),","last graph pair dropped",T)
m("cp27",Z,"formats","((s.banks[n]?.bind fun b => b.2.format).getD \"\")","((s.banks[0]?.bind fun b => b.2.format).getD \"\")","all banks get the format of the first",T)
m("cp28",Z,"plainAlign","(x.1.1.getD \"\") (x.1.2.getD \"\") (x.2.getD \"\")","(x.1.2.getD \"\") (x.1.1.getD \"\") (x.2.getD \"\")","alignments swapped",T)
m("cp29",Z,"pathExists","ps.isDir p || (disk (ps.place p)).isSome","(disk (ps.place p)).isSome","directories do not exist",T)
m("cp30",Z,"targetOf","if ps.isDir target then","if !ps.isDir target then","directory test inverted",T)
