Z="Model.FromPtc"; T="FromPtc"
m("fp-base",Z,"outName","PgcZip.stem (PosixPath.basename textCorpus)","PgcZip.stem textCorpus","output in the working directory",T)
m("fp-ext",Z,"outName",'".pgc".toList',"[]","extension .pgc",T)
m("fp-cont",Z,"makeAll","| .error e => (disk, some e)\n    | .ok new => match","| .error _ => makeAll ps cd create disk rest\n    | .ok new => match","a failure stops the run",T)
m("fp-next",Z,"makeAll","| (disk, none) => makeAll ps cd create disk rest","| (disk, none) => (disk, none)","all corpora are made",T)
m("fp-over",Z,"makeAll","writeTarget ps cd disk new (outName x.1)","writeTarget ps cd disk new x.1","the text corpus is not overwritten",T)
m("fp-num",Z,"main","else if texts.length ≠ targets.length then none\n","","nothing is done with too few target banks",T)
m("fp-num2",Z,"main","if texts.length ≠ sources.length then none","if texts.length < sources.length then none","nothing is done with too few source banks",T)
m("fp-swapz",Z,"main","texts.zip (sources.zip targets)","texts.zip (targets.zip sources)","source banks are source banks",T)
m("fp-swapb",Z,"create","Creation.pgcFromPtc c links tF tT bS bT","Creation.pgcFromPtc c links tF tT bT bS","source graphs from the source bank",T)
m("fp-swapt",Z,"create","Creation.pgcFromPtc c links tF tT bS bT","Creation.pgcFromPtc c links tT tF bS bT","source text is the source text",T)
m("fp-path",Z,"create","(RelPath.realpath fs cwd x.2.2).getD x.2.2","(RelPath.realpath fs cwd x.2.1).getD x.2.1","target bank is the target bank",T)
m("fp-abs",Z,"create","(RelPath.realpath fs cwd x.2.1).getD x.2.1,","x.2.1,","bank paths are absolute",T)
m("fp-fmt",Z,"create","formatS, formatT⟩","formatT, formatS⟩","formats",T)
m("fp-ids",Z,"world","⟨0, 1, p.sourceId, p.targetId,","⟨0, 1, p.targetId, p.sourceId,","ids of the link",T)
m("fp-bank",Z,"world","⟨0, 1, p.sourceId","⟨0, 0, p.sourceId","target bank",T)
m("fp-sort",Z,"world","relations.mergeSort fun s t => decide (s ≤ t)","relations","relations sorted",T)
m("fp-rev",Z,"corpus","List.range n.pairs.length","(List.range n.pairs.length).reverse","graph pairs in order",T)
m("fp-drop",Z,"corpus","List.range n.pairs.length","List.range (n.pairs.length - 1)","all graph pairs",T)
m("fp-rel",Z,"writeNew","RelPath.bankText fs cwd false fn","RelPath.bankText fs cwd false []","paths relative to the corpus file",T)
