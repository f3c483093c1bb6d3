F="Model.HitaextFile"
m("hf1",F,"fnPath","[s.tag, \"filename\"]","[\"from\", \"filename\"]","the file name of the other side is read and changed","HitaextFile")
m("hf2",F,"Side.tag","| .target => \"to\"","| .target => \"from\"","both sides are the same","HitaextFile")
m("hf3",F,"elPath","[s.tag, \"render\", \"elements\"]","[s.tag, \"render\"]","elements are put into the render section itself","HitaextFile")
m("hf4",F,"updKids","| some x => some (x :: cs)","| some x => some [x]","siblings after the changed element are lost","HitaextFile")
m("hf5",F,"updKids","    else (updKids t g cs).map (c :: ·)","    else updKids t g cs","siblings before the changed element are lost","HitaextFile")
m("hf6",F,"template","leaf \"font\", leaf \"elements\"","leaf \"font\"","the template has no elements section","HitaextFile")
m("hf7",F,"template","[side \"from\", side \"to\", leaf \"alignment\"]","[side \"from\", side \"to\"]","the template has no alignment","HitaextFile")
m("hf8",F,"getFilename",".ok (strip ws x)",".ok x","blanks are not stripped","HitaextFile")
m("hf9",F,"searchFilename","if isFile fn then .ok fn\n    else if","if","the path as given is not tried","HitaextFile")
m("hf10",F,"searchFilename","    else if isFile (PosixPath.join (PosixPath.dirname d.filename) fn) then\n      .ok (PosixPath.join (PosixPath.dirname d.filename) fn)\n","","the path relative to the document is not tried","HitaextFile")
m("hf11",F,"validate","| .ok y => if y = [] then .error .assertionError else .ok ()","| .ok _ => .ok ()","an empty target file name is accepted","HitaextFile")
m("hf12",F,"validate","match getFilename ws d .target with","match getFilename ws d .source with","only the source is validated","HitaextFile")
m("hf13",F,"openFile","match validate ws { root := root, filename := file } with\n  | .error e => .error e\n  | .ok () => .ok","match validate ws { root := root, filename := file } with\n  | .error _ => .ok { root := root, filename := file }\n  | .ok () => .ok","invalid files are accepted","HitaextFile")
m("hf14",F,"setPseudoRoot","\"pseudo_root\" tag","\"pseudoroot\" tag","another attribute is set","HitaextFile")
m("hf15",F,"getTags","decide (c.attrib.get? a = some \"True\")","decide (c.attrib.get? a ≠ none)","elements marked False are included","HitaextFile")
m("hf16",F,"getPseudoRootTags","getTags d s \"uniq\"","getTags d s \"skip\"","another attribute is read","HitaextFile")
m("hf17",F,"getEntry","find (elPath s ++ [tag]) d.root","find (elPath .source ++ [tag]) d.root","get_elem ignores the side","HitaextFile")
m("hf18",F,"defaultElem","(\"newline\", \"False\"), ","","an attribute is missing","HitaextFile")
m("hf19",F,"addElem","e.children ++ [defaultElem tag]","[defaultElem tag]","add_elem removes the others","HitaextFile")
m("hf20",F,"addElem","e.children ++ [defaultElem tag]","defaultElem tag :: e.children","add_elem puts the element first","HitaextFile")
m("hf21",F,"initStep","setAttr (defaultElem tag) \"uniq\" \"True\"","defaultElem tag","tags that occur once are not marked","HitaextFile")
m("hf22",F,"initStep","setAttr e \"uniq\" \"False\"","setAttr e \"uniq\" \"True\"","repeated tags are marked as unique","HitaextFile")
m("hf23",F,"initStep","st.2.set tag st.1.length","st.2","every occurrence gives an element","HitaextFile")
m("hf24",F,"initStep","st.2.set tag st.1.length","st.2.set tag 0","a repeated tag marks the first element","HitaextFile")
m("hf25",F,"initElems","\"pseudo_root\" tree.tag","\"pseudo_root\" \"\"","the root is not made the pseudo root","HitaextFile")
m("hf26",F,"initElems","foldl initStep (e.children, [])","foldl initStep ([], [])","init_elems removes old elements (the docstring's intention, not the code)","HitaextFile")
m("hf27",F,"iterTagsList","iterTags e ++ iterTagsList es","iterTagsList es ++ iterTags e","not in document order","HitaextFile")
m("hf28",F,"iterTags","t :: iterTagsList c","iterTagsList c","the tag of an element is left out","HitaextFile")
m("hf29",F,"setMethod","if m ∈ [\"n\", \"id\"] then","if m ∈ [\"n\", \"id\", \"\"] then","other methods are accepted","HitaextFile")
m("hf30",F,"setMethod","setAttr e \"method\" m","setAttr (setChildren e []) \"method\" m","setting the method removes the links","HitaextFile")
m("hf31",F,"clearLinks","setChildren e []","setChildren (setAttr e \"method\" \"\") []","clearing removes the method","HitaextFile")
m("hf32",F,"clearLinks","setChildren e []","setChildren e (e.children.drop 1)","only the first link is removed","HitaextFile")
m("hf33",F,"addLink","(\"from_\" ++ key, fv), (\"to_tag\", tt), (\"to_\" ++ key, tv)","(\"from_\" ++ key, tv), (\"to_tag\", tt), (\"to_\" ++ key, fv)","sides of a link exchanged","HitaextFile")
m("hf34",F,"addLink","e.children ++\n","[] ++\n","a link replaces all others","HitaextFile")
m("hf35",F,"getLinks","| .ok e => .ok e.children","| .ok e => .ok (e.children.filter fun c => c.tag ≠ \"link\")","no links are returned","HitaextFile")
m("hf36",F,"getMethod","e.attrib.get? \"method\"","e.attrib.get? \"tag\"","another attribute is read","HitaextFile")
m("hf37",F,"findKids","      | none => findKids t g cs\n","      | none => none\n","only the first child with a tag is searched","HitaextFile")
m("hf38",F,"ofElement","| none => .ok { root := template, filename := [] }","| none => .ok { root := leaf \"hitaext\", filename := [] }","a new document is empty","HitaextFile")
P="Model.PosixPath"
m("pp1",P,"basename","(p.reverse.takeWhile (· ≠ '/')).reverse","p","the directory is kept","HitaextFile")
m("pp2",P,"dirname","if (head p).all (· = '/') then head p else rstripSlash (head p)","[]","the directory is lost","HitaextFile")
m("pp3",P,"join","if b.head? = some '/' then b else ","","absolute paths are joined","HitaextFile")
m("pp4",P,"join","a ++ '/' :: b","a ++ b","separator missing","HitaextFile")
S="Model.StatsCorpus"
m("sc1",S,"Job.subFile","[\"stats\".toList, j.seg, annot, sub, k.name]","[\"stats\".toList, j.seg, sub, k.name]","all annotations share the file of a subsegment","StatsCorpus")
m("sc2",S,"Job.subFile","[\"stats\".toList, j.seg, annot, sub, k.name]","[\"stats\".toList, j.seg, annot, sub]","both kinds share a file","StatsCorpus")
m("sc3",S,"Job.subFile","if c = '/' then '.' else c","c","slashes are kept","StatsCorpus")
m("sc4",S,"Job.subFile","if c = '/' then '.' else c","if c = '/' then '_' else c","slashes become underscores","StatsCorpus")
m("sc5",S,"Job.annotFile","[\"stats\".toList, j.seg, annot, k.name]","[\"stats\".toList, annot, k.name]","annotation files can have the name of a segment file","StatsCorpus")
m("sc6",S,"Job.segFile","[\"stats\".toList, j.seg, k.name]","[\"stats\".toList, j.seg, \"ma\".toList, k.name]","the segment file has the name of an annotation file","StatsCorpus")
m("sc7",S,"Job.isTarget"," || decide (annot ++ '.' :: sub ∈ ts)","","a target annotation.subsegment is ignored","StatsCorpus")
m("sc8",S,"Job.isTarget"," || decide (sub ∈ ts)","","a target subsegment is ignored","StatsCorpus")
m("sc9",S,"Job.isTarget","if j.targets = [] then [\"all\".toList] else j.targets","j.targets","no targets means nothing instead of all","StatsCorpus")
m("sc10",S,"Job.isTarget","annot ++ '.' :: sub ∈ ts","sub ++ '.' :: annot ∈ ts","target parts exchanged","StatsCorpus")
m("sc11",S,"writeTable","if isEmpty t then f else put f fn (write true t)","put f fn (write true t)","empty tables are written","StatsCorpus")
m("sc12",S,"writeTable","put f fn (write true t)","if f fn = none then put f fn (write true t) else f","existing files are not overwritten","StatsCorpus")
m("sc13",S,"writeTable","write true t","write false t","no legenda","StatsCorpus")
m("sc14",S,"put","if g = fn then some x else f g","if g = fn then some ((f g).getD [] ++ x) else f g","files are appended to","StatsCorpus")
m("sc15",S,"readSub","| none => .ok t\n","| none => .error .osError\n","missing files raise","StatsCorpus")
m("sc16",S,"readSub","    | (_, some e) => .error e","    | (t', some _) => .ok t'","errors are swallowed: partial tables are counted","StatsCorpus")
m("sc17",S,"subStep","readSub ws f s.gb (j.subFile annot sub .gb)","readSub ws f s.gb (j.subFile annot sub .pgc)","the gb table reads the pgc file","StatsCorpus")
m("sc18",S,"subStep","match readSub ws f s.pgc (j.subFile","match readSub ws s.files s.pgc (j.subFile","the old pgc file is read","StatsCorpus")
m("sc19",S,"annotStep","Py.forIn j.subs ⟨s.files, j.new .pgc, j.new .gb⟩","Py.forIn j.subs ⟨s.files, s.pgc, j.new .gb⟩","the table of an annotation is not new: parts are counted again","StatsCorpus")
m("sc20",S,"annotStep","writeTable (j.summ .pgc a.pgc)","writeTable a.pgc","no summary for annotations","StatsCorpus")
m("sc21",S,"annotStep","match readSub ws f s.gb (j.annotFile annot .gb)","match readSub ws a.files s.gb (j.annotFile annot .gb)","the old gb file of an annotation is read","StatsCorpus")
m("sc22",S,"annotStep","      | .error e => .error e\n      | .ok g => .ok ⟨f, p, g⟩","      | .error e => .error e\n      | .ok _ => .ok ⟨f, p, s.gb⟩","gb tables of annotations are not counted","StatsCorpus")
m("sc23",S,"run","if j.subs = [] then .error .assertionError else\n","","no subsegments are accepted","StatsCorpus")
m("sc24",S,"run","writeTable (j.summ .gb s.gb) (j.segFile .gb)","writeTable (j.summ .gb s.gb) (j.segFile .pgc)","the gb report goes to the pgc file","StatsCorpus")
m("sc25",S,"run","writeTable (j.summ .pgc s.pgc)","writeTable s.pgc","no summary for the segment","StatsCorpus")
m("sc26",S,"Job.seg","PosixPath.basename (PosixPath.rstripSlash j.segDir)","j.segDir","the whole path of the segment is used","StatsCorpus")
m("sc27",S,"Job.seg","PosixPath.basename (PosixPath.rstripSlash j.segDir)","PosixPath.basename j.segDir","a trailing slash gives an empty name","StatsCorpus")
m("sc28",S,"Kind.name","\"gb\".toList","\"pgc\".toList","both kinds have the same name","StatsCorpus")
m("sc29",S,"dots","x ++ '.' :: dots (y :: l)","x ++ dots (y :: l)","no points","StatsCorpus")
C="Model.PtcChdir"
m("pc1",C,"slashes","if c = '\\\\' then '/' else c","c","backslashes are kept","PtcChdir")
m("pc2",C,"stripDrive","if d = ':' then .ok q else","if d = ':' then .ok (d :: q) else","the colon of a drive is kept","PtcChdir")
m("pc3",C,"stripDrive","if d = ':' then .ok q else .ok (c :: d :: q)",".ok q","the first two characters are dropped","PtcChdir")
m("pc4",C,"stripDrive","if c.isUpper then match p with","if c.isAlpha then match p with","lower case drives","PtcChdir")
m("pc5",C,"newPath","PosixPath.join dir (PosixPath.basename (slashes p))","PosixPath.join dir (slashes p)","the old directory is kept","PtcChdir")
m("pc6",C,"newPath","PosixPath.join dir (PosixPath.basename (slashes p))","PosixPath.basename (slashes p)","the new directory is ignored","PtcChdir")
m("pc7",C,"newPath","PosixPath.basename (slashes p)","PosixPath.basename p","backslashes are not understood","PtcChdir")
m("pc8",C,"moveSide","if test then .ok d else setFilename d s q","setFilename d s q","a dry run changes the document in memory","PtcChdir")
m("pc9",C,"moveSide","setFilename d s q","setFilename d .source q","always the source side","PtcChdir")
m("pc10",C,"moveDoc","| .ok d => moveSide ws dir test d .target","| .ok d => .ok d","the target is not changed","PtcChdir")
m("pc11",C,"moveAll","(if test then f else fun g => if g = fn then some (Pgc.reread d.root) else f g)","(fun g => if g = fn then some (Pgc.reread d.root) else f g)","a dry run writes","PtcChdir")
m("pc12",C,"moveAll","      | .error e => (f, some e)\n","      | .error _ => moveAll ws dir test fns f\n","errors are skipped","PtcChdir")
m("pc13",C,"moveAll","    | none => (f, some .osError)\n","    | none => moveAll ws dir test fns f\n","missing files are skipped","PtcChdir")
m("pc14",C,"moveAll","if g = fn then some (Pgc.reread d.root) else f g","if g = dir then some (Pgc.reread d.root) else f g","the document is written to another file","PtcChdir")
tight={"hf27":["HitaextFile.new_history","HitaextFile.document_history","HitaextFile.init_elems_exact"],"hf28":["HitaextFile.new_history","HitaextFile.document_history","HitaextFile.init_elems_exact"],"sc27":["StatsCorpus.file_names"]}
