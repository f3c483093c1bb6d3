Z="Model.SplitJoin"
T="SplitJoin"
def s(name,d,old,new,claim): m(name,Z,d,old,new,claim,T)
s("sj-read-dir","readFile","if ps.isDir fn then .error .osError","if !ps.isDir fn then .error .osError","files are read")
s("sj-read-none","readFile","| none => .error .osError\n    | some c","| none => .error .valueError\n    | some c","a missing file is an OSError")
s("sj-read-err","readAt","| .error e => .error e\n  | .ok s => match (xml.parse c).2","| .error _ => .ok {}\n  | .ok s => match (xml.parse c).2","errors of reading are raised")
s("sj-read-mode","readAt","Pgc.parse (envAt xml fs cwd gb fn) .sparse","Pgc.parse (envAt xml fs cwd gb fn) .none","graphs are read (sparse)")
s("sj-read-ignore","readAt","| some e => .error e\n    | none => .ok s","| some _ => .ok s\n    | none => .ok s","a file that is not well-formed is not accepted")
s("sj-env-gb","envAt","(RelPath.bankPath fs cwd fn x).getD x","x","paths of banks are relative to the corpus file")
s("sj-env-cwd","envAt","RelPath.bankPath fs cwd fn x","RelPath.bankPath fs [] fn x","paths are relative to the working directory")
s("sj-write-abs","writeCorpus","RelPath.bankText fs cwd false fn","RelPath.bankText fs cwd true fn","paths are relative if not asked otherwise (equivalent when read in place)")
s("sj-write-fn","writeCorpus","RelPath.bankText fs cwd false fn p.toList","RelPath.bankText fs cwd false [] p.toList","paths are relative to the part")
s("sj-write-pretty","writeCorpus","if pprint then indent xml.ws 0 t else t","if pprint then t else indent xml.ws 0 t","indented only if asked for")
s("sj-write-complete","writeCorpus",".ok (xml.torn fn, some .typeError)",".ok (xml.torn fn, none)","an attribute that is None raises")
s("sj-ext-root","splitext","(p.take (p.length - base.length) ++ PgcZip.stem base, base.drop","(PgcZip.stem base, base.drop","the parts are in the directory of the corpus")
s("sj-ext-drop","splitext","base.drop (PgcZip.stem base).length","base.drop ((PgcZip.stem base).length + 1)","the extension keeps its dot")
s("sj-part-pairs","part","Corpus.mkCorpus (PgcCp.world s) l (some","Corpus.mkCorpus (PgcCp.world s) l.reverse (some","graph pairs keep their order")
s("sj-part-rel","part","(some (PgcCp.corpus s).rel) (PgcCp.corpus s).meta","none (PgcCp.corpus s).meta","parts keep the relations")
s("sj-part-meta","part","(some (PgcCp.corpus s).rel) (PgcCp.corpus s).meta","(some (PgcCp.corpus s).rel) none","parts keep the metadata")
s("sj-put-same","putFile","(fun n => if n = ps.place fn then some c else disk n, e)","(fun n => if n = ps.place fn then disk n else some c, e)","only the part is written")
s("sj-put-none","putFile","(fun n => if n = ps.place fn then some c else disk n, e)","(disk, e)","the part is written")
s("sj-put-exc","putFile","(fun n => if n = ps.place fn then some c else disk n, e)","(fun n => if n = ps.place fn then some c else disk n, some .osError)","no exception if written")
s("sj-put-dir","putFile","if ps.isDir fn || !ps.canOpen fn then","if ps.isDir fn || ps.canOpen fn then","files that can be opened are written")
s("sj-parts-stop","writeParts","| (disk, none) => writeParts ps xml fs cwd stat pprint s disk rest","| (disk, none) => (disk, none)","all parts are written")
s("sj-parts-disk","writeParts","  | disk, x :: rest =>\n    match putFile ps disk x.1","  | disk0, x :: rest =>\n    let disk : Disk β := fun _ => none\n    match putFile ps disk x.1","other files are kept")
s("sj-parts-name","writeParts","(part s x.2).2 x.1) with","(part s x.2).2 []) with","paths are relative to the part")
s("sj-split-root","pgcSplit","PgcTools.split (splitext fn).1 (splitext fn).2","PgcTools.split (splitext fn).2 (splitext fn).1","names are root and extension")
s("sj-split-swap","pgcSplit","(PgcCp.corpus s).pairs parts size with","(PgcCp.corpus s).pairs parts none with","the size asked for is used")
s("sj-split-drop","pgcSplit","| .ok l => writeParts ps xml fs cwd stat pprint s disk l","| .ok l => writeParts ps xml fs cwd stat pprint s disk l.dropLast","the last part is written too")
s("sj-split-first","pgcSplit","| .ok l => writeParts ps xml fs cwd stat pprint s disk l","| .ok l => writeParts ps xml fs cwd stat pprint s disk (l.drop 1)","the first part is written too")
s("sj-split-pp","pgcSplit","| .ok l => writeParts ps xml fs cwd stat pprint s disk l","| .ok l => writeParts ps xml fs cwd stat (!pprint) s disk l","indented only if asked for")
s("sj-tag","tag","String.ofList (c :: i.toList)","i","banks of different corpora are different objects")
s("sj-tagpair","tagPair","targetBank := tag c p.targetBank","targetBank := tag c p.sourceBank","graph pairs keep their target bank")
s("sj-tagbanks","tagBanks","(some (tag c i), e.2)","(some i, e.2)","banks of different corpora are different objects")
s("sj-add-check","addCorpus","if s.rels ≠ t.rels then .error .valueError","if s.rels = t.rels then .error .valueError","different relations are refused")
s("sj-add-err","addCorpus",".error .valueError",".error .typeError","different relations are a ValueError")
s("sj-add-order","addCorpus","s.pairs.map (tagPair 'l') ++ t.pairs.map (tagPair 'r')","t.pairs.map (tagPair 'r') ++ s.pairs.map (tagPair 'l')","the graph pairs of the other corpus come after")
s("sj-add-lost","addCorpus","pairs := s.pairs.map (tagPair 'l') ++ t.pairs.map (tagPair 'r')","pairs := s.pairs.map (tagPair 'l') ++ t.pairs.map (tagPair 'l')","graph pairs keep their own banks")
s("sj-add-banks","addCorpus","tagBanks 'l' s.banks ++ tagBanks 'r' t.banks","tagBanks 'l' s.banks","the banks of the other corpus are kept")
s("sj-add-meta","addCorpus","else .ok { s with\n","else .ok { t with\n    defaultFormat := s.defaultFormat\n","the metadata of the first corpus is kept")
s("sj-glob-sort","multiglob","(pats.flatMap glob).mergeSort fun x y => decide (String.ofList x ≤ String.ofList y)","pats.flatMap glob","names are sorted")
s("sj-glob-rev","multiglob","decide (String.ofList x ≤ String.ofList y)","decide (String.ofList y ≤ String.ofList x)","names are sorted upwards")
s("sj-glob-len","multiglob","decide (String.ofList x ≤ String.ofList y)","decide (x.length < y.length ∨ x.length = y.length ∧ String.ofList x ≤ String.ofList y)","names are sorted as texts, not by length")
s("sj-glob-first","multiglob","(pats.flatMap glob)","((pats.take 1).flatMap glob)","all patterns are used")
s("sj-join-none","joinFiles","| [] => .error .indexError","| [] => .ok {}","no files is an IndexError")
s("sj-join-one","joinFiles","| .ok s => Py.forIn fns s (joinStep ps xml fs cwd gb disk)","| .ok s => .ok s","all files are joined")
s("sj-join-twice","joinFiles","| .ok s => Py.forIn fns s","| .ok s => Py.forIn (fn :: fns) s","the first file is not joined twice")
s("sj-step-skip","joinStep","| .error e => .error e\n  | .ok t => addCorpus s t","| .error _ => .ok s\n  | .ok t => addCorpus s t","a file that cannot be read is an error")
s("sj-step-swap","joinStep","addCorpus s t","addCorpus t s","the graph pairs read come after")
s("sj-pj-purge","pgcJoin","| .ok w => writeCorpus xml fs cwd stat pprint s w (PgcCp.corpus s)","| .ok _ => writeCorpus xml fs cwd stat pprint s (PgcCp.world s) (PgcCp.corpus s)","banks are purged (equal banks get one id in writing anyway: equivalent)")
s("sj-pj-meta","pgcJoin","s w (PgcCp.corpus s) \"<stdout>\"","s w { PgcCp.corpus s with «meta» := none } \"<stdout>\"","metadata is written")
s("sj-pj-out","pgcJoin","(PgcCp.corpus s) \"<stdout>\".toList","(PgcCp.corpus s) \"/tmp/x\".toList","paths are relative to the working directory")
s("sj-pj-pp","pgcJoin","writeCorpus xml fs cwd stat pprint s w","writeCorpus xml fs cwd stat true s w","indented only if asked for")
s("sj-pj-sort","pgcJoin","joinFiles ps xml fs cwd gb disk (multiglob glob pats)","joinFiles ps xml fs cwd gb disk (pats.flatMap glob)","names are sorted")
s("sj-pj-disk","pgcJoin","joinFiles ps xml fs cwd gb disk (multiglob","joinFiles ps xml fs [] gb disk (multiglob","the working directory is used for reading")
P="Model.PgcTools"
def q(name,d,old,new,claim): m(name,P,d,old,new,claim,T)
q("sj-pad","pad4","(4 - (Nat.toDigits 10 n).length)","(3 - (Nat.toDigits 10 n).length)","numbers have at least four digits")
q("sj-name-from","partName","(pad4 (i + 1) ++","(pad4 i ++","numbers count from 1")
q("sj-name-to","partName","(pad4 j ++ ext)","(pad4 (j - 1) ++ ext)","the last number is that of the last pair")
q("sj-range","split","min (i + s.toNat) pairs.length","min (i + s.toNat - 1) pairs.length","parts are complete")
tight={"sj-read-none":["SplitJoin.split_refused"],"sj-write-complete":["SplitJoin.split_complete","SplitJoin.join_complete"]}
