Z="Model.DiffPrint"; T="DiffPrint"
m("dp-head",Z,"header","(if given then","(if true then","heads without a stream are not written",T)
m("dp-width",Z,"header","['\\n'] ++ head ++ ['\\n'] ++ List.replicate width char","['\\n'] ++ head ++ ['\\n'] ++ List.replicate head.length char","rules",T)
m("dp-none",Z,"shownText",'| none => "None".toList\n  | some t => t','| none => []\n  | some t => t',"a node without tokens",T)
m("dp-enc",Z,"encoded","| .str s => .ok s.toList\n  | _ => .error .attributeError","| .str s => .ok s.toList\n  | _ => .ok []","a missing label",T)
m("dp-line",Z,"nodeLine",'" [".toList ++ b ++ ":".toList ++ e','" [".toList ++ e ++ ":".toList ++ b',"positions",T)
m("dp-asc",Z,"sourceLine","if ascii label then","if true then","labels that are not ASCII raise",T)
m("dp-asc2",Z,"ascii","c.toNat < 128","c.toNat < 256","ASCII",T)
m("dp-tlab",Z,"targetLine",'let label ← nodeAttr g n "label"\n  let b','let label ← nodeAttr g n "begin"\n  let b',"label of a target node",T)
m("dp-tb",Z,"targetLine",'let e ← nodeAttr g n "end"\n  return nodeLine n.toList (shown repr label)','let e ← nodeAttr g n "begin"\n  return nodeLine n.toList (shown repr label)',"end of a target node",T)
m("dp-rel",Z,"strRel","if ascii r.toList then .ok r.toList else .error .unicodeError",".ok r.toList","relations that are not ASCII raise",T)
m("dp-rel0",Z,"strRel",'| none => .ok "None".toList',"| none => .error .attributeError","no relation is shown as NONE",T)
m("dp-gap",Z,"gap","then [] else [' ']","then [' '] else [' ']","no space after a line break",T)
m("dp-items",Z,"items","t ++ gap t ++ items ts","t ++ items ts","items are separated",T)
m("dp-swap",Z,"printEntry",'"<<<".toList, rel1.map Char.toUpper, "/".toList, rel2.map Char.toUpper','"<<<".toList, rel2.map Char.toUpper, "/".toList, rel1.map Char.toUpper',"relations of the first and second corpus",T)
m("dp-up",Z,"printEntry",'"<<<".toList, rel1.map Char.toUpper','"<<<".toList, rel1',"capitals",T)
m("dp-num",Z,"printEntries","printEntry repr p (count + 1) n","printEntry repr p count n","numbers start with 1",T)
m("dp-numc",Z,"printEntries","(printEntries repr p (count + 1) l)","(printEntries repr p count l)","numbers increase",T)
m("dp-empty",Z,"printAlignments","if l = [] then ([], none) else","if l.length ≤ 1 then ([], none) else","no section is left out",T)
m("dp-notitle",Z,"printAlignments","if l = [] then ([], none) else Out.andThen","Out.andThen","no title without entries",T)
m("dp-cnt",Z,"printSection","(rest (count + l.length))","(rest count)","numbers go on in the next section",T)
m("dp-sort",Z,"printSection","after (sortNodes num l) fun l =>","","sorted by source node",T)
m("dp-com",Z,"printComments","| none => ([], some .attributeError)\n    | some t","| none => ([], none)\n    | some t","an empty comment",T)
m("dp-blank",Z,"printComments","if strip ws t = [] then ([], none)\n      else ","","blank comments",T)
m("dp-ann",Z,"printPair","(printComments ws p.meta2 o.annot2)","(printComments ws p.meta2 o.annot1)","whose comment",T)
m("dp-tok",Z,"printPair","(Out.andThen (printTokens p.target)","(Out.andThen (printTokens p.source)","both sentences",T)
m("dp-ttl",Z,"printPair",'(o.annot1 ++ " only".toList) count q.uniq1','(o.annot2 ++ " only".toList) count q.uniq1',"titles",T)
m("dp-uniq",Z,"printPair",'(o.annot2 ++ " only".toList) count q.uniq2','(o.annot2 ++ " only".toList) count q.uniq1',"the last section",T)
m("dp-id",Z,"printPair","else fun f => f count)","else fun f => f 0)","numbers go on in the next graph pair",T)
m("dp-same",Z,"printPair","else ([], some .assertionError)","else rest count","different graphs",T)
m("dp-len",Z,"pgcDiff","if n1 ≠ n2 then ([], some .assertionError)\n  else ","","corpora of different lengths",T)
