Z="Model.PtcConvert"; T="PtcConvert"; H="Model.HitaextDoc"
m("cv1",Z,"convert","{ d with method := some m }","d","the method is not set",T)
m("cv2",Z,"convert","(update { ws := ws } tF fresh).st, (update { ws := ws } tT fresh).st)","(update { ws := ws } tT fresh).st, (update { ws := ws } tF fresh).st)","texts swapped when injecting",T)
m("cv3",Z,"convert","match inject d (","match inject { d with method := some m } (","the method is set before injecting",T)
m("cv4",Z,"convert","(update { ws := ws } tT fresh).st) with","fresh) with","the target text is not indexed",T)
m("cv5",Z,"writable","l.fromId.isSome && l.toId.isSome","l.fromId.isSome","a missing target id is overlooked",T)
m("cv6",Z,"nToId","convert \"id\"","convert \"n\"","numbers again",T)
m("cv7",Z,"openDoc","  | .list _ => .error .typeError","  | .list ps => match ps.head? with\n    | none => .error .typeError\n    | some p => site p","the first argument is opened",T)
m("cv8",H,"extractElemId","addId d e.tag e.id e'.tag e'.id","addId d e'.tag e'.id e.tag e.id","source and target swapped",T)
m("cv9",H,"extractElemId","addId d e.tag e.id e'.tag e'.id","addId d e.tag e.id e.tag e'.id","target tag wrong",T)
m("cv10",H,"extractId","(iter from') (clear d) fun e d => extractElemId","(iter from') d fun e d => extractElemId","the old links are kept",T)
m("cv11",H,"resolveN","Py.getI ts (tn - 1)","Py.getI ts tn","target number counted from zero",T)
m("cv12",H,"resolveId","let b ← ts.get l.toId","let b ← ts.get l.fromId","source id used for the target",T)
m("cv13",H,"join","put s.1.aligns p.1 (s.1.aligns p.1 ++ [p.2])","put s.1.aligns p.1 [p.2]","only the last alignment of an element is kept",T)
m("cv14",H,"join","put s.2.aligns p.2 (s.2.aligns p.2 ++ [p.1])","s.2.aligns","target elements get no alignments",T)
m("cv15",H,"inject","  | none => injectN d.links s\n","  | none => injectId d.links s\n","ids by default",T)
m("cv16",H,"extractElemN","addN d e.tag fn e'.tag tn","addN d e.tag tn e'.tag fn","numbers swapped",T)
tight={"cv5":["PtcConvert.writable_iff"]}
