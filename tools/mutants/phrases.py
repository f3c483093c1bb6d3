Z="Model.Phrases"; T="Phrases"
m("phr-swap",Z,"columns","tokenString p.source x.1.1, some x.2.toList, tokenString p.target x.1.2","tokenString p.target x.1.2, some x.2.toList, tokenString p.source x.1.1","source phrase comes first",T)
m("phr-graph",Z,"columns","some x.2.toList, tokenString p.target x.1.2","some x.2.toList, tokenString p.source x.1.2","the target phrase is that of the target graph",T)
m("phr-order",Z,"columns","p.sourceId, p.targetId, some x.1.1.toList","p.targetId, p.sourceId, some x.1.1.toList","verbose columns in order",T)
m("phr-verb",Z,"columns","if verbose then","if !verbose then","verbose adds the columns",T)
m("phr-after",Z,"columns","[p.sourceBank, p.targetBank, p.sourceId, p.targetId, some x.1.1.toList, some x.1.2.toList] ++ cs","cs ++ [p.sourceBank, p.targetBank, p.sourceId, p.targetId, some x.1.1.toList, some x.1.2.toList]","origin comes first",T)
m("phr-none",Z,"tokenString","| .ok .none => none","| .ok .none => some []","no tokens stops the run",T)
m("phr-key",Z,"tokenString","| .error _ => none","| .error _ => some []","no node stops the run",T)
m("phr-str",Z,"tokenString","some (getNodeTokenString (s.toList.map fun c => [c]))","some s.toList","a string of tokens is cut in characters",T)
m("phr-trail",Z,"joinWith","| [t] => t\n","| [t] => t ++ d\n","no delimiter at the end of a line",T)
m("phr-gap",Z,"line","if columns.all Option.isSome then","if columns.any Option.isSome then","all columns are needed",T)
m("phr-ascii",Z,"line","if d.all fun c => c.toNat < 128 then","if d.all fun c => c.toNat < 256 then","delimiter ASCII",T)
m("phr-nl",Z,"printAll","andThen (t ++ ['\\n'], none)","andThen (t, none)","newline after each line",T)
m("phr-on",Z,"printAll","| .error e => ([], some e)\n    | .ok t","| .error _ => printAll d verbose p l\n    | .ok t","an incomplete row stops the run",T)
m("phr-lost",Z,"andThen","| some e => (a.1, some e)","| some e => ([], some e)","lines printed before an exception stay",T)
m("phr-cont",Z,"andThen","| some e => (a.1, some e)","| some e => (a.1 ++ b.1, some e)","nothing is printed after an exception",T)
m("phr-file",Z,"extract","| .error e => ([], some e)\n  | .ok ps => extractPairs","| .error _ => ([], none)\n  | .ok ps => extractPairs","an unreadable file stops the run",T)
m("phr-last",Z,"main","| f :: fs => andThen (extract d verbose f) (main d verbose fs)","| f :: fs => andThen (main d verbose fs) (extract d verbose f)","files in order",T)
m("phr-pairs",Z,"extractPairs","| p :: ps => andThen (extractPair d verbose p) (extractPairs d verbose ps)","| p :: _ => extractPair d verbose p","all graph pairs",T)
m("phr-rel",Z,"extractPair",'GraphPair.alignments p.align none','GraphPair.alignments p.align (some ["equals"])',"all relations",T)
