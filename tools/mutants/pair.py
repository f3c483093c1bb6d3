Z="Model.Pair"; T="Pair"
m("pr-set",Z,"set","Py.set h a (source, target)","Py.set h a (target, source)","set: source and target",T)
m("pr-iter",Z,"iter","pure [p.1, p.2]","pure [p.2, p.1]","unpacking gives the source first",T)
m("pr-copy",Z,"copy","| [s, t] => pure (new h s t)","| [_, _] => pure (h, a)","a copy is another object",T)
m("pr-text",Z,"textEq","s.all (fun b => b.val < 128) && ","","bytes that are not ASCII differ from unicode",T)
m("pr-eq1",Z,"eq","if r = some true then eq h limit p.2 q.2 else pure r","eq h limit p.2 q.2","the sources are compared",T)
m("pr-eq2",Z,"eq","if r = some true then eq h limit p.2 q.2 else pure r","pure r","the targets are compared",T)
m("pr-eq3",Z,"eq","if r = some true then eq h limit p.2 q.2 else pure r","if r = some true then pure r else eq h limit p.2 q.2","both must be equal (or instead of and)",T)
m("pr-eq4",Z,"eq","let r ← eq h limit p.1 q.1","let r ← eq h limit p.1 q.2","sources are compared with sources",T)
m("pr-eqid",Z,"eq","  | limit + 1, .pair a, .pair b => do\n","  | limit + 1, .pair a, .pair b => if a ≠ b then pure (some false) else do\n","equality is not identity",T)
m("pr-eqid2",Z,"eq","  | limit + 1, .pair a, .pair b => do\n","  | limit + 1, .pair a, .pair b => if a = b then pure (some true) else do\n","a cyclic pair cannot be compared with itself",T)
m("pr-none",Z,"eq","| _ + 1, .pair _, _ => pure none","| _ + 1, .pair _, _ => pure (some false)","None for other objects",T)
m("pr-ne",Z,"ne","| x, y => x ≠ y","| .pair _, .pair _ => false\n  | x, y => x ≠ y","!= by identity",T)
m("pr-same",Z,"same","if x = y then pure true else do","do","lists take an object as equal to itself",T)
m("pr-idx",Z,"index","pure (n + 1)","pure n","the place in the list",T)
m("pr-cnt",Z,"count","if b then n + 1 else n","if b then n else n + 1","the number of equals",T)
m("pr-rem",Z,"remove","pure (y :: r)","pure r","only the first equal is removed",T)
m("pr-rem0",Z,"remove","Py (List Item)\n  | [] => .error .valueError","Py (List Item)\n  | [] => pure []","ValueError if there is none",T)
m("pr-all",Z,"allSame","allSame h limit l m else pure false","pure true else pure false","all elements are compared",T)
m("pr-len",Z,"listEq","if l.length ≠ m.length then pure false else allSame h limit l m","allSame h limit l m","the lengths",T)
m("pr-lne",Z,"listNe","pure !b","pure (decide (l ≠ m))","!= of lists is the opposite of ==",T)
m("pr-hash",Z,"inSet","    if hash y = hash x then\n      if ← same h limit y x then pure true else inSet hash h limit x s\n    else inSet hash h limit x s","    if ← same h limit y x then pure true else inSet hash h limit x s","sets go by identity",T)
m("pr-add",Z,"add","if ← inSet hash h limit x s then pure s else pure (s ++ [x])","pure (s ++ [x])","a set has an object once",T)
m("pr-inter",Z,"inter","if b then x :: r else r","x :: r","the objects in both sets",T)
m("pr-hex",Z,"hexDigit","0123456789abcdef","0123456789abcdee","digits differ",T)
m("pr-hexk",Z,"hex","hex k (n / 16)","hex k (n / 10)","base 16",T)
m("pr-bsl",Z,"escape","n = q.toNat ∨ n = 92","n = q.toNat","backslashes are escaped",T)
m("pr-quo",Z,"escape","n = q.toNat ∨ n = 92","n = 92","quotes are escaped",T)
m("pr-u",Z,"escape","else if n < 65536 then","else if n < 1000000 then","four digits are enough for these only",T)
m("pr-x",Z,"escape","if n < 256 then '\\\\' :: 'x'","if n < 512 then '\\\\' :: 'x'","two digits are enough for these only",T)
m("pr-tab",Z,"escape","['\\\\', 'n']","['\\\\', 't']","line ends and tabs differ",T)
m("pr-qt",Z,"quote","39 ∈ ns ∧ 34 ∉ ns","39 ∈ ns","double quotes only if there is none in the string",T)
m("pr-L",Z,"reprInt","then [] else ['L']","then ['L'] else []","long integers",T)
m("pr-uni",Z,"repr","'u' :: quoted","quoted","unicode strings are marked",T)
m("pr-rsw",Z,"repr","let s ← repr h limit p.1","let s ← repr h limit p.2","repr shows the source",T)
m("pr-ssw",Z,"str","let t ← str h limit p.2","let t ← str h limit p.1","str shows the target",T)
m("pr-sasc",Z,"str","if t.all (fun c => c.toNat < 128) then pure t else .error .unicodeError","pure t","unicode strings that are not ASCII raise",T)
m("pr-srepr",Z,"str","pure (s.map (fun b => Char.ofNat b.val))","pure (quoted (s.map Fin.val))","str shows strings without quotes",T)
m("pr-new",Z,"new","(h ++ [(source, target)], h.length)","(h ++ [(source, target)], h.length - 1)","a new address",T)
m("pr-new2",Z,"new","(h ++ [(source, target)], h.length)","(h ++ [(source, source)], h.length)","the target",T)
tight={"pr-qt":["Pair.repr_quotes"]}
