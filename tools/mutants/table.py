T="Model.StatsTable"
m("tb1",T,"width","+ 2","+ 1","margin of one","StatsTable")
m("tb2",T,"width","+ 2\n","\n","no margin","StatsTable")
m("tb3",T,"width","max c.label.length ((l.map List.length).foldr max 0)","c.label.length","the widest value is not considered","StatsTable")
m("tb4",T,"width","max c.label.length ((l.map List.length).foldr max 0)","(l.map List.length).foldr max 0","the label is not considered","StatsTable")
m("tb5",T,"rjust","List.replicate (w - s.length) ' ' ++ s","s ++ List.replicate (w - s.length) ' '","padding on the wrong side","StatsTable")
m("tb6",T,"showInt","if n < 0 then '-' :: Nat.toDigits 10 n.natAbs else Nat.toDigits 10 n.natAbs","Nat.toDigits 10 n.natAbs","sign lost","StatsTable")
m("tb7",T,"roundEven","if 1/2 < q - n then n + 1 else if n % 2 = 0 then n else n + 1","n + 1","halves are rounded up","StatsTable")
m("tb8",T,"roundEven","if q - n < 1/2 then n else if 1/2 < q - n then n + 1 else if n % 2 = 0 then n else n + 1","n","truncated","StatsTable")
m("tb9",T,"twoDigits","[Nat.digitChar (n / 10 % 10), Nat.digitChar (n % 10)]","Nat.toDigits 10 (n % 100)","leading zero of the decimals lost","StatsTable")
m("tb10",T,"showFixed","(if q < 0 then ['-'] else [])","([] : Text)","sign lost","StatsTable")
m("tb11",T,"rule","List.replicate (totWidth t) '-'","List.replicate (totWidth t) '='","other separator","StatsTable")
m("tb12",T,"rule","List.replicate (totWidth t) '-'","List.replicate (totWidth t / 8) '-'","separator too short","StatsTable")
m("tb13",T,"write","rule t ++ (t.map overallCell).flatten","(t.map overallCell).flatten","second separator missing","StatsTable")
m("tb14",T,"write","List.range (rowCount t)","List.range (rowCount t - 1)","the last row is not written","StatsTable")
m("tb15",T,"overallCell","| none, _ => List.replicate (width c) ' '","| none, _ => rjust (width c) ['0']","missing overall values shown as 0","StatsTable")
m("tb16",T,"overallCell","showInt (truncate q)","showFixed q","overall counts with decimals","StatsTable")
m("tb17",T,"legendaLine","showInt (i + 1)","showInt i","numbers from 0","StatsTable")
m("tb18",T,"fileLines","if c = '\\n' then ['\\n'] :: fileLines cs","if c = '\\n' then fileLines cs","lines are joined","StatsTable")
m("tb19",T,"parseInt","r.1 * Nat.ofDigitChars 10 r.2 0","Nat.ofDigitChars 10 r.2 0","sign ignored","StatsTable")
m("tb20",T,"parseFloat","10 ^ b.length","10","one decimal assumed","StatsTable")
m("tb21",T,"appendRow","({ c with cells := x } :: (appendRow cs vs).1, (appendRow cs vs).2)","({ c with cells := x } :: (appendRow cs vs).1, none)","errors in later columns are lost","StatsTable")
m("tb22",T,"appendRow","(c :: cs, some e)","(c :: cs, none)","bad numbers are skipped","StatsTable")
m("tb23",T,"isSeparator","\"----\".toList","\"--\".toList","two dashes make a separator","StatsTable")
m("tb24",T,"readLines","| [], _, t => (t, some .eofError)","| [], s, t => (t, if s = 1 then none else some .eofError)","a truncated table is accepted","StatsTable")
m("tb25",T,"readLines","if seps + 1 = 2 then (t, none)","if seps + 1 = 3 then (t, none)","waits for a third separator","StatsTable")
m("tb26",T,"readLines","else if seps = 1 then match","else if seps = 0 then match","reads the head as values","StatsTable")
m("tb27",T,"readLines","if strip ws l = [] then readLines ws ls seps t","if strip ws l = [] then (t, none)","stops at empty lines","StatsTable")
m("tb28",T,"setColumn","if d.label = c.label then c else d else t ++ [c]","if d.label = c.label then c else d else c :: t","new columns come first","StatsTable")
m("tb29",T,"setColumn","if t.any fun d => d.label = c.label then t.map fun d => if d.label = c.label then c else d else t ++ [c]","t ++ [c]","labels can be repeated","StatsTable")
m("tb30",T,"initStep","(Cells.ofType type).grow size, none","(Cells.ofType type), none","the size is ignored","StatsTable")
m("tb31",T,"Cells.grow","| .other l => .other (l ++ List.replicate n 0)","| .other l => .other (List.replicate n 0)","old values are lost","StatsTable")
m("tb32",T,"isEmpty","t.all fun c","t.any fun c","one empty column is enough","StatsTable")
m("tb33",T,"bodyCell","| .count l => rjust (width c) (showInt (l.getD i 0))","| .count l => ljust (width c) (showInt (l.getD i 0))","counts to the left","StatsTable")
m("tb34",T,"rowCount","min c.cells.len (rowCount cs)","max c.cells.len (rowCount cs)","rows beyond the shortest column","StatsTable")
m("tb35",T,"headCell","| .string _ => ljust (width c) c.label","| .string _ => c.label","head not aligned","StatsTable")
m("tb36",T,"initStep","label :: type :: words","type :: label :: words","type and label exchanged","StatsTable")

tight={"tb34":["Verif.Props.StatsTable.rows_written (new)"]}
