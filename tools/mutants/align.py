Z="Model.Align"; T="NeedlemanWunsch SmithWaterman"
m("aln-lt",Z,"lt","a.1 < b.1 ||","b.1 < a.1 ||","the best score is chosen",T)
m("aln-tie",Z,"lt","a.2.rank < b.2.rank","b.2.rank < a.2.rank","ties go to the larger step letter",T)
m("aln-max",Z,"cmax","then b else a","then a else b","the best score is chosen",T)
m("aln-n",Z,"fillInner","Py.forRange 1 (n + 1) t","Py.forRange 1 n t","all rows are filled",T)
m("aln-m",Z,"fillInner","Py.forRange 1 (m + 1) t","Py.forRange 1 m t","all columns are filled",T)
m("aln-0",Z,"fillInner","Py.forRange 1 (n + 1) t","Py.forRange 2 (n + 1) t","all rows are filled",T)
m("aln-swap",Z,"fillInner","t.set (i, j) c","t.set (j, i) c","cells in place",T)
m("aln-U",Z,"traceStep","| .U => .ok { s with i := s.i - 1 }","| .U => .ok { s with j := s.j - 1 }","U goes up",T)
m("aln-L",Z,"traceStep","| .L => .ok { s with j := s.j - 1 }","| .L => .ok { s with i := s.i - 1 }","L goes left",T)
m("aln-D",Z,"traceStep","alignment := (s.i - 1, s.j - 1) :: s.alignment","alignment := (s.i, s.j) :: s.alignment","pairs of positions from 0",T)
m("aln-D2",Z,"traceStep","alignment := (s.i - 1, s.j - 1) :: s.alignment","alignment := s.alignment ++ [(s.i - 1, s.j - 1)]","alignment in order",T)
m("aln-D3",Z,"traceStep","{ i := s.i - 1, j := s.j - 1,","{ i := s.i - 1, j := s.j,","D goes up and left",T)
m("aln-drop",Z,"traceStep","alignment := (s.i - 1, s.j - 1) :: s.alignment","alignment := s.alignment","diagonal steps align",T)
