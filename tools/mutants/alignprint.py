Z="Model.AlignPrint"; T="AlignPrint"
m("ap-and",Z,"Out.andThen","| (t, some e) => (t, some e)","| (t, some _) => (t ++ b.1, b.2)","an exception ends the output",T)
m("ap-all",Z,"writeAll","(f i).andThen (writeAll f is)","(writeAll f is).andThen (f i)","in order",T)
m("ap-widest",Z,"widest","| [] => .error .valueError","| [] => .ok 0","max of nothing raises",T)
m("ap-widest2",Z,"widest",".ok ((l.map List.length).foldl max x.length)",".ok x.length","widest text",T)
m("ap-a",Z,"widths","let a := (str seq1.length).length + 1","let a := (str seq1.length).length","a margin after the number",T)
m("ap-b",Z,"widths","return (a, b + 1, w + 1)","return (a, b, w + 1)","a margin after the text",T)
m("ap-w",Z,"widths","return (a, b + 1, w + 1)","return (a, b + 1, w)","a margin before the text",T)
m("ap-letter",Z,"letter","| .U => 'U'\n  | .L => 'L'","| .U => 'L'\n  | .L => 'U'","letters of the steps",T)
m("ap-letter2",Z,"letter","| .L => 'L'","| .L => 'U'","steps can be told apart",T)
m("ap-cell",Z,"cellText","showInt (truncate c.1) ++ [':', letter c.2]","showInt (truncate c.1) ++ [':']","the step is printed",T)
m("ap-cell2",Z,"cellText","showInt (truncate c.1)","showInt ⌊c.1⌋","decimals are cut off, not rounded down",T)
m("ap-key",Z,"scoreCell","| none => ([], some .keyError)","| none => (rjust w [], none)","a missing cell raises KeyError",T)
m("ap-ij",Z,"scoreCell","match t (i, j) with","match t (j, i) with","rows and columns",T)
m("ap-label",Z,"scoreRow","seq1.getD (i - 1) []","seq1.getD i []","labels of rows",T)
m("ap-range",Z,"scoreRow","(List.range (m + 1))","(List.range m)","all columns",T)
m("ap-head",Z,"scoreHead","spaces (a + b) ++ spaces w ++ (seq2.map","spaces (a + b) ++ (seq2.map","texts above their columns",T)
m("ap-seven",Z,"printScores","let w := max w 7","let w := max w 6","fields of at least seven characters",T)
m("ap-rows",Z,"printScores","(List.range (seq1.length + 1))","(List.range seq1.length)","all rows",T)
m("ap-mark",Z,"mark","∈ al then ['x'] else ['.']","∈ al then ['.'] else ['x']","x for aligned elements",T)
m("ap-mark2",Z,"mark","((i : Int), (j : Int)) ∈ al","((j : Int), (i : Int)) ∈ al","rows and columns",T)
m("ap-row",Z,"markRow","ljust a (str i) ++ ljust b e","ljust b e ++ ljust a (str i)","number, then text",T)
m("ap-wid2",Z,"printAlignment","let w := max w ((str seq2.length).length + 1)","let w := w","columns are wider than their numbers",T)
m("ap-printall",Z,"printAll","writeAll (fun x => Out.andThen (printScores seq1 seq2 x.1","writeAll (fun x => Out.andThen (printScores seq2 seq1 x.1","sequences",T)
Z="Model.SmithWaterman"; T="SmithWaterman AlignPrint"
m("ap-we1",Z,"weBody","scores := s.scores ++ [s.t] }","scores := s.scores ++ [t] }","the matrix before recalculation is saved",T)
m("ap-we2",Z,"weBody","scores := s.scores ++ [s.t] }","scores := [s.t] }","all matrices are saved",T)
m("ap-we3",Z,"watermanEggertBoth",".ok (s.scores, s.all)",".ok (s.scores.reverse, s.all)","matrices in the order of the alignments",T)

tight={"ap-letter":["AlignPrint.scores_grid"]}
