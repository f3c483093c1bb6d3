Z = "Model.MatrixPrint"
T = "MatrixPrint"
def a(name,d,old,new,claim): m(name,Z,d,old,new,claim,T)
a("mp-zero","width","if v ≤ 0 then","if v < 0 then","an entry 0 is a ValueError")
a("mp-skip","width","if v ≤ 0 then .error .valueError else width lg (max w (lg v.toNat + 1)) l","if v ≤ 0 then width lg w l else width lg (max w (lg v.toNat + 1)) l","entries that are not positive are a ValueError")
a("mp-last","width","max w (lg v.toNat + 1)","lg v.toNat + 1","fields are as wide as the widest number needs")
a("mp-min","width","max w (lg v.toNat + 1)","min w (lg v.toNat + 1)","fields are as wide as the widest number needs")
a("mp-plus","width","lg v.toNat + 1","lg v.toNat","fields are as wide as the widest number needs")
a("mp-plus2","width","lg v.toNat + 1","lg v.toNat + 2","fields are no wider than the widest number needs")
a("mp-sep","cells","cells w [',', ' '] l","cells w [','] l","numbers are separated by a comma and a blank")
a("mp-sep2","cells","cells w [',', ' '] l","cells w sep l","numbers are separated by a comma and a blank")
a("mp-nosep","cells","cells w [',', ' '] l","cells w [' '] l","the print tells the matrix (1, 2 and 12)")
a("mp-plain","cells","rjust w (showInt v)","showInt v","fields have one width")
a("mp-left","cells","rjust w (showInt v)","showInt v ++ List.replicate (w - (showInt v).length) ' '","numbers are at the right of their fields")
a("mp-first","cells","sep ++ rjust w (showInt v) ++ cells w [',', ' '] l","sep ++ rjust w (showInt v)","all numbers of a row are printed")
a("mp-open","line","cells w ['['] row","cells w [] row","rows begin with a bracket")
a("mp-open2","line","cells w ['['] row ++ [']', '\\n']","(if row = [] then ['['] else []) ++ cells w ['['] row ++ [']', '\\n']","an empty row has a closing bracket only")
a("mp-close","line","[']', '\\n']","['\\n']","rows end with a bracket")
a("mp-nl","line","[']', '\\n']","[']']","each row has a line of its own")
a("mp-head","printMatrix","| some m => m ++ ['\\n']","| some m => m","the message has a line of its own")
a("mp-headerr","printMatrix",".error e => (head, some e)",".error e => ([], some e)","the message is written before the ValueError")
a("mp-swallow","printMatrix",".error e => (head, some e)",".error e => (head, none)","entries that are not positive are a ValueError")
a("mp-headok","printMatrix",".ok w => (head ++ (rows",".ok w => ((rows","the message is written")
a("mp-rows","printMatrix","(rows.map (line w))","(rows.dedup.map (line w))","each row has a line")
a("mp-rowwidth","printMatrix","width lg 0 rows.flatten","width lg 0 (rows.headD [])","the width comes from all rows")
