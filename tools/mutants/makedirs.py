Z = "Model.MakeDirs"
T = "MakeDirs"
def a(name,d,old,new,claim): m(name,Z,d,old,new,claim,T)
a("md-parent","go","some cur.dropLast","some cur","paths go up at ..")
a("md-dot","go","else if n = ['.'] then some cur\n","else if n = ['.', '.', '.'] then some cur\n","a dot stays where it is")
a("md-abs","go","(if isAbs t then [] else cur)","cur","links that are absolute lead from the root")
a("md-start","start","if isAbs p then [] else cwd","cwd","absolute paths lead from the root")
a("md-over","mkdir","d.node (cur ++ [n]) ≠ none then","d.node (cur ++ [n]) = some .dir then","files are not replaced by directories")
a("md-may","mkdir","else if d.may cur then","else if d.may (cur ++ [n]) then","the permission is that of the directory in which an entry is made")
a("md-nodir","mkdir","if d.node cur ≠ some .dir then (d, some .other)","if d.node cur = none then (d, some .other)","nothing is made below a file")
a("md-place","mkdir","if x = cur ++ [n] then","if x = cwd ++ [n] then","the directory is made at the place that the path leads to")
a("md-all","mkdir","if x = cur ++ [n] then some .dir else d.node x","if x = cur ++ [n] then some .dir else none","nothing else changes")
a("md-link","mkdir","if x = cur ++ [n] then some .dir","if x = cur ++ [n] then some .file","directories are made, not files")
a("md-once","headTail","if basename p = [] then (dirname (dirname p), basename (dirname p)) else (dirname p, basename p)","(dirname p, basename p)","a slash at the end does not matter")
a("md-swap","headTail","else (dirname p, basename p)","else (basename p, dirname p)","directories are made for all missing names")
a("md-norec","osMakedirs","exist d cwd (headTail p).1 = false then","False then","directories are made for all missing names")
a("md-always","osMakedirs","exist d cwd (headTail p).1 = false then","True then","a path that exists raises nothing (equivalent but for the depth of the recursion)")
a("md-tail","osMakedirs","(headTail p).2 ≠ [] ∧ ","(headTail p).2 = [] ∧ ","directories are made for all missing names")
a("md-stop","osMakedirs","| (d, some .other) => (d, some .other)","| (d, some .other) => mkdir d cwd p","equivalent: no directory can be made if the one around it is missing")
a("md-curdir","osMakedirs","if (headTail p).2 = ['.'] then (d, none) else mkdir d cwd p","(d, none)","the last directory is made")
a("md-head","osMakedirs","(d, none) else mkdir d cwd p\n    else mkdir d cwd p","(d, none) else mkdir d cwd p\n    else (d, none)","a single missing directory is made")
a("md-headonly","osMakedirs","(d, none) else mkdir d cwd p\n","(d, none) else mkdir d cwd (headTail p).1\n","the last directory is made")
a("md-raise","makedirs","| (d, _) => (d, false)","| (d, f) => (d, f = some .other)","OSErrors are not raised")
a("md-raise2","makedirs","| (d, _) => (d, false)","| (d, f) => (d, f.isSome)","a path that exists raises nothing")
a("md-rec","makedirs","| (d, some .recursion) => (d, true)","| (d, some .recursion) => (d, false)","too many missing directories raise")
tight={"md-parent":["MakeDirs.resolves"],"md-abs":["MakeDirs.resolves"]}
