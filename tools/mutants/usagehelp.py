Z="Model.ArgHelp"
Y="Model.ArgDecls"
T="UsageHelp"
def h(name,d,old,new,claim): m(name,Z,d,old,new,claim,T)
def b(name,d,old,new,claim): m(name,Y,d,old,new,claim,T)
h("uh-nargs0","build","if d.nargs = some (.num 0) then .error .valueError","if d.nargs = some (.num 1) then .error .valueError","nargs=0 is refused")
h("uh-append","build","if d.action = .store then .store else .append","if d.action = .append then .store else .append","append appends")
h("uh-nargs-default","build","d.nargs.getD .one","d.nargs.getD .opt","an option takes one value")
h("uh-const","build","act := .const (.bool (d.action = .storeTrue))","act := .const (.bool (d.action = .storeFalse))","store_true stores True")
h("uh-default","build","(d.default.getD (some (.bool (d.action = .storeFalse))))","(d.default.getD (some .none))","a flag is False unless given")
h("uh-metavar","build","if d.nargs.isSome || d.ty.isSome || d.metavar.isSome then","if d.nargs.isSome || d.ty.isSome then","a metavar for a flag is refused")
h("uh-help-required","build","d.metavar.isSome || required.isSome then","d.metavar.isSome then","required for the help is refused")
h("uh-help-version","build","act := if d.action = .help then .help else .version","act := if d.action = .help then .version else .help","-h asks for the help")
h("uh-help-dest","build","dest := if (d.default.getD none).isNone then none else some dest","dest := some dest","the help sets no attribute")
h("uh-required","build","default := (d.default.getD (some .none)), ty := d.ty.getD .identity, required := required.getD false","default := (d.default.getD (some .none)), ty := d.ty.getD .identity","required arguments are required")
h("uh-type","build","ty := d.ty.getD .identity, required","required","values are converted")
h("uh-conflict","register","if l ≠ [] then .error (.conflict l) else .ok (p ++ [a])","if l.length > 1 then .error (.conflict l) else .ok (p ++ [a])","no name is used twice")
h("uh-order","register",".ok (p ++ [a])",".ok (a :: p)","arguments are in the order of the calls")
h("uh-pos-required","positionalArg","if d.required.isSome then .error .typeError","if d.required = some true then .error .typeError","required is refused for positional arguments")
h("uh-pos-star","positionalArg","(d.nargs ≠ some .star || d.default.isNone)","(d.nargs ≠ some .star || d.default.isSome)","* with a default is not required")
h("uh-pos-opt","positionalArg","d.nargs ≠ some .opt && ","","? is not required")
h("uh-pos-not","positionalArg","if must then some true else none","none","positional arguments are required")
h("uh-good-dash","goodName","n.head? = some '-' && n.any (· ≠ '-')","n.any (· ≠ '-')","names of options start with a dash (the name `a`, `-b` together)")
h("uh-good-any","goodName","&& n.any (· ≠ '-')","","-- is no name")
h("uh-good-len","goodName","2 ≤ n.length","3 ≤ n.length","-x is a name")
h("uh-opt-dest","optionalArg","(d.dest.getD (destOf d.names))","(destOf d.names)","dest is the attribute")
h("uh-opt-required","optionalArg","d.required d","none d","required options are required")
h("uh-add-dest","addArgument","if d.dest.isSome then .error .typeError else positionalArg (String.ofList (c :: n)) d","positionalArg (String.ofList (c :: n)) d","dest for a positional argument is refused")
h("uh-add-name","addArgument","positionalArg (String.ofList (c :: n)) d","positionalArg (String.ofList n) d","the name of a positional argument is its attribute")
h("uh-declare","declare","declare (← addArgument p d) l","declare (← addArgument [] d) l","all arguments are kept")
h("uh-upper","upper","t.map Char.toUpper","t","metavars of options are in capitals")
h("uh-args-opt","formatArgs","\"[\".toList ++ m ++ \"]\".toList","m","? is shown in brackets")
h("uh-args-star","formatArgs","\"[\".toList ++ m ++ \" [\".toList ++ m ++ \" ...]]\".toList","m ++ \" [\".toList ++ m ++ \" ...]\".toList","* is shown in brackets")
h("uh-args-plus","formatArgs","m ++ \" [\".toList ++ m ++ \" ...]\".toList\n  | .num","\"[\".toList ++ m ++ \" ...]\".toList\n  | .num","+ shows one value that is needed")
h("uh-args-num","formatArgs","List.replicate n m","List.replicate (n + 1) m","as many values as are taken")
h("uh-args-metavar","formatArgs","s.metavar.getD default","default","the metavar is shown")
h("uh-part-brackets","usagePart","if s.arg.required then part else","if !s.arg.required then part else","options in brackets can be left out")
h("uh-part-values","usagePart","if s.arg.nargs = .num 0 then n else n ++ ' ' :: formatArgs s (upper s.dest)","n","values are shown")
h("uh-part-upper","usagePart","then n else n ++ ' ' :: formatArgs s (upper s.dest)\n    if","then n else n ++ ' ' :: formatArgs s s.dest\n    if","capitals")
h("uh-subopen","subOpen","| ' ' :: t' => c :: subOpen t'\n      | t => c","| _ :: t' => c :: subOpen t'\n      | t => c","characters after a bracket are kept")
h("uh-subclose","subClose","if closing c then c :: subClose t else ' ' :: subClose (c :: t)","c :: subClose t","spaces are kept")
h("uh-subempty","subEmpty","if closing b then subEmpty k r else c :: subEmpty k t","if closing b then subEmpty k r else subEmpty k t","brackets are kept")
h("uh-strip","strip","((t.dropWhile isSpace).reverse.dropWhile isSpace).reverse","((t.drop 1).reverse.dropWhile isSpace).reverse","the usage is complete")
h("uh-order-usage","formatUsage","actionsUsage (opts ++ pos)","actionsUsage (pos ++ opts)","options first")
h("uh-fit","formatUsage","if (pre.length + usage.length : Int) ≤ w then .ok usage","if (usage.length : Int) ≤ w then .ok usage","a line fits the terminal")
h("uh-pos-lost","formatUsage",".ok (lines ++ getLines w indent posParts [] ((indent.length : Int) - 1))",".ok lines","positional arguments are shown when there are options")
h("uh-only-pos","formatUsage","getLinesAfter w (prog :: posParts) indent","getLinesAfter w posParts indent","the program is named")
h("uh-long-prog","formatUsage","getLines w indent (optParts ++ posParts) [] ((indent.length : Int) - 1)\n","getLines w indent optParts [] ((indent.length : Int) - 1)\n","positional arguments are shown after a long name of the program")
h("uh-long-prog2","formatUsage",".ok (prog :: lines)",".ok lines","the program is named")
h("uh-three","formatUsage","if 4 * (pre.length + prog.length : Int) ≤ 3 * w then","if (pre.length + prog.length : Int) ≤ w then","equivalent for the claims: only the layout of long names of programs differs")
h("uh-ends","formatUsage",".ok (pre ++ usage ++ \"\\n\\n\".toList)",".ok (usage ++ \"\\n\\n\".toList)","the usage starts with usage:")
h("uh-getlines-width","getLines","if n + 1 + p.length > w then","if n > w then","lines fit the terminal")
h("uh-getlines-width1","getLines","if n + 1 + p.length > w then","if n + p.length > w then","lines fit the terminal (by one)")
h("uh-getlines-last","getLines","if line ≠ [] then [indent ++ spaced line] else []","[]","the last line is shown")
h("uh-getlines-lost","getLines","getLines w indent ps [p] ((indent","getLines w indent ps [] ((indent","the part that does not fit is shown in the next line")
h("uh-getlines-reset","getLines","(indent.length : Int) - 1 + (p.length + 1)","(p.length + 1)","the indent counts")
h("uh-getlines-count","getLines","(line ++ [p]) (n + (p.length + 1))","(line ++ [p]) (n + p.length)","spaces count")
h("uh-after-pre","getLinesAfter","parts [] ((pre.length : Int) - 1)","parts [] (-1)","usage: counts for the width")
h("uh-after-drop","getLinesAfter","l.drop indent.length","l","the first line has no indent")
h("uh-finish-strip","finish","stripNewlines (longBreaks 0 t) ++ ['\\n']","stripNewlines (longBreaks 0 t)","the usage ends with a newline")
h("uh-breaks","longBreaks","c :: longBreaks (k + 1) t else longBreaks (k + 1) t else","longBreaks (k + 1) t else longBreaks (k + 1) t else","lines are kept apart")
h("uh-columns","usageText","formatUsage (columns - 2)","formatUsage columns","two columns are left free")
h("uh-inv-names","invocation","\", \".toList.intercalate (s.arg.names.map","\", \".toList.intercalate ((s.arg.names.take 1).map","all names are in the help")
h("uh-inv-zero","invocation","\", \".toList.intercalate s.arg.names\n","s.arg.names.flatten\n","names are separated in the help")
h("uh-inv-pos","invocation","s.metavar.getD s.dest\n","s.dest\n","metavars of positional arguments are shown in the help")
h("uh-squeeze","squeeze","' ' :: squeeze true t else c :: squeeze false t","squeeze true t else squeeze false t","help texts are shown")
h("uh-squeeze-white","squeeze","if isSpace c then if b then","if c = ' ' then if b then","white space is single spaces (newlines in help texts)")
h("uh-action-none","formatAction","| none | some [] => .ok (List.replicate 2 ' ' ++ header ++ \"\\n\".toList)","| none | some [] => .ok []","arguments without help are shown")
h("uh-action-short","formatAction","≤ (pos : Int) - 2 - 2","≤ (pos : Int) - 2","two spaces before the help text")
h("uh-action-pad","formatAction","List.replicate (pos - 2 - 2 - header.length) ' '","List.replicate 2 ' '","help texts are in a column")
h("uh-action-width","formatAction","splitLines o text (w - pos)","splitLines o text w","help lines fit the terminal")
h("uh-action-rest","formatAction","++\n          ls.flatMap fun l => List.replicate pos ' ' ++ l ++ \"\\n\".toList)",")","all lines of help texts are shown")
h("uh-action-indent","formatAction","ls.flatMap fun l => List.replicate pos ' ' ++ l","ls.flatMap fun l => l","help texts are in a column")
h("uh-actions","formatActions",".ok (t :: (← formatActions o w pos l))",".ok ((← formatActions o w pos l) ++ [t])","arguments are in order")
h("uh-section","section_","if items.flatten = [] then []","if items.length < 2 then []","sections with one argument are shown")
h("uh-section-colon","section_","\":\\n\".toList","\"\\n\".toList","headings end with a colon")
h("uh-raw","formatText","if raw then .ok t else","if !raw then .ok t else","the description of a DaesoArgParser is shown as it is")
h("uh-texts","formatTexts","| none => .ok []\n  | some t => do .ok [← formatText o raw w t]","| none => .ok []\n  | some _ => do .ok []","the description is shown")
h("uh-position-max","helpPosition",") 24",") 40","help texts start in column 24 at most")
h("uh-position-gap","helpPosition","foldl max 0 + 2","foldl max 0","a gap of two before help texts")
h("uh-help-groups","helpText","p ← formatActions o w pos (l.filter fun s => s.arg.names = [])","p ← formatActions o w pos l","positional arguments are in their section only")
h("uh-help-q","helpText","section_ \"optional arguments\".toList q","section_ \"optional arguments\".toList p","options are in their section")
h("uh-help-epilog","helpText","] ++ epi))","]))","the epilog is shown")
h("uh-help-desc","helpText","[usage] ++ desc ++","[usage] ++","the description is shown")
b("uh-d-help","own","\"--help\".toList]","\"--hilfe\".toList]","--help asks for the help")
b("uh-d-version","own","if version then [","if !version then [","a DaesoArgParser has -v")
b("uh-d-missing","gbStatsTool","    help := some \"print legenda\".toList },\n  { names := [\"-p\".toList, \"--with-punc-nodes\".toList], action := .storeTrue, dest := some \"with_punc\",\n    help := some \"include punctuation tokens/nodes\".toList },\n  { names := [\"-t\".toList, \"--token_diff_threshold\".toList], ty := some .int, metavar := some \"THRESHOLD\".toList,\n    default := some (some (.int 0)), dest := some \"threshold\",\n    help := some \"exclude graph pairs with a token difference below the threshold\".toList }],\n  true, gbStats","    help := some \"print legenda\".toList }],\n  true, gbStats","the calls are those of the parser of C83")
m("uh-d-plus",Y,"ptcChdirTool and ptcNToIdTool","nargs := some .plus, default := some (some (.str \"parallel","nargs := some .star, default := some (some (.str \"parallel","the calls are those of the parser of C83",T,count=2)
