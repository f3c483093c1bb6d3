Z = "Model.Argparse"
Y = "Model.ArgExit"
T = "CommandErrors CommandLine"
H = "CommandErrors"
def a(name,d,old,new,claim): m(name,Z,d,old,new,claim,T)
def b(name,d,old,new,claim): m(name,Y,d,old,new,claim,H)
a("ce-ign-keep","cluster","(.ignored a (if e' = [] then none else some e'))","(.ignored a (some (c :: e')))","the characters that are named as ignored")
a("ce-ign-none","cluster","(.ignored a (if e' = [] then none else some e'))","(.ignored a none)","the characters that are named as ignored")
a("ce-ign-long","cluster",".error (.ignored a (some e))",".error (.ignored a none)","the value after = is named as ignored")
a("ce-ign-exp","cluster",".error (.ignored a (some e))",".error (.expected a)","a value for an option without values is ignored, not missing")
a("ce-amb-drop","parseOptional","((e :: f :: l).map fun t => t.2.1)","((f :: l).map fun t => t.2.1)","all names that an ambiguous string starts are listed")
a("ce-amb-str","parseOptional",".error (.ambiguous s (",".error (.ambiguous (s.take 3) (","the ambiguous string is named as it is")
a("ce-amb-late","classify","| .error e => .error e\n      | .ok t => match classify p r with\n        | .error e => .error e","| .error e => (match classify p r with | .error x => .error x | .ok _ => .error e)\n      | .ok t => match classify p r with\n        | .error e => .error e","the first ambiguous string is reported")
a("ce-exp-few","matchArgument",".error (.expected a)",".error .tooFew","an option without its values is reported as such")
a("ce-inv-str","getValue",".error (.invalid a s)",".error (.invalid a (Etree.strip isSpace s))","the invalid number is shown as it was given")
a("ce-inv-call","getValue","| .error _ => .error (.invalid a s)","| .error _ => .error (.notCallable a)","the reason for an invalid number")
a("ce-call-inv","getValue",".error (.notCallable a)",".error (.invalid a s)","the type is said to be wrong, not the value")
a("ce-few-unrec","parseKnownArgs","if pos ≠ [] then .error .tooFew","if pos ≠ [] then .error (.unrecognized extras)","missing positional arguments are reported as too few")
a("ce-few-over","parseKnownArgs","if pos ≠ [] then .error .tooFew","if pos ≠ [] ∧ extras = [] then .error .tooFew","strings are unrecognized only if no positional argument is missing")
a("ce-unrec-drop","parseArgs",".error (.unrecognized extras)",".error (.unrecognized (extras.take 1))","all strings that are left over are named")
a("ce-unrec-order","parseArgs",".error (.unrecognized extras)",".error (.unrecognized extras.reverse)","the strings that are left over are named in their order")
a("ce-unrec-few","parseArgs",".error (.unrecognized extras)",".error .tooFew","strings that are left over are no lack of arguments")
a("ce-extra-rest","loop","extras ++ (ts.takeWhile Tok.plain).map Tok.text","extras ++ ts.map Tok.text","only strings that nothing took are left over")
a("ce-extra-lost","loop","| t :: rest => loop p fuel rest pos st (extras ++ [t.text])","| t :: rest => loop p fuel rest pos st extras","unknown options are named")
a("ce-extra-end","loop",".ok (st, pos, extras ++ (ts.drop n).map Tok.text)",".ok (st, pos, extras)","strings after the positional arguments are named")
a("ce-help-ver","call","| .help => .error .help","| .help => .error .version","-h shows the help")
a("ce-zero","readOption","| none => single a rest","| none => .ok ([(a, [])], rest)","options take the strings after them")
b("ce-status","parseOrExit","message repr l x ++ ['\\n'], 2⟩","message repr l x ++ ['\\n'], 1⟩","the status after an error is 2")
b("ce-help-status","parseOrExit","description epilog l, 0⟩","description epilog l, 2⟩","the status after the help is 0")
b("ce-ver-status","parseOrExit","version, 0⟩","version, 1⟩","the status after the version is 0")
b("ce-ver-help","parseOrExit","| .error .version => do .ok (.error ⟨← versionText o raw columns version, 0⟩)","| .error .version => do .ok (.error ⟨← helpText o raw columns prog description epilog l, 0⟩)","the version is shown for -v")
b("ce-usage-help","parseOrExit","(← usageText columns prog l) ++ prog","(← helpText {wrap := fun t _ => .ok [t], percent := .ok} raw columns prog description epilog l) ++ prog","the usage stands before an error")
b("ce-usage-none","parseOrExit","(← usageText columns prog l) ++ prog","prog","the usage stands before an error")
b("ce-usage-swap","parseOrExit","(← usageText columns prog l) ++ prog ++ \": error: \".toList ++ message repr l x ++ ['\\n']","prog ++ \": error: \".toList ++ message repr l x ++ ['\\n'] ++ (← usageText columns prog l)","the usage stands before the error")
b("ce-usage-narrow","parseOrExit","← usageText columns prog l","← usageText (columns + 8) prog l","the usage fits the terminal")
b("ce-newline","parseOrExit","message repr l x ++ ['\\n']","message repr l x","the error is a line")
b("ce-prog","parseOrExit","prog ++ \": error: \".toList","\"error: \".toList","the program is named")
b("ce-catch-all","parseOrExit","| .ok ns => .ok (.ok ns)","| .ok ns => .ok (.ok (ns.drop 1))","the namespace is that of the command line")
b("ce-reverse","parseOrExit","parseArgs (l.map (·.arg)) args","parseArgs (l.reverse.map (·.arg)) args","the arguments have their order")
b("ce-name-first","actionName","['/'].intercalate s.arg.names","s.arg.names.headD []","an option is called by all its names")
b("ce-name-sep","actionName","['/'].intercalate","[',', ' '].intercalate","the names are separated by a slash")
b("ce-name-dest","actionName","if s.arg.names ≠ [] then","if s.arg.names ≠ [] ∧ s.metavar = none then","an option is called by its names")
b("ce-name-meta","actionName","| some m => m","| some _ => s.dest","a positional argument is called by its metavar")
b("ce-named-head","named","l.find? fun s => s.arg = a","l.head?","the argument that the error is about is named")
b("ce-named-dest","named","fun s => s.arg = a","fun s => s.arg.nargs = a.nargs","the argument that the error is about is named")
b("ce-arg","argumentError","\"argument \".toList ++ named l a ++ \": \"","\"option \".toList ++ named l a ++ \": \"","the words of the message")
b("ce-exp-one","expectedText","| .plus => \"expected at least one argument\".toList","| .plus => \"expected one argument\".toList","how many values an option needs is said")
b("ce-exp-num","expectedText","StatsTable.showInt n","StatsTable.showInt (n - 1)","how many values an option needs is said")
b("ce-exp-default","expectedText","| .one => \"expected one argument\".toList","| .one => \"expected None argument(s)\".toList","how many values an option needs is said")
b("ce-amb-sep","message","\", \".toList.intercalate ns","\" \".toList.intercalate ns","the names are listed with commas")
b("ce-amb-last","message","\", \".toList.intercalate ns","\", \".toList.intercalate ns.dropLast","all names are listed")
b("ce-ign-repr","message","| some e => repr e","| some e => e","ignored characters are quoted")
b("ce-inv-repr","message","\"invalid int value: \".toList ++ repr s","\"invalid int value: \".toList ++ s","an invalid value is quoted")
b("ce-unrec-sep","message","spaced ws","ws.flatten","unrecognized arguments have spaces between them")
b("ce-few-text","message","| .tooFew => \"too few arguments\".toList","| .tooFew => \"too many arguments\".toList","too few arguments are said to be too few")
b("ce-ver-raw","versionText","finish (← formatTexts o raw (columns - 2) version)","(← formatTexts o (!raw) (columns - 2) version).flatten","the text of the version")
b("ce-ver-wide","versionText","(columns - 2)","(columns)","the version fits the terminal")
