Z = "Model.Argparse"
T = "CommandLine"
def a(name, d, old, new, claim): m(name, Z, d, old, new, claim, T)
a("ap-lookup-last", "lookup", "((optionStrings p).find? fun e => e.1 = n)", "((optionStrings p).find? fun e => n.isPrefixOf e.1)", "an option is looked up by its whole name")
a("ap-pos-all", "positionals", "p.filter fun a => a.names = []", "p.filter fun a => a.names = [] || a.required = false", "positional arguments are those without names")
a("ap-neg-first", "negativeNumber", "| '-' :: c :: r => c.isDigit ||", "| '-' :: c :: r => false ||", "a dash and a digit is a value if no option has digits")
a("ap-neg-all", "parseOptional", "if negativeNumber s && !hasNegative p then", "if !hasNegative p then", "unknown options are not accepted")
a("ap-neg-has", "parseOptional", "if negativeNumber s && !hasNegative p then", "if negativeNumber s && hasNegative p then", "negative numbers are values if no option looks like one")
a("ap-neg-never", "parseOptional", "if negativeNumber s && !hasNegative p then", "if false then", "negative numbers are values if no option looks like one")
a("ap-eq-keep", "optionTuples", "some ((s.dropWhile (· ≠ '=')).drop 1)", "some (s.dropWhile (· ≠ '='))", "the value after = is without the =")
a("ap-eq-last", "optionTuples", "let pre := if '=' ∈ s then s.takeWhile (· ≠ '=') else s", "let pre := s", "a long option can have its value after =")
a("ap-eq-none", "optionTuples", "let e := if '=' ∈ s then some ((s.dropWhile (· ≠ '=')).drop 1) else none", "let e := (none : Option Text)", "the value after = is a value of the option")
a("ap-prefix-exact", "optionTuples", "if pre.isPrefixOf o.1 then some (o.2, o.1, e)", "if pre = o.1 then some (o.2, o.1, e)", "a long name can be shortened")
a("ap-prefix-rev", "optionTuples", "if pre.isPrefixOf o.1 then some (o.2, o.1, e)", "if o.1.isPrefixOf pre then some (o.2, o.1, e)", "only a start of a name is the name")
a("ap-short-drop", "optionTuples", "some (o.2, o.1, some (s.drop 2))", "some (o.2, o.1, some (s.drop 1))", "the value joined to a short option")
a("ap-short-none", "optionTuples", "if o.1 = s.take 2 then some (o.2, o.1, some (s.drop 2))\n      else if", "if", "a value can be joined to a short option")
a("ap-amb-first", "parseOptional", "| e :: f :: l => .error (.ambiguous s ((e :: f :: l).map fun t => t.2.1))\n      | [(a, n, e)] => .ok (.opt a n e)", "| (a, n, e) :: _ => .ok (.opt a n e)", "ambiguous starts are not accepted")
a("ap-unknown-arg", "parseOptional", "else .ok (.unknown s)", "else .ok (.arg s)", "unknown options are not accepted")
a("ap-space", "parseOptional", "else if ' ' ∈ s then .ok (.arg s)", "else if ' ' ∉ s then .ok (.arg s)", "unknown options are not accepted")
a("ap-dash-opt", "parseOptional", "else if s.head? ≠ some '-' then .ok (.arg s)", "else if s.head? = some '-' then .ok (.arg s)", "strings without a dash are values")
a("ap-dashes", "classify", "if s = ['-', '-'] then .ok (.dash :: r.map .arg)\n    else match", "match", "after -- all strings are files")
a("ap-dashes-rest", "classify", ".ok (.dash :: r.map .arg)", "(classify p r).map (.dash :: ·)", "after -- all strings are files, whatever they look like")
a("ap-dashes-any", "classify", "if s = ['-', '-'] then", "if s.all (· = '-') then", "only -- ends the options")
a("ap-one-greedy", "lens", "| .any, k => down (run (fun x => x = .A || x = .D) k)", "| .any, k => [run (fun x => x = .A || x = .D) k]", "files are divided so that all positional arguments get theirs")
a("ap-many-lazy", "lens", "| .many, k => down (run (· = .A) k)", "| .many, k => (down (run (· = .A) k)).reverse", "an option with any number of values takes all that follow")
a("ap-pattern-plus", "pattern", "| .plus => [.one, .many]", "| .plus => [.many]", "an option with + takes at least one value")
a("ap-pattern-num", "pattern", "| .num n => List.replicate n .one", "| .num n => List.replicate (n + 1) .one", "an option with a number takes that many values")
a("ap-pattern-posnum", "pattern", "| .num n => .dashes :: (joined n ++ [.dashes])", "| .num n => .dashes :: (joined (n + 1) ++ [.dashes])", "a positional argument with a number takes that many strings")
a("ap-pattern-posplus", "pattern", "| .plus => [.dashes, .one, .any]", "| .plus => [.dashes, .any]", "a positional argument with + takes at least one string")
a("ap-pattern-optd", "pattern", "| .one => [.one]\n    | .opt => [.opt]", "| .one => [.dashes, .one]\n    | .opt => [.opt]", "-- is not among the values of an option")
a("ap-pattern-posdash", "pattern", "| .one => [.dashes, .one, .dashes]", "| .one => [.one]", "after -- strings are files")
a("ap-slices", "matchSlices", "| none => matchSlices l k i", "| none => []", "positional arguments can be given in several places")
a("ap-value-int", "getValue", "| .ok n => .ok (.int n)", "| .ok n => .ok (.int n.natAbs)", "the value of a numeral")
a("ap-value-strip", "getValue", "StatsTable.parseInt (Etree.strip isSpace s)", "StatsTable.parseInt s", "white space around a numeral is ignored")
a("ap-value-str", "getValue", "| .identity => .ok (.str s)", "| .identity => .ok (.str (Etree.strip isSpace s))", "strings are kept as they are")
a("ap-dash-kept", "getValues", "let l := strs.filter (· ≠ ['-', '-'])", "let l := strs", "-- is not a value")
a("ap-one-list", "getValues", "| [s], .one | [s], .opt => match", "| [s], .opt => match", "an argument with one value has this value, not a list")
a("ap-plus-single", "getValues", "| [s], .one | [s], .opt => match", "| [s], .one | [s], .opt | [s], .plus => match", "an argument with + has a list, also for one value")
a("ap-const", "call", "| .const c => .ok (setDest a c ns)", "| .const c => .ok (setDest a v ns)", "a flag sets its constant")
a("ap-append-first", "call", "| .list l => .ok (setDest a (.list (l ++ [v])) ns)", "| .list l => .ok (setDest a (.list (v :: l)) ns)", "appended values are in the order of the line")
a("ap-append-one", "call", "| .list l => .ok (setDest a (.list (l ++ [v])) ns)", "| .list l => .ok (setDest a (.list [v]) ns)", "all appended values are kept")
a("ap-help-on", "call", "| .help => .error .help", "| .help => .ok ns", "-h ends the parse")
a("ap-version-help", "call", "| .version => .error .version", "| .version => .error .help", "-v shows the version")
a("ap-cluster-rest", "cluster", "else if n = 1 then .ok ([(a, [e])], rest)", "else if n = 1 then .ok ([(a, [e])], rest.drop 1)", "no string is lost")
a("ap-cluster-lost", "cluster", "| .ok r => .ok ((a, []) :: r.1, r.2)", "| .ok r => .ok (r.1, r.2)", "all joined options count")
a("ap-cluster-order", "cluster", "| .ok r => .ok ((a, []) :: r.1, r.2)", "| .ok r => .ok (r.1 ++ [(a, [])], r.2)", "joined options count in their order")
a("ap-cluster-unknown", "cluster", "| none => .error (.ignored a (if e' = [] then none else some e'))", "| none => .ok ([(a, [])], rest)", "unknown letters among joined options are not accepted")
a("ap-cluster-long", "cluster", "if n = 0 ∧ name[1]? ≠ some '-' then", "if n = 0 then", "--flag=x is not accepted")
a("ap-cluster-val", "cluster", "else .error (.ignored a (some e))", "else .ok ([(a, [])], rest)", "a value for a flag is not accepted")
a("ap-single-drop", "single", "rest.drop n)", "rest.drop (n + 1))", "no string is lost")
a("ap-single-text", "single", "(rest.take n).map Tok.text", "(rest.take (n - 1)).map Tok.text", "an option has all its values")
a("ap-slices-n", "slices", "slices l (ts.drop n)", "slices l ts", "positional arguments have their own strings")
a("ap-cons-sum", "consumePositionals", "pos.drop counts.length, counts.sum)", "pos, counts.sum)", "a positional argument is filled once")
a("ap-loop-extras", "loop", "| .ok (st, pos, n) => .ok (st, pos, extras ++ (ts.drop n).map Tok.text)", "| .ok (st, pos, n) => .ok (st, pos, extras)", "files that nothing uses are unrecognized")
a("ap-loop-mid", "loop", "let extras := extras ++ (ts.takeWhile Tok.plain).map Tok.text", "let extras := extras", "files that nothing uses are unrecognized")
a("ap-loop-unknown", "loop", "| t :: rest => loop p fuel rest pos st (extras ++ [t.text])", "| t :: rest => loop p fuel rest pos st extras", "unknown options are not accepted")
a("ap-defaults-has", "defaults", "if ns.has d then defaults p ns", "if !ns.has d then defaults p ns", "defaults are set")
a("ap-defaults-raw", "getDefault", "| .str s => getValue a s", "| .str s => .ok (.str s)", "defaults that are strings are converted")
a("ap-few", "parseKnownArgs", "if pos ≠ [] then .error .tooFew\n        else match", "match", "missing files are an error")
a("ap-required", "parseKnownArgs", "else match p.find? fun a => a.required && !st.seen.contains a with", "else match (none : Option Arg) with", "equivalent: all positional arguments that are not left over have been seen")
a("ap-extras-ok", "parseArgs", "if extras ≠ [] then .error (.unrecognized extras) else .ok ns", ".ok ns", "unrecognized strings are an error")
m("ap-dest-last", "Model.Argparse", "destOf", "| n :: _ => n\n", "| n :: r => r.getLastD n\n", "the first long name gives the attribute", "CommandLine UsageHelp")
a("ap-dest-short", "destOf", "names.filter fun n => n[1]? = some '-'", "names.filter fun n => n[1]? ≠ some '-'", "the tools read the attributes by the long names")
a("ap-dest-under", "destOf", "if c = '-' then '_' else c", "c", "the tools read the attributes with underscores")
m("ap-flag-default", "Model.Argparse", "flag", "act := .const (.bool true), default := some (.bool false)", "act := .const (.bool false), default := some (.bool true)", "a flag is False unless given", "CommandLine UsageHelp")
a("ap-req", "positional", "required := nargs ≠ .opt", "required := false", "positional arguments are required")
a("ap-threshold", "gbStats", "(ty := .int) (default := .int 0)).called \"threshold\"]\n\n/-- bin/pgc_agreement", "(default := .int 0)).called \"threshold\"]\n\n/-- bin/pgc_agreement", "the threshold of gb_stats is a number")
a("ap-agr-dest", "pgcAgreement", "dest := some \"annotators\"", "dest := some \"annotator\"", "pgc_agreement passes the keywords of run_eval")
a("ap-chdir-one", "pgcChdir", "(nargs := .num 2) (default := .list [s \"\", s \"\"])", "(nargs := .plus) (default := .list [s \"\", s \"\"])", "pgc_chdir has two prefixes")
a("ap-cp-swap", "pgcCp", "positional \"source\" .plus,\n  positional \"target\" .one,", "positional \"source\" .plus,\n  positional \"target\" .plus,", "the files of pgc_cp are divided in one way")
a("ap-stats-type", "pgcStats", "(ty := .notCallable)", "(ty := .int)", "the limit: the threshold of pgc_stats cannot be set")
a("ap-names-twice", "pgcDiff", "flag [\"-e\", \"--evaluate\"]", "flag [\"-c\", \"--evaluate\"]", "option names differ, or the parser cannot be built")
tight={"ap-flag-default":["UsageHelp.tools_declared"],"ap-dest-last":["UsageHelp.declared"]}
