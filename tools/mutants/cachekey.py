Z = "Model.CacheKey"
T = "CacheKey"
def a(name,d,old,new,claim): m(name,Z,d,old,new,claim,T)
a("ck-bool","repr",'| .bool false => "False".toList','| .bool false => "True".toList',"True and False have different keys")
a("ck-none","repr",'| .none => "None".toList','| .none => "(,)".toList',"None has a key of its own; the claim stays true")
a("ck-u","repr","| .uni s => 'u' :: Pair.quoted (s.map Char.toNat)","| .uni s => Pair.quoted (s.map Char.toNat)","strings and unicode strings have different keys")
a("ck-one","repr","| .tuple [x] => '(' :: repr x ++ [',', ')']","| .tuple [x] => repr x","a value and the tuple of this value have different keys")
a("ck-list","repr","| .list (x :: l) => '[' :: repr x ++ more ']' l","| .list (x :: l) => '(' :: repr x ++ more ')' l","lists and tuples have different keys")
a("ck-list0","repr","| .list [] => ['[', ']']","| .list [] => ['(', ')']","the empty list and the empty tuple have different keys")
a("ck-dict0","repr","| .dict [] => ['{', '}']","| .dict [] => ['[', ']']","the empty dictionary and the empty list have different keys")
a("ck-dictv","repr","'{' :: repr k ++ ':' :: ' ' :: repr v ++ items l","'{' :: repr k ++ items l","values of keywords are in the key")
a("ck-more","more","',' :: ' ' :: repr x ++ more c l","more c l","all arguments are in the key")
a("ck-sep","more","',' :: ' ' :: repr x ++ more c l","repr x ++ more c l","arguments are separated in the key (1, 2 and 12)")
a("ck-items","items","',' :: ' ' :: repr k ++ ':' :: ' ' :: repr v ++ items l","',' :: ' ' :: repr k ++ items l","values of later keywords are in the key")
a("ck-items2","items","',' :: ' ' :: repr k ++ ':' :: ' ' :: repr v ++ items l","items l","later keywords are in the key")
a("ck-noname","key","[.str name, .tuple args,","[.tuple args,","the function name is in the key")
a("ck-noargs","key",".tuple args, .dict",".dict","positional arguments are in the key")
a("ck-nokw","key",".dict (kwargs.map fun e => (.str e.1, e.2))]","]","keyword arguments are in the key")
a("ck-kwnames","key","(.str e.1, e.2)","(.none, e.2)","names of keywords are in the key")
a("ck-rm-func","call",'if x.kwargs.any fun e => e.1 = bytes "func" then .ok (c, .error .typeError, false)\n','if x.kwargs.any fun e => e.1 = bytes "fun" then .ok (c, .error .typeError, false)\n',"a keyword func is a TypeError")
a("ck-rm-key","call",'|| e.1 = bytes "key" ','',"a keyword key is a TypeError")
a("ck-rm-self","call",'e.1 = bytes "self" || ','',"a keyword self is a TypeError")
a("ck-rm-gen","call",' || e.1 = bytes "generator"','',"a keyword generator is a TypeError")
a("ck-more-kw","call",'e.1 = bytes "self" || ','e.1 = bytes "self" || e.1 = bytes "cache" || ',"other keywords are passed on")
a("ck-fail-arg","call","fetch c k none t","fetch c k (some false) t","with default_fail each call is a KeyError")
a("ck-fail-arg2","call","fetch c k none t","fetch c k (some true) t","calls are transparent: no KeyError for new calls")
a("ck-noinsert","call","do .ok (← insert fuel c k v t', .ok v, true)",".ok (c, .ok v, true)","results are kept: no function is run twice")
a("ck-insert-name","call","insert fuel c k v t'","insert fuel c (repr (.str x.func.name)).asString v t'","a result is kept for its arguments only")
a("ck-none-args","call","x.func.run x.args x.kwargs with","x.func.run x.args [] with","keyword arguments reach the function")
a("ck-hit-run","call","| (c, .ok (some v)) => .ok (c, .ok v, false)","| (c, .ok (some v)) => .ok (c, x.func.run x.args x.kwargs, true)","a function is not run again for a call whose result is kept")
a("ck-err-swallow","call","| .error e => .ok (c, .error e, true)","| .error _ => .ok (c, .error .keyError, true)","a call raises what the function raises")
a("ck-step-drop","step",".ok (r.1, some r.2)",".ok (c, some r.2)","results are kept: no function is run twice")
a("ck-step-swap","step","call fuel c x t t'","call fuel c x t' t","the age of a result counts from the end of the call that computed it")
a("ck-run-drop","runOps","← runOps fuel r.1 ops","← runOps fuel c ops","results are kept from one call to the next")
Y="Model.Pair"
m("ck-quote",Y,"quoted","(ns.flatMap (escape (quote ns)) ++ [quote ns])","(ns.flatMap (escape (quote ns)))","strings end in the key: 'a', 'b' and 'a\\', \\'b'",T)
m("ck-escape",Y,"escape","∨ n = 92 then","∨ n = 93 then","backslashes are escaped in the key",T)
a("ck-age","call","insert fuel c k v t'","insert fuel c k v t","the age of a result counts from the end of the call that computed it")
a("ck-old","call","fetch c k none t","fetch c k none (t - 1)","results that are too old are not used")
tight={"ck-step-swap":["CacheKey.expiry"]}
equiv={'ck-none': 'the key is another one, but still different for different values: claims on keys stay true'}
