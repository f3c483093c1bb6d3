W="CacheThreads"; T="Model.Threads"; C="Model.CacheThreads"
m("th1",T,"synchronized",".acquire (body.bind fun r => .release (.ret r))","body","the lock is not taken",W)
m("th2",T,"synchronized",".acquire (body.bind fun r => .release (.ret r))",".acquire body","the lock is not released",W)
m("th3",T,"lockAcquire","if j = i then some (some (i, n + 1)) else none","none","the lock cannot be taken twice by its owner: deadlock in nested calls",W)
m("th4",T,"lockAcquire","if j = i then some (some (i, n + 1)) else none","some (some (i, n + 1))","the lock does not exclude other threads",W)
m("th5",T,"lockRelease","some (if n = 1 then none else some (i, n - 1))","some none","the end of a nested call frees the lock",W)
m("th6",T,"lockAcquire","if j = i then some (some (i, n + 1)) else none","if j = i then some (some (i, n)) else none","the lock forgets how often it was taken",W)
m("th7",C,"opImpl","synchronized (opBody fuel op)","opBody fuel op","methods are not synchronized",W)
m("th8",C,"memoImpl","synchronized (memoBody key f fuel op)","memoBody key f fuel op","memoised calls are not synchronized: another thread can clear in between",W)
m("th9",C,"collectLoop","if x then removeA key else pure ()\n    collectLoop","if x then removeBody key else lruDiscard key\n    collectLoop","collection drops unexpired entries from the recency list",W)
m("th10",C,"fetchBody","      lruUpdate key\n      pure (some e.1)","      pure (some e.1)","a fetch does not make an entry recent",W)
m("th11",C,"insertBody","if b then pure () else shrinkA fuel 1","shrinkA fuel 1","replacing an entry evicts another",W)
m("th12",C,"generateBody","    insertA fuel key v now'\n    pure v","    insertA fuel key v now'\n    fetchBody key none now' >>= fun r => match r with | some v => pure v | none => raise .keyError","the generated value is fetched again",W)
m("th13",C,"lruAdd","  setLru fun s => { s with next := LRUStock.upd s.next (s.prev node) node }\n  setLru fun s => { s with prev := LRUStock.upd s.prev 0 node }","  setLru fun s => { s with prev := LRUStock.upd s.prev 0 node }\n  setLru fun s => { s with next := LRUStock.upd s.next (s.prev 0) node }","the new node is linked to itself",W)
m("th14",C,"callImpl","| .contains k => .step id fun c => .ret (.bool (c.values.has k))","| .contains k => synchronized (.step id fun c => .ret (.bool (c.values.has k)))","membership tests are synchronized",W)
