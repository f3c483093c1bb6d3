W="CacheThreads"; C="Model.CacheThreads"
m("tc-size",C,"sizeA","(look fun c => .ok c.values.length : Act (Cache ν) Nat)","(look fun c => .ok c.lru.keys.length : Act (Cache ν) Nat)","size counts values",W)
m("tc-shrink-nb",C,"shrinkLoop","decide (n + nb > c.maxsize)","decide (n > c.maxsize)","room is made for the new entry",W)
m("tc-shrink-pop",C,"shrinkLoop","removeA (k.getD \"None\")","lruDiscard (k.getD \"None\")","the evicted value is removed",W)
m("tc-shrink0",C,"shrinkA","decide (c.maxsize ≠ 0)","true","maxsize 0 is no limit",W)
m("tc-expired",C,"hasExpiredA","decide (e.2 + c.expiry < now)","decide (e.2 + c.expiry ≤ now)","expires after, not at",W)
m("tc-expired0",C,"hasExpiredA","decide (c.expiry ≠ 0)","true","expiry 0 is never",W)
m("tc-fetch-rem",C,"fetchBody","      removeA key\n      if fail","      if fail","an expired entry is removed",W)
m("tc-fetch-def",C,"fetchBody",".ok (fail.getD c.defaultFail)",".ok (fail.getD false)","the default for failing",W)
m("tc-fetch-fail",C,"fetchBody","  else if fail then raise .keyError else pure none","  else pure none","missing keys fail",W)
m("tc-ins-lru",C,"insertBody","  lruAdd key","  lruUpdate key","an inserted key goes to the end",W)
m("tc-ins-nolru",C,"insertBody","\n  lruAdd key","\n  pure ()","an inserted key can be evicted",W)
m("tc-ins-order",C,"insertBody","if b then pure () else shrinkA fuel 1\n  write fun c => { c with values := c.values.set key (v, now) }","write fun c => { c with values := c.values.set key (v, now) }\n  if b then pure () else shrinkA fuel 0","eviction before the insertion",W)
m("tc-gen-noins",C,"generateBody","    insertA fuel key v now'\n    pure v","    pure v","a generated value is kept",W)
m("tc-rec-exp",C,"reconfigureBody","\n  write fun c => { c with expiry := expiry }","","the expiry changes",W)
m("tc-rec-shr",C,"reconfigureBody","shrinkA fuel 0","shrinkA fuel 1","reconfigure keeps maxsize entries",W)
m("tc-clear",C,"clearBody","\n  lruClear","\n  pure ()","clear forgets the order",W)
m("tc-collect-all",C,"collectLoop","if x then removeA key else pure ()","if x then removeA key else lruUpdate key","collect keeps the order",W)
m("tc-lru-clear",C,"lruClear","\n  setLru fun s => { s with prev := LRUStock.upd s.prev 0 0 }","","clear empties both chains",W)
m("tc-disc-next",C,"lruDiscard","LRUStock.upd s.next (s.prev node) (s.next node)","LRUStock.upd s.next (s.prev node) node","unlinking",W)
m("tc-rem-keep",C,"removeBody","\n    lruDiscard key\n","\n","removal forgets the order",W)
m("tc-pop-last",C,"lruPop","look fun c => .ok (c.lru.item (c.lru.next 0))","look fun c => .ok (c.lru.item (c.lru.prev 0))","the oldest is evicted",W)
