Z="Model.CacheRun"; T="GenericCache"
m("crn-ins",Z,"step","| .insert k v t => match insert fuel c k v t with\n    | .ok c' => .ok (c', .ok none)","| .insert k v t => match insert fuel c k v t with\n    | .ok _ => .ok (c, .ok none)","an insertion is kept",T)
m("crn-rem",Z,"step","| .remove k => .ok (remove c k, .ok none)","| .remove _ => .ok (c, .ok none)","a removed key is gone",T)
m("crn-clear",Z,"step","| .clear => .ok (clear c, .ok none)","| .clear => .ok (c, .ok none)","clear forgets all",T)
m("crn-collect",Z,"step","| .collect t => .ok (collect c t, .ok none)","| .collect t => .ok (collect c (t+1), .ok none)","collect removes only expired entries",T)
m("crn-fetch",Z,"step","| .fetch k fail t => .ok (fetch c k fail t)","| .fetch k fail _ => .ok (fetch c k fail 0)","expired entries are not returned",T)
m("crn-fail",Z,"step","| .fetch k fail t => .ok (fetch c k fail t)","| .fetch k _ t => .ok (fetch c k none t)","fail decides",T)
m("crn-recon",Z,"step","match reconfigure fuel c m x with\n    | .ok c' => .ok (c', .ok none)","match reconfigure fuel c m (x+1) with\n    | .ok c' => .ok (c', .ok none)","reconfigure sets the expiry",T)
m("crn-memo",Z,"memoStep","fetchWithGenerator fuel c (key a) (f a) t t'","fetchWithGenerator fuel c \"k\" (f a) t t'","calls with other keys get other values",T)
m("crn-memo2",Z,"memoRun",".ok (c2, o.toList ++ os)",".ok (c2, os ++ o.toList)","results in order",T)
