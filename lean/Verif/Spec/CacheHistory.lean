import Verif.Spec.LRU
import Mathlib.Data.Finset.Dedup

/-! Histories of cache operations, and what a history says about a key, without reference to any cache state. -/
namespace Verif.Spec

/-- The operations of a cache; `t` is the clock reading. -/
inductive CacheOp (ν : Type) where
  | insert (k : String) (v : ν) (t : ℚ)
  | fetch (k : String) (fail : Option Bool) (t : ℚ)
  | remove (k : String)
  | clear
  | collect (t : ℚ)
  | reconfigure (maxsize : Nat) (expiry : ℚ)

variable {ν : Type}

/-- Does the operation use the key, i.e. insert or fetch it? -/
def CacheOp.uses (k : String) : CacheOp ν → Bool
  | .insert k' _ _ => k' = k
  | .fetch k' _ _ => k' = k
  | _ => false

/-- Value and time of the last insert of a key in a history (latest operation last). -/
def lastInsert (k : String) : List (CacheOp ν) → Option (ν × ℚ)
  | [] => none
  | op :: ops => match lastInsert k ops with
    | some r => some r
    | none => match op with
      | .insert k' v t => if k' = k then some (v, t) else none
      | _ => none

/-- Position (from 1) of the last use of a key in a history; 0 if it was never used. -/
def lastUse (k : String) : List (CacheOp ν) → Nat
  | [] => 0
  | op :: ops => if 0 < lastUse k ops then lastUse k ops + 1 else if op.uses k then 1 else 0

/-- The effect of an operation on the specified cache, and what the caller of `fetch` sees. -/
def LRU.step (l : LRU ν) : CacheOp ν → LRU ν × Option ν
  | .insert k v t => (l.insert k v t, none)
  | .fetch k _ t => l.fetch k t
  | .remove k => (l.remove k, none)
  | .clear => ({ l with entries := [] }, none)
  | .collect t => (l.collect t, none)
  | .reconfigure m x => (LRU.evict ⟨m, x, l.entries⟩ 0, none)

/-- The state after a history. -/
def LRU.after (l : LRU ν) (ops : List (CacheOp ν)) : LRU ν := ops.foldl (fun l op => (l.step op).1) l

/-- The observations of a history. -/
def LRU.observe (l : LRU ν) : List (CacheOp ν) → List (Option ν)
  | [] => []
  | op :: ops => (l.step op).2 :: LRU.observe (l.step op).1 ops

/-- No operation inserts a key that is in the cache at that moment. -/
def LRU.NoReinsert (l : LRU ν) : List (CacheOp ν) → Prop
  | [] => True
  | op :: ops => (match op with
    | .insert k _ _ => l.find k = none
    | _ => True) ∧ LRU.NoReinsert (l.step op).1 ops

/-- Keys other than `k` that a history uses. -/
def otherKeys (k : String) (ops : List (CacheOp ν)) : Finset String :=
  (ops.filterMap fun op => match op with
    | .insert k' _ _ => if k' = k then none else some k'
    | .fetch k' _ _ => if k' = k then none else some k'
    | _ => none).toFinset

/-- Only inserts and fetches. -/
def OnlyUses (ops : List (CacheOp ν)) : Prop := ∀ op ∈ ops, match op with
  | .insert _ _ _ => True
  | .fetch _ _ _ => True
  | _ => False

end Verif.Spec
