import Verif.Model.CacheRun
import Verif.Model.Threads

/-! The methods of GenericCache and LRUStock as programs of atomic steps, one for each Python statement (or test) that reads
or writes the shared cache, for threads that use one cache (GenericCache.py:40-203, LRUStock.py:11-118).  Clock readings are
parameters of the calls. -/
namespace Verif.CacheThreads
open Verif Verif.Threads Verif.GenericCache Verif.Spec

variable {ν : Type}

/-- An assignment to a field of the LRUStock. -/
def setLru (f : LRUStock.Stock String → LRUStock.Stock String) : Act (Cache ν) Unit :=
  write fun c => { c with lru := f c.lru }

/-- LRUStock.py:43-52 `discard`. -/
def lruDiscard (k : String) : Act (Cache ν) Unit := do
  let b ← look fun c => .ok (c.lru.keys.has k)
  if b then
    let node ← look fun c => c.lru.keys.get k
    setLru fun s => { s with next := LRUStock.upd s.next (s.prev node) (s.next node) }
    setLru fun s => { s with prev := LRUStock.upd s.prev (s.next node) (s.prev node) }
    tryWrite (fun c => c.lru.keys.has k) .keyError fun c => { c with lru := { c.lru with keys := c.lru.keys.del k } }
  else pure ()

/-- LRUStock.py:54-63 `add`. -/
def lruAdd (k : String) : Act (Cache ν) Unit := do
  let node ← look fun c => .ok c.lru.fresh
  setLru fun s => { s with fresh := s.fresh + 1, item := LRUStock.upd s.item node (some k) }
  setLru fun s => { s with keys := s.keys.set k node }
  setLru fun s => { s with next := LRUStock.upd s.next node 0 }
  setLru fun s => { s with prev := LRUStock.upd s.prev node (s.prev 0) }
  setLru fun s => { s with next := LRUStock.upd s.next (s.prev node) node }
  setLru fun s => { s with prev := LRUStock.upd s.prev 0 node }

/-- LRUStock.py:36-41 `update`. -/
def lruUpdate (k : String) : Act (Cache ν) Unit := do
  lruDiscard k
  lruAdd k

/-- LRUStock.py:65-71 `pop`. -/
def lruPop : Act (Cache ν) (Option String) := do
  let e ← look fun c => .ok (decide (c.lru.next 0 = 0))
  if e then pure none else look fun c => .ok (c.lru.item (c.lru.next 0))

/-- LRUStock.py:106-112 `clear`. -/
def lruClear : Act (Cache ν) Unit := do
  setLru fun s => { s with keys := [] }
  setLru fun s => { s with next := LRUStock.upd s.next 0 0 }
  setLru fun s => { s with prev := LRUStock.upd s.prev 0 0 }

/-- GenericCache.py:118-126: the body of `remove`. -/
def removeBody (key : String) : Act (Cache ν) Unit := do
  let b ← look fun c => .ok (c.values.has key)
  if b then
    let _ ← look fun c => c.values.get key
    lruDiscard key
    tryWrite (fun c => c.values.has key) .keyError fun c => { c with values := c.values.del key }
  else pure ()

/-- GenericCache.py:117-126 `remove`. -/
def removeA (key : String) : Act (Cache ν) Unit := synchronized (removeBody key)

/-- GenericCache.py:179-184 `size`. -/
def sizeA : Act (Cache ν) Nat := synchronized (look fun c => .ok c.values.length : Act (Cache ν) Nat)

/-- GenericCache.py:78-79: the loop of `_shrink`, with a budget of tests. -/
def shrinkLoop (nb : Nat) : Nat → Act (Cache ν) Unit
  | 0 => raise .fuel
  | fuel + 1 => do
    let n ← sizeA
    let b ← look fun c => .ok (decide (n + nb > c.maxsize))
    if b then
      let k ← lruPop
      removeA (k.getD "None")
      shrinkLoop nb fuel
    else pure ()

/-- GenericCache.py:73-79 `_shrink`. -/
def shrinkA (fuel nb : Nat) : Act (Cache ν) Unit := do
  let b ← look fun c => .ok (decide (c.maxsize ≠ 0))
  if b then shrinkLoop nb fuel else pure ()

/-- GenericCache.py:64-71 `_has_expired`. -/
def hasExpiredA (e : ν × ℚ) (now : ℚ) : Act (Cache ν) Bool := do
  let b ← look fun c => .ok (decide (c.expiry ≠ 0))
  if b then look fun c => .ok (decide (e.2 + c.expiry < now)) else pure false

/-- GenericCache.py:82-103: the body of `fetch`; `none` is `onmissing`. -/
def fetchBody (key : String) (fail : Option Bool) (now : ℚ) : Act (Cache ν) (Option ν) := do
  let fail ← look fun c => .ok (fail.getD c.defaultFail)
  let b ← look fun c => .ok (c.values.has key)
  if b then
    let e ← look fun c => c.values.get key
    let x ← hasExpiredA e now
    if x then
      removeA key
      if fail then raise .keyError else pure none
    else
      lruUpdate key
      pure (some e.1)
  else if fail then raise .keyError else pure none

/-- GenericCache.py:81-103 `fetch`. -/
def fetchA (key : String) (fail : Option Bool) (now : ℚ) : Act (Cache ν) (Option ν) := synchronized (fetchBody key fail now)

/-- GenericCache.py:138-157: the body of `insert`. -/
def insertBody (fuel : Nat) (key : String) (v : ν) (now : ℚ) : Act (Cache ν) Unit := do
  let b ← look fun c => .ok (c.values.has key)
  if b then pure () else shrinkA fuel 1
  write fun c => { c with values := c.values.set key (v, now) }
  lruAdd key

/-- GenericCache.py:137-157 `insert`. -/
def insertA (fuel : Nat) (key : String) (v : ν) (now : ℚ) : Act (Cache ν) Unit :=
  synchronized (insertBody fuel key v now)

/-- GenericCache.py:106-115: the body of `fetch_with_generator`; the generator is any program, run with the lock held. -/
def generateBody (fuel : Nat) (key : String) (generator : Act (Cache ν) ν) (now now' : ℚ) : Act (Cache ν) ν := do
  let r ← fetchA key none now
  match r with
  | some v => pure v
  | none => do
    let v ← generator
    insertA fuel key v now'
    pure v

/-- GenericCache.py:105-115 `fetch_with_generator`. -/
def generateA (fuel : Nat) (key : String) (generator : Act (Cache ν) ν) (now now' : ℚ) : Act (Cache ν) ν :=
  synchronized (generateBody fuel key generator now now')

/-- GenericCache.py:129-135: the body of `reconfigure`. -/
def reconfigureBody (fuel maxsize : Nat) (expiry : ℚ) : Act (Cache ν) Unit := do
  write fun c => { c with maxsize := maxsize }
  write fun c => { c with expiry := expiry }
  shrinkA fuel 0

/-- GenericCache.py:160-165: the body of `clear`. -/
def clearBody : Act (Cache ν) Unit := do
  write fun c => { c with values := [] }
  lruClear

/-- GenericCache.py:173-177: the loop of `collect`. -/
def collectLoop (now : ℚ) : List String → Act (Cache ν) Unit
  | [] => pure ()
  | key :: keys => do
    let e ← look fun c => c.values.get key
    let x ← hasExpiredA e now
    if x then removeA key else pure ()
    collectLoop now keys

/-- GenericCache.py:168-177: the body of `collect`. -/
def collectBodyA (now : ℚ) : Act (Cache ν) Unit := do
  let keys ← look fun c => .ok c.values.keys
  collectLoop now keys

/-- The bodies of the synchronized methods (GenericCache.py:81-184); methods without a result return None. -/
def opBody (fuel : Nat) : CacheOp ν → Act (Cache ν) (Option ν)
  | .insert k v t => do
    insertBody fuel k v t
    pure none
  | .fetch k fail t => fetchBody k fail t
  | .remove k => do
    removeBody k
    pure none
  | .clear => do
    clearBody
    pure none
  | .collect t => do
    collectBodyA t
    pure none
  | .reconfigure m x => do
    reconfigureBody fuel m x
    pure none

/-- The synchronized methods. -/
def opImpl (fuel : Nat) (op : CacheOp ν) : Act (Cache ν) (Option ν) := synchronized (opBody fuel op)

/-- Calls of a memoised function (decorators.py:17-30), and the other synchronized methods. -/
def memoBody {α : Type} (key : α → String) (f : α → ν) (fuel : Nat) : MemoOp α → Act (Cache ν) (Option ν)
  | .call a t t' => do
    let v ← generateBody fuel (key a) (pure (f a)) t t'
    pure (some v)
  | .remove k => do
    removeBody k
    pure none
  | .clear => do
    clearBody
    pure none
  | .collect t => do
    collectBodyA t
    pure none
  | .reconfigure m x => do
    reconfigureBody fuel m x
    pure none

/-- The same, synchronized. -/
def memoImpl {α : Type} (key : α → String) (f : α → ν) (fuel : Nat) (op : MemoOp α) : Act (Cache ν) (Option ν) :=
  synchronized (memoBody key f fuel op)

/-- A synchronized method, or GenericCache.py:198-203 `has_key` (also `in`), which is not synchronized. -/
inductive Call (ν : Type) where
  | op (o : CacheOp ν)
  | contains (k : String)

/-- The result of a call. -/
inductive Result (ν : Type) where
  | value (r : Py (Option ν))
  | bool (b : Bool)

/-- The programs of all methods. -/
def callImpl (fuel : Nat) : Call ν → Cmd (Cache ν) (Result ν)
  | .op o => Cmd.bind (opImpl fuel o) fun r => .ret (.value r)
  | .contains k => .step id fun c => .ret (.bool (c.values.has k))

end Verif.CacheThreads
