import Verif.Model.LRUStock
import Mathlib.Data.Rat.Defs
import Mathlib.Algebra.Order.Ring.Unbundled.Rat
import Mathlib.Order.Defs.LinearOrder

/-! Model of lib/daeso/thirdparty/GenericCache/GenericCache.py:40-203 and decorators.py:11-60.
Keys are the strings `str(key)` (callers pass strings; for other keys `insert` tests membership with the
raw key, which is not modelled).  Every method runs under the object's lock, so operations are atomic
(Props/CacheThreads.lean proves that for the statement-level model in Model/CacheThreads.lean); the
clock reading of an operation is a parameter. -/
namespace Verif.GenericCache
open Verif

/-- A GenericCache.  `maxsize = 0` stands for None or 0, `expiry = 0` for None or 0.  `values` maps the key to
the value of its CacheNode and the node's timestamp. -/
structure Cache (ν : Type) where
  maxsize : Nat
  expiry : ℚ
  defaultFail : Bool
  values : AD String (ν × ℚ)
  lru : LRUStock.Stock String

variable {ν : Type}

/-- GenericCache.py:44-62 `__init__`. -/
def empty (maxsize : Nat) (expiry : ℚ) (fail : Bool) : Cache ν := ⟨maxsize, expiry, fail, [], LRUStock.empty⟩

/-- GenericCache.py:64-71 `_has_expired`. -/
def hasExpired (c : Cache ν) (e : ν × ℚ) (now : ℚ) : Bool :=
  decide (c.expiry ≠ 0) && decide (e.2 + c.expiry < now)

/-- GenericCache.py:117-126 `remove`. -/
def remove (c : Cache ν) (key : String) : Cache ν :=
  if c.values.has key then { c with lru := LRUStock.discard c.lru key, values := c.values.del key } else c

/-- GenericCache.py:79, body of the loop of `_shrink`; `str(None)` is "None". -/
def shrinkBody (c : Cache ν) : Py (Cache ν) := .ok (remove c ((LRUStock.pop c.lru).getD "None"))

/-- GenericCache.py:73-79 `_shrink`, with a budget of loop tests. -/
def shrink (fuel : Nat) (nb : Nat) (c : Cache ν) : Py (Cache ν) :=
  if c.maxsize ≠ 0 then
    Py.whileLoop (fun c => .ok (decide (c.values.length + nb > c.maxsize))) shrinkBody fuel c
  else .ok c

/-- GenericCache.py:81-103 `fetch` (also `__getitem__`); `.ok none` means that `onmissing` is returned. -/
def fetch (c : Cache ν) (key : String) (fail : Option Bool) (now : ℚ) : Cache ν × Py (Option ν) :=
  let fail := fail.getD c.defaultFail
  match c.values.get? key with
  | none => (c, if fail then .error .keyError else .ok none)
  | some e =>
    if hasExpired c e now then (remove c key, if fail then .error .keyError else .ok none)
    else ({ c with lru := LRUStock.update c.lru key }, .ok (some e.1))

/-- GenericCache.py:155-157: the end of `insert`. -/
def store (c : Cache ν) (key : String) (v : ν) (now : ℚ) : Cache ν :=
  { c with values := c.values.set key (v, now), lru := LRUStock.add c.lru key }

/-- GenericCache.py:137-157 `insert` (also `__setitem__`). -/
def insert (fuel : Nat) (c : Cache ν) (key : String) (v : ν) (now : ℚ) : Py (Cache ν) :=
  if c.values.has key then .ok (store c key v now)
  else match shrink fuel 1 c with
    | .ok c1 => .ok (store c1 key v now)
    | .error e => .error e

/-- GenericCache.py:105-115 `fetch_with_generator`: the generator's result `v` is used on a miss; a KeyError of
`fetch` propagates. -/
def fetchWithGenerator (fuel : Nat) (c : Cache ν) (key : String) (v : ν) (now now' : ℚ) : Cache ν × Py ν :=
  match fetch c key none now with
  | (c1, .error e) => (c1, .error e)
  | (c1, .ok (some r)) => (c1, .ok r)
  | (c1, .ok none) => match insert fuel c1 key v now' with
    | .ok c2 => (c2, .ok v)
    | .error e => (c1, .error e)

/-- GenericCache.py:128-135 `reconfigure`. -/
def reconfigure (fuel : Nat) (c : Cache ν) (maxsize : Nat) (expiry : ℚ) : Py (Cache ν) :=
  shrink fuel 0 { c with maxsize := maxsize, expiry := expiry }

/-- GenericCache.py:159-165 `clear`. -/
def clear (c : Cache ν) : Cache ν := { c with values := [], lru := LRUStock.clear c.lru }

/-- GenericCache.py:174-177, body of `collect`. -/
def collectBody (now : ℚ) (c : Cache ν) (key : String) : Cache ν :=
  match c.values.get? key with
  | none => c
  | some e => if hasExpired c e now then remove c key else c

/-- GenericCache.py:167-177 `collect`. -/
def collect (c : Cache ν) (now : ℚ) : Cache ν := c.values.keys.foldl (collectBody now) c

/-- GenericCache.py:179-184, 190 `size`, `__len__`. -/
def size (c : Cache ν) : Nat := c.values.length

end Verif.GenericCache
